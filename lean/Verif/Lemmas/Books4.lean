import Verif.Lemmas.Books3
import Verif.Props.Splitter

/-! # The decreases `BestSplitter` reports -/

set_option linter.unusedSectionVars false

namespace CloudForest
variable {K : Type} [Field K] [LinearOrder K] [IsStrictOrderedRing K] {τ : Type}

theorem treeNoter_forget (fm : FeatureMatrix K) (T : Target K) (C : Contrast K τ) (o : SplitOpts)
    (fp : List Nat → String) (md : Int) (sm : Bool) :
    (treeNoter fm T C o fp md sm).forget = treeGrower fm T C o fp md sm := by
  unfold treeNoter NotingGrower.forget treeGrower
  congr 1
  funext st cases nc
  show Option.map _ ((bestSplitter fm T C o st cases nc).bind _) =
    (bestSplitter fm T C o st cases nc).bind _
  cases bestSplitter fm T C o st cases nc <;> rfl

theorem part_left {fm : FeatureMatrix K} {fi : Nat} {F : Feature K} (hF : fm.data[fi]? = some F)
    (code : Coded K) (spl : Option (Splitter K)) (cs : List Nat) :
    (cs.filter fun c => caseDir fm (some code) fi spl c == some .L) = F.lefts code (F.knowns cs) := by
  unfold Feature.lefts Feature.knowns
  rw [List.filter_filter]
  congr 1
  funext c
  simp only [caseDir, hF]
  cases h1 : F.isMissing c with
  | none => simp
  | some b1 =>
    cases h2 : F.codedLeft code c with
    | none => cases b1 <;> simp
    | some b2 => cases b1 <;> cases b2 <;> simp

theorem part_right {fm : FeatureMatrix K} {fi : Nat} {F : Feature K} (hF : fm.data[fi]? = some F)
    (code : Coded K) (spl : Option (Splitter K)) (cs : List Nat) :
    (cs.filter fun c => caseDir fm (some code) fi spl c == some .R) = F.rights code (F.knowns cs) := by
  unfold Feature.rights Feature.knowns
  rw [List.filter_filter]
  congr 1
  funext c
  simp only [caseDir, hF]
  cases h1 : F.isMissing c with
  | none => simp
  | some b1 =>
    cases h2 : F.codedLeft code c with
    | none => cases b1 <;> simp
    | some b2 => cases b1 <;> cases b2 <;> simp

theorem part_missing {fm : FeatureMatrix K} {fi : Nat} {F : Feature K} (hF : fm.data[fi]? = some F)
    (code : Coded K) (spl : Option (Splitter K)) (cs : List Nat) :
    (cs.filter fun c => caseDir fm (some code) fi spl c == some .M) = F.missings cs := by
  unfold Feature.missings
  congr 1
  funext c
  simp only [caseDir, hF]
  cases h1 : F.isMissing c with
  | none => simp
  | some b1 =>
    cases h2 : F.codedLeft code c with
    | none => cases b1 <;> simp
    | some b2 => cases b1 <;> cases b2 <;> simp

theorem threeWayDecrease_eq {fm : FeatureMatrix K} {fi : Nat} {F : Feature K}
    (hF : fm.data[fi]? = some F) (imp : List Nat → K) (code : Coded K) (cs : List Nat) :
    threeWayDecrease fm imp fi code cs = imp cs -
      ((F.lefts code (F.knowns cs)).length * imp (F.lefts code (F.knowns cs)) +
       (F.rights code (F.knowns cs)).length * imp (F.rights code (F.knowns cs)) +
       (F.missings cs).length * imp (F.missings cs)) / cs.length := by
  simp only [threeWayDecrease, part_left hF, part_right hF, part_missing hF]

theorem TargetLaws.Weighted.perm {T : Target K} {cases : List Nat} {L : TargetLaws T cases}
    {imp : List Nat → K} (hw : L.Weighted imp) {l l' : List Nat} (h : l.Perm l')
    (hl : ∀ c ∈ l, c ∈ cases) : imp l = imp l' := by
  by_cases hn : l = []
  · subst hn; rw [List.nil_perm.1 h]
  · have hn' : l' ≠ [] := fun e => hn (by rw [e] at h; exact List.perm_nil.1 h)
    have e1 := hw.finite l hn hl
    have e2 := hw.finite l' hn' (fun c hc => hl c (h.mem_iff.2 hc))
    rw [L.I_perm l l' h, e2] at e1
    injection e1 with e1
    exact e1.symm

theorem threeWayDecrease_perm {T : Target K} {cases : List Nat} {L : TargetLaws T cases}
    {imp : List Nat → K} (hw : L.Weighted imp) (fm : FeatureMatrix K) (fi : Nat) (code : Coded K)
    {cs cs' : List Nat} (h : cs.Perm cs') (hcs : ∀ c ∈ cs, c ∈ cases) :
    threeWayDecrease fm imp fi code cs = threeWayDecrease fm imp fi code cs' := by
  unfold threeWayDecrease
  have hf : ∀ q : Nat → Bool, ∀ c ∈ cs.filter q, c ∈ cases :=
    fun q c hc => hcs c (List.mem_of_mem_filter hc)
  simp only
  rw [hw.perm h hcs, hw.perm (h.filter _) (hf _), hw.perm (h.filter _) (hf _),
    hw.perm (h.filter _) (hf _), h.length_eq, (h.filter _).length_eq, (h.filter _).length_eq,
    (h.filter _).length_eq]

/-- The state of a run of trees: scratch space, candidates in any order, any out-of-bag cases. -/
structure RunState {T : Target K} {cases : List Nat} (L : TargetLaws T cases) (cans : List Nat)
    (st : SplitState K) : Prop where
  allocs : L.Ok st.allocs
  cans_ : st.cans.Perm cans
  oob_ : ∀ c ∈ st.oob, c ∈ cases

section
variable {fm : FeatureMatrix K} {T : Target K} {cases : List Nat} {L : TargetLaws T cases}
  {C : Contrast K τ} {good : τ → Prop} {o : SplitOpts} {cans oob : List Nat}
  {fp : List Nat → String} {md : Int} {sm : Bool}

theorem SplitSetting.at {st : SplitState K} (hS : SplitSetting L fm C good o cans oob)
    (h : RunState L cans st) : SplitSetting L fm C good o st.cans st.oob :=
  ⟨hS.feats, hS.total3, hS.contrast, hS.start, hS.leafSize,
    fun i hi => hS.exist i (h.cans_.mem_iff.1 hi), by rw [h.cans_.length_eq]; exact hS.mTry, h.oob_⟩

theorem treeNoter_searchOk (hS : SplitSetting L fm C good o cans oob) :
    SearchOk (treeNoter fm T C o fp md sm).forget fm (RunState L cans) (· ≤ cans.length) cases := by
  rw [treeNoter_forget]
  refine ⟨?_, ?_, ?_⟩
  · intro st cs nc st' res hst hnc hcs h
    obtain ⟨h1, -⟩ := treeGrower_searchOk (fp := fp) (md := md) (sm := sm) (hS.at hst)
    exact h1.perm st cs nc st' res ⟨hst.allocs, .refl _, .refl _⟩
      (by rw [hst.cans_.length_eq]; exact hnc) hcs h
  · intro st cs nc st' res code hst hnc hcs h
    obtain ⟨h1, -⟩ := treeGrower_searchOk (fp := fp) (md := md) (sm := sm) (hS.at hst)
    exact h1.fits st cs nc st' res code ⟨hst.allocs, .refl _, .refl _⟩
      (by rw [hst.cans_.length_eq]; exact hnc) hcs h
  · intro st cs nc st' res hst hnc hcs h
    obtain ⟨h1, -⟩ := treeGrower_searchOk (fp := fp) (md := md) (sm := sm) (hS.at hst)
    obtain ⟨h2, h3⟩ := h1.keeps st cs nc st' res ⟨hst.allocs, .refl _, .refl _⟩
      (by rw [hst.cans_.length_eq]; exact hnc) hcs h
    exact ⟨⟨h2.allocs, h2.cans_.trans hst.cans_, fun c hc => hst.oob_ c (h2.oob_.mem_iff.1 hc)⟩,
      by rw [← hst.cans_.length_eq]; exact h3⟩

/-- Without out-of-bag evaluation and vetting, `BestSplitter` returns the decrease of impurity its
split brings. -/
theorem bestSplitter_decrease (hS : SplitSetting L fm C good o cans oob) {imp : List Nat → K}
    (hw : L.Weighted imp) (ho : o.evaloob = false) (hv : o.vet = false)
    (hties : ∀ f ∈ fm.data, f.NoNearTies (f.knowns cases))
    {st : SplitState K} (hst : RunState L cans st) {nc : Nat} (hnc : nc ≤ cans.length)
    {cs : List Nat} (hcs : ∀ c ∈ cs, c ∈ cases) {d : Draw K (Searching K τ)}
    (h : bestSplitter fm T C o st cs nc = some d) {code : Coded K} (hs : d.split = some code) :
    d.imp = .fin (threeWayDecrease fm imp d.fi code cs) := by
  obtain ⟨hM, h3, hC, hgood, hls, hcans, hm, hoob⟩ := hS.at hst
  unfold bestSplitter at h
  obtain ⟨a, e, hok'⟩ := L.impurity st.allocs cs hst.allocs hcs
  rw [e] at h
  simp only at h
  by_cases hp : L.I cs ≤ minImp ∧ .fin 0 ≤ L.I cs
  · rw [if_pos hp] at h
    cases h
    simp at hs
  rw [if_neg hp] at h
  have hs0 : EvalState L good cs st.oob ⟨⟨cs, a, st.rng⟩, st.oob, C.start⟩ :=
    ⟨.refl _, hok', .refl _, hgood⟩
  let G : Nat → Found K → Prop := fun i r => minImp < r.imp → ∃ code, r.code = some code ∧
    r.imp = .fin (threeWayDecrease fm imp i code cs)
  have hnc' : nc ≤ st.cans.length := by rw [hst.cans_.length_eq]; exact hnc
  have h0 := drawInv_start (K := K) (G := G) hnc' hs0
  obtain ⟨d', j, e2, h1, -, -⟩ := bestLoop_ok (P := EvalState L good cs st.oob)
    (G := G) (eval := evalFeature fm T C o (L.I cs))
    (intn := Searching.intn) (cans := st.cans) (nc := nc) (force := o.force) hm
    (fun s best i hs hi hb => by
      obtain ⟨r, s', e1, k1, -⟩ := evalFeature_ok (o := o) hM h3 hC hls (L.I cs) hcs hoob hs hb
        (hcans i hi)
      refine ⟨r, s', e1, k1, ?_⟩
      intro hlt
      obtain ⟨F, hf⟩ : ∃ F, fm.data[i]? = some F := ⟨_, List.getElem?_eq_getElem (hcans i hi)⟩
      have hmem := List.mem_of_getElem? hf
      have hF := hM _ hmem
      have hw1 : ∀ c ∈ s.work.cases, c ∈ cases := fun c hc => hcs c (hs.cases_.subset hc)
      have hkn : ∀ c ∈ F.knowns s.work.cases, c ∈ F.knowns cases := by
        intro c hc
        unfold Feature.knowns at hc ⊢
        rw [List.mem_filter] at hc ⊢
        exact ⟨hw1 c hc.1, hc.2⟩
      have hnt : F.NoNearTies (F.knowns s.work.cases) := by
        have := hties _ hmem
        cases F with
        | num f => exact fun c hc d hd => this c (hkn c hc) d (hkn d hd)
        | cat f => trivial
      obtain ⟨r0, w0, e0, k0⟩ := c16_three_way F L imp hw hls o.extraRandom s.work hw1
        (hF.searchable hw1) hnt (fun c hc => hF.valid c (hw1 c hc)) hF.sound hs.allocs
      rw [← L.I_perm _ _ hs.cases_] at e1
      unfold evalFeature oobStep vetStep at e1
      simp only [hf, e0, ho, hv, Option.bind_eq_bind, Option.bind_some, Bool.false_eq_true,
        false_and, if_false, Option.some.injEq, Prod.mk.injEq] at e1
      obtain ⟨e1, -⟩ := e1
      rw [← e1] at hlt ⊢
      obtain ⟨code, c1, -, -, c4⟩ := k0 hlt
      refine ⟨code, c1, ?_⟩
      simp only
      rw [c4, ← threeWayDecrease_eq hf, threeWayDecrease_perm hw fm i code hs.cases_ hw1])
    (fun s n hs hn => searching_intn s n hs hn) (o.mTry + 2 * st.cans.length + 1) 0 _ h0
    (.inl (Nat.zero_le _)) (by omega) (Nat.zero_le _)
  rw [h] at e2
  cases e2
  rcases h1.best with hb | ⟨h1', ⟨x, hx, h2, h4, h5⟩, -⟩
  · rw [hb.2.1] at hs; cases hs
  · obtain ⟨code', c1, c2⟩ := h1.good x hx (by rw [h5]; exact h1')
    rw [h4, hs] at c1
    cases c1
    rw [← h5, c2, h2]

theorem treeNoter_decOk (hS : SplitSetting L fm C good o cans oob) {imp : List Nat → K}
    (hw : L.Weighted imp) (ho : o.evaloob = false) (hv : o.vet = false)
    (hties : ∀ f ∈ fm.data, f.NoNearTies (f.knowns cases)) :
    DecOk (treeNoter fm T C o fp md sm) (threeWayDecrease fm imp) (RunState L cans)
      (· ≤ cans.length) cases := by
  refine ⟨fun fi code cs cs' h hcs => threeWayDecrease_perm hw fm fi code h hcs, ?_⟩
  intro st cs nc st' res x code hst hnc hcs h hs
  simp only [treeNoter, Option.bind_eq_bind] at h
  obtain ⟨d, hd, h⟩ := Option.bind_eq_some_iff.1 h
  simp only [Option.some.injEq, Prod.mk.injEq] at h
  obtain ⟨-, h2, h3⟩ := h
  subst h2 h3
  exact bestSplitter_decrease hS hw ho hv hties hst hnc hcs hd hs

end
end CloudForest
