import Verif.Lemmas.Greedy
import Verif.Props.Splitter

/-! # Lemmas about growing greedily optimal trees -/

set_option linter.unusedSectionVars false

namespace CloudForest
variable {K : Type} [Field K] [LinearOrder K] [IsStrictOrderedRing K] {τ : Type}

section
variable {fm : FeatureMatrix K} {T : Target K} {cases : List Nat} {L : TargetLaws T cases} {imp : List Nat → K}
  {C : Contrast K τ} {good : τ → Prop} {o : SplitOpts} {cs oob cans : List Nat}

theorem noNearTies_mono {F : Feature K} {cs : List Nat} (h : F.NoNearTies (F.knowns cases)) (hcs : ∀ c ∈ cs, c ∈ cases) :
    F.NoNearTies (F.knowns cs) := by
  have hk : ∀ c ∈ F.knowns cs, c ∈ F.knowns cases := by
    intro c hc
    unfold Feature.knowns at hc ⊢
    rw [List.mem_filter] at hc ⊢
    exact ⟨hcs c hc.1, hc.2⟩
  cases F with
  | num f => exact fun c hc d hd => h c (hk c hc) d (hk d hd)
  | cat f => trivial

/-- What evaluating candidate `i` says. -/
def CanBest (fm : FeatureMatrix K) (imp : List Nat → K) (leafSize : Nat) (cans cs : List Nat) (i : Nat) (r : Found K) :
    Prop :=
  i ∈ cans ∧ ∃ F, fm.data[i]? = some F ∧ FeatBest imp F leafSize cs r

theorem evalFeature_greedy (hw : L.Weighted imp) (hM : ∀ f ∈ fm.data, FeatOk f cases)
    (hsome : ∀ i ∈ cans, ∀ F, fm.data[i]? = some F → F.Exhaustive ∧ F.NoNearTies (F.knowns cases))
    (hv : o.vet = false) (he : o.evaloob = false) (hx : o.extraRandom = false) (hls : 1 ≤ o.leafSize)
    (hcs : ∀ c ∈ cs, c ∈ cases) (hne : cs ≠ []) {s : Searching K τ} (hs : EvalState L good cs oob s) {best : XF K} {i : Nat}
    (hi : i ∈ cans) (hlt : i < fm.data.length) :
    ∃ r s', evalFeature fm T C o (L.I cs) s best i = some (r, s') ∧
      EvalState L good cs oob s' ∧ CanBest fm imp o.leafSize cans cs i r := by
  unfold evalFeature
  have hf : fm.data[i]? = some fm.data[i] := List.getElem?_eq_getElem hlt
  have hF := hM fm.data[i] (List.getElem_mem hlt)
  obtain ⟨hex, hties⟩ := hsome i hi _ hf
  have hwc : ∀ c ∈ s.work.cases, c ∈ cases := fun c hc => hcs c (hs.cases_.subset hc)
  have hwn : s.work.cases ≠ [] := fun h => hne (by have := hs.cases_; rw [h] at this; exact this.nil_eq.symm)
  obtain ⟨r, w', e1, hp, hok, hb⟩ := bestSplit_greedy hw fm.data[i] hex hls s.work hwc hwn (hF.searchable hwc)
    (noNearTies_mono hties hwc) (fun c hc => hF.isMissing (hwc c hc)) hF.sound hs.allocs
  rw [hf]
  have hI : L.I cs = .fin (imp s.work.cases) := by
    rw [hw.finite cs hne hcs, hw.imp_perm hs.cases_ hwc]
  simp only [Option.bind_eq_bind, Option.bind_some, hx, hI, e1, oobStep, vetStep, hv, he, Bool.false_eq_true, false_and,
    if_false]
  exact ⟨_, _, rfl, ⟨hp.trans hs.cases_, hok, hs.oob_, hs.contrast⟩, hi, _, hf, hb.perm hw hs.cases_ hwc⟩

theorem gain3_le_imp (hw : L.Weighted imp) (F : Feature K) (p : Nat → Bool) (hcs : ∀ c ∈ cs, c ∈ cases) :
    F.gain3 imp p cs ≤ imp cs := by
  have hn : ∀ l : List Nat, (∀ c ∈ l, c ∈ cases) → 0 ≤ (l.length : K) * imp l := by
    intro l hl
    by_cases h : l = []
    · simp [h]
    · exact mul_nonneg (by positivity) (hw.nonneg l h hl)
  unfold Feature.gain3
  rw [sub_le_self_iff]
  refine div_nonneg (add_nonneg (add_nonneg (hn _ ?_) (hn _ ?_)) (hn _ ?_)) (by positivity)
  · exact fun c h => hcs c (F.mem_toLeft h)
  · exact fun c h => hcs c (F.mem_toRight h)
  · exact fun c h => hcs c (F.mem_missings h)

/-- `BestSplitter` looking at all candidates. -/
theorem bestSplitter_greedy (hw : L.Weighted imp) (hM : ∀ f ∈ fm.data, FeatOk f cases)
    (hsome : ∀ i ∈ cans, ∀ F, fm.data[i]? = some F → F.Exhaustive ∧ F.NoNearTies (F.knowns cases))
    (hv : o.vet = false) (he : o.evaloob = false) (hx : o.extraRandom = false) (hls : 1 ≤ o.leafSize)
    (hgood : good C.start) {st : SplitState K} (hcans : st.cans.Perm cans) (hin : ∀ i ∈ cans, i < fm.data.length)
    (hm : o.mTry = cans.length) {nc : Nat} (hnc : nc ≤ cans.length) (hcs : ∀ c ∈ cs, c ∈ cases) (hne : cs ≠ [])
    (hok : L.Ok st.allocs)
    (hknown : ∀ i ∈ st.cans.drop (cans.length - nc), ∀ F, fm.data[i]? = some F → F.Flat o.leafSize (F.knowns cs)) :
    ∃ d, bestSplitter fm T C o st cs nc = some d ∧ d.st.work.cases.Perm cs ∧ L.Ok d.st.work.allocs ∧ d.cans.Perm cans ∧
      nc ≤ d.nConst ∧ d.nConst ≤ cans.length ∧
      d.cans.drop (cans.length - nc) = st.cans.drop (cans.length - nc) ∧
      (∀ i ∈ d.cans.drop (cans.length - d.nConst), ∀ F, fm.data[i]? = some F → F.Flat o.leafSize (F.knowns cs)) ∧
      (d.split = none → ∀ i ∈ cans, ∀ F, fm.data[i]? = some F → ∀ p, F.Offers imp o.leafSize p cs →
        F.gain3 imp p cs ≤ 1 / 10000000) ∧
      (∀ code, d.split = some code → d.fi ∈ cans ∧ ∃ F p, fm.data[d.fi]? = some F ∧
        (∀ c ∈ F.knowns cs, F.codedLeft code c = some (p c)) ∧ F.Offers imp o.leafSize p cs ∧
        1 / 10000000 < F.gain3 imp p cs ∧
        ∀ i ∈ cans, ∀ F', fm.data[i]? = some F' → ∀ q, F'.Offers imp o.leafSize q cs →
          F'.gain3 imp q cs ≤ F.gain3 imp p cs) := by
  have hlen := hcans.length_eq
  unfold bestSplitter
  obtain ⟨a, e, hok'⟩ := L.impurity st.allocs cs hok hcs
  rw [e]
  simp only
  have hs : EvalState L good cs st.oob ⟨⟨cs, a, st.rng⟩, st.oob, C.start⟩ :=
    ⟨List.Perm.refl _, hok', List.Perm.refl _, hgood⟩
  have hI := hw.finite cs hne hcs
  by_cases hp : L.I cs ≤ minImp ∧ .fin 0 ≤ L.I cs
  · rw [if_pos hp]
    refine ⟨_, rfl, List.Perm.refl _, hok', hcans, le_refl _, hnc, rfl, hknown, fun _ i hi F hF p ho => ?_, fun _ h => by cases h⟩
    have h1 := hp.1
    rw [hI] at h1
    exact (gain3_le_imp hw F p hcs).trans h1
  · rw [if_neg hp]
    have h0 := drawInv_start (K := K) (G := CanBest fm imp o.leafSize cans cs) (nc := nc) (cans := st.cans) (by omega) hs
    obtain ⟨d, j, e2, h1, h2, h4⟩ := bestLoop_ok (P := EvalState L good cs st.oob)
      (G := CanBest fm imp o.leafSize cans cs) (eval := evalFeature fm T C o (L.I cs))
      (intn := Searching.intn) (cans := st.cans) (nc := nc) (mTry := o.mTry) (force := o.force) (by omega)
      (fun s best i hs hi hb => evalFeature_greedy hw hM hsome hv he hx hls hcs hne hs (hcans.subset hi)
        (hin i (hcans.subset hi)))
      (fun s n hs hn => searching_intn s n hs hn) (o.mTry + 2 * st.cans.length + 1) 0 _ h0
      (.inl (Nat.zero_le _)) (by omega) (Nat.zero_le _)
    have hsum := h1.sum
    have hfits := h1.fits
    have hdrawn := h1.drawn
    have hmore := h1.more
    have hnews := h1.news
    have hdlen := h1.len
    rw [hlen] at hfits hnews
    -- all candidates were evaluated or known to be constant
    have hall : d.lastSample + d.nConst = cans.length := by
      rcases h2.stop with h | h
      · have : ¬ j < o.mTry := fun h' => h (.inr h')
        omega
      · omega
    have hevery : ∀ i ∈ cans, (∃ e ∈ d.log, e.1 = i) ∨ i ∈ st.cans.drop (cans.length - nc) := by
      intro i hi
      have hi' : i ∈ d.cans := (h1.perm.trans hcans).mem_iff.2 hi
      rw [← List.take_append_drop d.lastSample d.cans] at hi'
      rcases List.mem_append.1 hi' with h | h
      · rw [h1.olds, List.mem_reverse, List.mem_map] at h
        obtain ⟨e, he, rfl⟩ := h
        exact .inl ⟨e, List.mem_of_mem_filter he, rfl⟩
      · rw [show d.lastSample = cans.length - d.nConst by omega, hnews] at h
        rcases List.mem_append.1 h with h | h
        · obtain ⟨e, he, rfl⟩ := List.mem_map.1 h
          exact .inl ⟨e, List.mem_of_mem_filter he, rfl⟩
        · exact .inr h
    have hflatNo : ∀ i ∈ cans, ∀ F, fm.data[i]? = some F → F.Flat o.leafSize (F.knowns cs) → ∀ p,
        ¬ F.Offers imp o.leafSize p cs := by
      intro i hi F hF hfl p
      exact flat_offers hls ((hM F (List.mem_of_getElem? hF)).searchable hcs) (noNearTies_mono (hsome i hi F hF).2 hcs) hfl p
    refine ⟨d, e2, h1.st.cases_, h1.st.allocs, h1.perm.trans hcans, hmore, by omega, ?_, ?_, ?_, ?_⟩
    · have hk : ((d.log.filter (·.2.constant)).map (·.1)).length = d.nConst - nc := by
        have := congrArg List.length hnews
        simp only [List.length_drop, List.length_append] at this
        omega
      have : d.cans.drop (cans.length - nc) = (d.cans.drop (cans.length - d.nConst)).drop (d.nConst - nc) := by
        rw [List.drop_drop]
        congr 1
        omega
      rw [this, hnews, ← hk, List.drop_left]
    · intro i hi F hF
      rw [hnews] at hi
      rcases List.mem_append.1 hi with h | h
      · obtain ⟨e, he, rfl⟩ := List.mem_map.1 h
        obtain ⟨hel, hec⟩ := List.mem_filter.1 he
        obtain ⟨-, F', hF', hb⟩ := h1.good e hel
        rw [hF] at hF'
        cases hF'
        exact hb.constant hec
      · exact hknown i h F hF
    · intro hsp i hi F hF p ho
      have hno : ∀ e ∈ d.log, ¬ minImp < e.2.imp := by
        rcases h1.best with hb | ⟨hb, ⟨e, he, -, h5, h6⟩, -⟩
        · exact hb.2.2.2
        · obtain ⟨-, F', hF', hb'⟩ := h1.good e he
          obtain ⟨code, p, h7, -⟩ := hb'.found (by rw [h6]; exact hb)
          rw [h5, hsp] at h7
          cases h7
      rcases hevery i hi with ⟨e, hel, rfl⟩ | h
      · obtain ⟨-, F', hF', hb⟩ := h1.good e hel
        rw [hF] at hF'
        cases hF'
        obtain ⟨x, hx, hle⟩ := hb.best p ho
        have := hno e hel
        rw [hx] at this
        exact hle.trans (not_lt.1 this)
      · exact absurd ho (hflatNo i hi F hF (hknown i h F hF) p)
    · intro code hsp
      rcases h1.best with hb | ⟨hb, ⟨e, hel, h5, h6, h7⟩, hmax⟩
      · rw [hb.2.1] at hsp; cases hsp
      obtain ⟨hec, F, hF, hfb⟩ := h1.good e hel
      obtain ⟨code', p, h8, h9, h10, h11⟩ := hfb.found (by rw [h7]; exact hb)
      rw [h6, hsp] at h8
      cases h8
      rw [h5] at hF
      refine ⟨h5 ▸ hec, F, p, hF, h9, h10, ?_, ?_⟩
      · rw [← h7, h11] at hb
        exact hb
      · intro i hi F' hF' q ho
        rcases hevery i hi with ⟨e', hel', rfl⟩ | h
        · obtain ⟨-, F'', hF'', hb''⟩ := h1.good e' hel'
          rw [hF'] at hF''
          cases hF''
          obtain ⟨x, hx, hle⟩ := hb''.best q ho
          have := hmax e' hel'
          rw [hx, ← h7, h11] at this
          exact hle.trans (not_lt.1 this)
        · exact absurd ho (hflatNo i hi F' hF' (hknown i h F' hF') q)

/-! ## The blocks of a split -/

theorem caseDir_some {code : Coded K} {fi : Nat} {spl : Option (Splitter K)} {F : Feature K} (hF : fm.data[fi]? = some F)
    (c : Nat) : caseDir fm (some code) fi spl c =
      match F.isMissing c, F.codedLeft code c with
      | some true, _ => some .M
      | some false, some true => some .L
      | some false, some false => some .R
      | _, _ => none := by
  unfold caseDir
  rw [hF]
  rfl

theorem nodeSplit_blocks {code : Coded K} {fi : Nat} {spl : Option (Splitter K)} {sp : Split3} {F : Feature K}
    (hF : fm.data[fi]? = some F) (h : NodeSplitOk fm (some code) fi spl cs sp) {p : Nat → Bool}
    (hp : ∀ c ∈ F.knowns cs, F.codedLeft code c = some (p c)) :
    sp.left.Perm (F.toLeft p cs) ∧ sp.right.Perm (F.toRight p cs) ∧ sp.missing.Perm (F.missings cs) := by
  have hmem : ∀ c ∈ sp.left ++ sp.missing ++ sp.right, c ∈ cs := fun c hc => h.perm.mem_iff.1 hc
  have hl : ∀ c ∈ sp.left, F.isMissing c = some false ∧ p c = true := by
    intro c hc
    have h1 := h.left c hc
    rw [caseDir_some hF] at h1
    split at h1 <;> simp_all
    rename_i h2 h3
    have := hp c (List.mem_filter.2 ⟨hmem c (by simp [hc]), by simp [h2]⟩)
    rw [this] at h3
    exact Option.some.inj h3
  have hr : ∀ c ∈ sp.right, F.isMissing c = some false ∧ p c = false := by
    intro c hc
    have h1 := h.right c hc
    rw [caseDir_some hF] at h1
    split at h1 <;> simp_all
    rename_i h2 h3
    have := hp c (List.mem_filter.2 ⟨hmem c (by simp [hc]), by simp [h2]⟩)
    rw [this] at h3
    exact Option.some.inj h3
  have hm : ∀ c ∈ sp.missing, F.isMissing c = some true := by
    intro c hc
    have h1 := h.missing c hc
    rw [caseDir_some hF] at h1
    split at h1 <;> simp_all
  have key : ∀ q : Nat → Bool, (cs.filter q).Perm (sp.left.filter q ++ sp.missing.filter q ++ sp.right.filter q) := by
    intro q
    have := (h.perm.filter q).symm
    rwa [List.filter_append, List.filter_append] at this
  unfold Feature.toLeft Feature.toRight Feature.knowns Feature.missings
  rw [List.filter_filter, List.filter_filter]
  refine ⟨?_, ?_, ?_⟩
  · refine List.Perm.symm ((key _).trans (List.Perm.of_eq ?_))
    rw [List.filter_eq_self.2 (fun c hc => by simp [hl c hc]), List.filter_eq_nil_iff.2 (fun c hc => by simp [hm c hc]),
      List.filter_eq_nil_iff.2 (fun c hc => by simp [hr c hc])]
    simp
  · refine List.Perm.symm ((key _).trans (List.Perm.of_eq ?_))
    rw [List.filter_eq_nil_iff.2 (fun c hc => by simp [hl c hc]), List.filter_eq_nil_iff.2 (fun c hc => by simp [hm c hc]),
      List.filter_eq_self.2 (fun c hc => by simp [hr c hc])]
    simp
  · refine List.Perm.symm ((key _).trans (List.Perm.of_eq ?_))
    rw [List.filter_eq_nil_iff.2 (fun c hc => by simp [hl c hc]), List.filter_eq_self.2 (fun c hc => by simp [hm c hc]),
      List.filter_eq_nil_iff.2 (fun c hc => by simp [hr c hc])]
    simp

theorem offers_length {F : Feature K} {leafSize : Nat} {p : Nat → Bool} (h : F.Offers imp leafSize p cs) :
    2 * leafSize ≤ cs.length := by
  have h1 := filter_lengths (F.knowns cs) p
  have h2 : (F.knowns cs).length ≤ cs.length := List.length_filter_le _ _
  have h3 := h.room.1
  have h4 : leafSize ≤ (F.toRight p cs).length := by
    have := h.room.2
    cases F with
    | num f => exact le_of_lt this
    | cat f => exact this
  unfold Feature.toLeft at h3
  unfold Feature.toRight at h4
  omega

theorem offers_fits {F : Feature K} {leafSize : Nat} (hls : 1 ≤ leafSize) {p : Nat → Bool} (h : F.Offers imp leafSize p cs)
    {code : Coded K} (hp : ∀ c ∈ F.knowns cs, F.codedLeft code c = some (p c)) : F.CodeFits code := by
  have h1 := h.room.1
  obtain ⟨a, ha⟩ := List.exists_mem_of_length_pos (l := F.toLeft p cs) (by omega)
  have := hp a (List.mem_of_mem_filter ha)
  cases F <;> cases code <;> first | trivial | (simp [Feature.codedLeft] at this)

/-! ## The tree -/

/-- The state between nodes: scratch space and candidates. -/
structure GreedyState (L : TargetLaws T cases) (cans : List Nat) (st : SplitState K) : Prop where
  allocs : L.Ok st.allocs
  cans_ : st.cans.Perm cans

theorem flat_sub {F : Feature K} {leafSize : Nat} {cs cs' : List Nat} (h : F.Flat leafSize (F.knowns cs)) (hs : cs'.Subperm cs) :
    F.Flat leafSize (F.knowns cs') := h.subperm leafSize (hs.filter _)

theorem grow_greedy (hMat : MatrixOk fm cases) (hw : L.Weighted imp) (hM : ∀ f ∈ fm.data, FeatOk f cases)
    (hsome : ∀ i ∈ cans, ∀ F, fm.data[i]? = some F → F.Exhaustive ∧ F.NoNearTies (F.knowns cases))
    (hv : o.vet = false) (he : o.evaloob = false) (hx : o.extraRandom = false) (hls : 1 ≤ o.leafSize)
    (hgood : good C.start) (hin : ∀ i ∈ cans, i < fm.data.length) (hm : o.mTry = cans.length)
    (fp : List Nat → String) (md : Int) (sm : Bool) :
    ∀ (fuel : Nat) (fi0 : Nat) (p0 : String) (st : SplitState K) (cs : List Nat) (d nc : Nat) (n : Node K)
      (st' : SplitState K), GreedyState L cans st → nc ≤ cans.length → (∀ c ∈ cs, c ∈ cases) →
      (∀ i ∈ st.cans.drop (cans.length - nc), ∀ F, fm.data[i]? = some F → F.Flat o.leafSize (F.knowns cs)) →
      grow (treeGrower fm T C o fp md sm) fm fuel (.mk none fi0 .nil .nil .nil p0 none) st cs d nc = some (n, st') →
      GreedyState L cans st' ∧ st'.cans.drop (cans.length - nc) = st.cans.drop (cans.length - nc) ∧
        Greedy fm cans imp o.leafSize md n cs d := by
  intro fuel
  induction fuel with
  | zero => intro fi0 p0 st cs d nc n st' _ _ _ _ h; simp [grow] at h
  | succ fuel ih =>
    intro fi0 p0 st cs d nc n st' hst hnc hcs hknown h
    rw [grow] at h
    split at h
    · rename_i hcond
      simp only [Option.bind_eq_bind, Option.bind_eq_some_iff] at h
      obtain ⟨⟨st1, res⟩, hb, h⟩ := h
      have hlen : 2 * o.leafSize ≤ cs.length := hcond.2
      have hne : cs ≠ [] := List.ne_nil_of_length_pos (by omega)
      obtain ⟨dr, e, hperm, hok1, hcan1, hnc1, hnc2, hkeep, hflat, hleaf, hsplit⟩ := bestSplitter_greedy (C := C) (o := o)
        hw hM hsome hv he hx hls hgood hst.cans_ hin hm hnc hcs hne hst.allocs hknown
      simp only [treeGrower, e, Option.bind_eq_bind, Option.bind_some, Option.some.injEq, Prod.mk.injEq] at hb
      obtain ⟨rfl, rfl⟩ := hb
      have hst1 : GreedyState L cans ⟨dr.st.work.allocs, dr.st.work.rng, dr.cans, dr.st.oob⟩ := ⟨hok1, hcan1⟩
      cases hres : dr.split with
      | none =>
        simp only [hres, Option.some.injEq, Prod.mk.injEq] at h
        rw [← h.1, ← h.2]
        refine ⟨hst1, hkeep, ?_⟩
        rw [Greedy]
        exact .inr (hleaf hres)
      | some code =>
        obtain ⟨hfi, F, p, hF, hcode, hoff, hgt, hmax⟩ := hsplit code hres
        simp only [hres, Option.bind_eq_some_iff] at h
        obtain ⟨f, hf, spl, hdec, ⟨cs', li, ri⟩, hpt, h⟩ := h
        rw [hF] at hf
        cases hf
        have hfit := offers_fits hls hoff hcode
        have hcs1 : ∀ c ∈ dr.st.work.cases, c ∈ cases := fun c hc => hcs c (hperm.mem_iff.1 hc)
        obtain ⟨cs'', li', ri', hpt', hle, hle', hlen', sp, e1, e2, e3, hok⟩ :=
          splitPoints_ok hMat (some spl) hF hfit dr.st.work.cases hcs1
        rw [hpt] at hpt'; cases hpt'
        have hsp := hok.congr hperm
        obtain ⟨hbl, hbr, hbm⟩ := nodeSplit_blocks hF hsp hcode
        have hml : sp.missing.length = ri - li := by
          rw [e3, List.length_take, List.length_drop]; omega
        rw [← e1, ← e2, ← e3] at h
        have hsubl : sp.left.Subperm cs := hbl.subperm.trans ((List.filter_sublist.trans List.filter_sublist).subperm)
        have hsubr : sp.right.Subperm cs := hbr.subperm.trans ((List.filter_sublist.trans List.filter_sublist).subperm)
        have hsubm : sp.missing.Subperm cs := hbm.subperm.trans List.filter_sublist.subperm
        have hflat' : ∀ {cs' : List Nat}, cs'.Subperm cs → ∀ {X : List Nat},
            X.drop (cans.length - dr.nConst) = dr.cans.drop (cans.length - dr.nConst) →
            ∀ i ∈ X.drop (cans.length - dr.nConst), ∀ F, fm.data[i]? = some F → F.Flat o.leafSize (F.knowns cs') := by
          intro cs' hs X hX i hi F hF
          rw [hX] at hi
          exact flat_sub (hflat i hi F hF) hs
        have hback : ∀ {X : List Nat}, X.drop (cans.length - dr.nConst) = dr.cans.drop (cans.length - dr.nConst) →
            X.drop (cans.length - nc) = st.cans.drop (cans.length - nc) := by
          intro X hX
          have : ∀ Y : List Nat, Y.drop (cans.length - nc) = (Y.drop (cans.length - dr.nConst)).drop (dr.nConst - nc) := by
            intro Y
            rw [List.drop_drop]
            congr 1
            omega
          rw [← hkeep, this, hX, ← this]
        have hgl : ∀ {m : Node K} {x : Nat}, Greedy fm cans imp o.leafSize md m sp.left x →
            Greedy fm cans imp o.leafSize md m (F.toLeft p cs) x :=
          fun h => greedy_perm hw _ _ _ _ hbl (fun c hc => hcs c (hsubl.subset hc)) h
        have hgr : ∀ {m : Node K} {x : Nat}, Greedy fm cans imp o.leafSize md m sp.right x →
            Greedy fm cans imp o.leafSize md m (F.toRight p cs) x :=
          fun h => greedy_perm hw _ _ _ _ hbr (fun c hc => hcs c (hsubr.subset hc)) h
        have hgm : ∀ {m : Node K} {x : Nat}, Greedy fm cans imp o.leafSize md m sp.missing x →
            Greedy fm cans imp o.leafSize md m (F.missings cs) x :=
          fun h => greedy_perm hw _ _ _ _ hbm (fun c hc => hcs c (hsubm.subset hc)) h
        cases hsm : sm with
        | false =>
          rw [show (treeGrower fm T C o fp md sm).splitmissing = false from hsm,
            show growChildren false (.nil : Node K) .nil .nil = (.fresh, .fresh, .nil) from rfl] at h
          obtain ⟨⟨nl, st2⟩, hl, ⟨nr, st3⟩, hr, h⟩ := h
          obtain ⟨hs2, hk2, gl⟩ := ih _ _ _ _ _ _ _ _ hst1 hnc2 (fun c hc => hcs c (hsubl.subset hc)) (hflat' hsubl rfl) hl
          obtain ⟨hs3, hk3, gr⟩ := ih _ _ _ _ _ _ _ _ hs2 hnc2 (fun c hc => hcs c (hsubr.subset hc)) (hflat' hsubr hk2) hr
          simp [Node.isNil] at h
          rw [← h.1, ← h.2]
          refine ⟨hs3, hback (hk3.trans hk2), ?_⟩
          rw [Greedy]
          exact ⟨hfi, F, p, hF, hcode, hoff, hgt, hmax, hgl gl, hgr gr, .inl rfl⟩
        | true =>
          rw [show (treeGrower fm T C o fp md sm).splitmissing = true from hsm,
            show growChildren true (.nil : Node K) .nil .nil = (.fresh, .fresh, .fresh) from rfl] at h
          obtain ⟨⟨nl, st2⟩, hl, ⟨nr, st3⟩, hr, h⟩ := h
          obtain ⟨hs2, hk2, gl⟩ := ih _ _ _ _ _ _ _ _ hst1 hnc2 (fun c hc => hcs c (hsubl.subset hc)) (hflat' hsubl rfl) hl
          obtain ⟨hs3, hk3, gr⟩ := ih _ _ _ _ _ _ _ _ hs2 hnc2 (fun c hc => hcs c (hsubr.subset hc)) (hflat' hsubr hk2) hr
          by_cases hli : li = ri
          · simp only [hli, ne_eq, not_true_eq_false, false_and, if_false, Option.some.injEq,
              Prod.mk.injEq] at h
            rw [← h.1, ← h.2]
            refine ⟨hs3, hback (hk3.trans hk2), ?_⟩
            rw [Greedy]
            refine ⟨hfi, F, p, hF, hcode, hoff, hgt, hmax, hgl gl, hgr gr, .inr (hgm ?_)⟩
            have hnil : sp.missing = [] := List.eq_nil_of_length_eq_zero (by omega)
            rw [hnil, Node.fresh, Greedy]
            refine .inr fun i hi F hF q ho => ?_
            have := offers_length ho
            simp at this
            omega
          · rw [if_pos ⟨hli, rfl⟩] at h
            obtain ⟨⟨nm, st4⟩, hmm, h⟩ := Option.bind_eq_some_iff.1 h
            simp only [Option.some.injEq, Prod.mk.injEq] at h
            rw [← h.1, ← h.2]
            obtain ⟨hs4, hk4, gm⟩ := ih _ _ _ _ _ _ _ _ hs3 hnc2 (fun c hc => hcs c (hsubm.subset hc))
              (hflat' hsubm (hk3.trans hk2)) hmm
            refine ⟨hs4, hback (hk4.trans (hk3.trans hk2)), ?_⟩
            rw [Greedy]
            exact ⟨hfi, F, p, hF, hcode, hoff, hgt, hmax, hgl gl, hgr gr, .inr (hgm gm)⟩
    · rename_i hcond
      simp only [Option.some.injEq, Prod.mk.injEq] at h
      rw [← h.1, ← h.2]
      refine ⟨hst, rfl, ?_⟩
      rw [Greedy]
      by_cases hd : 0 < md ∧ md ≤ d
      · exact .inl hd
      · refine .inr fun i hi F hF p ho => ?_
        have h1 := offers_length ho
        exact absurd ⟨by show (d : Int) < md ∨ md ≤ 0; omega, h1⟩ hcond

end
end CloudForest
