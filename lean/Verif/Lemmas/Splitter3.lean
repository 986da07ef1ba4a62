import Verif.Lemmas.Splitter2
import Verif.Lemmas.Shuffle
import Verif.Lemmas.Grow2

/-! # `BestSplitter` as the search of `Tree.Grow` -/

set_option linter.unusedSectionVars false

namespace CloudForest
variable {K : Type} [Field K] [LinearOrder K] [IsStrictOrderedRing K] {τ : Type}

/-! ## The shuffled targets -/

theorem catContrast_ok (f : CatFeature) (n : Nat) (cases : List Nat) (h : f.InRange n cases)
    (hm : f.missing.length = f.catData.length) (imp : Nat → List Int → XF K) :
    ContrastOk (countLaws f imp n cases h) (catContrast f)
      (fun g => g.InRange n cases ∧ g.missing.length = g.catData.length ∧
        g.catData.length = f.catData.length) where
  start := ⟨h, hm, rfl⟩
  shuffle := by
    rintro g cs rng ⟨h1, h2, h3⟩ hcs
    have hlt : ∀ c ∈ cases, c < g.catData.length := by
      intro c hc
      obtain ⟨k, hk, -⟩ := h1 c hc
      exact (List.getElem?_eq_some_iff.1 hk).1
    obtain ⟨m, d, r, π, e, hm', hd', hfix, hπ⟩ := shuffleLoop_ok cs g.catData.length
      (fun c hc => hlt c (hcs c hc)) _ 0 rfl g.missing g.catData rng h2 rfl
    have hπc : ∀ c ∈ cases, π c ∈ cases := by
      intro c hc
      by_cases hin : π c ∈ cs
      · exact hcs _ hin
      · have := π.injective (hfix _ hin)
        rwa [this]
    refine ⟨{ g with missing := m, catData := d }, r, ?_, ?_, ?_, ?_⟩
    · show g.shuffleCases cs rng = _
      unfold CatFeature.shuffleCases
      rw [e]; rfl
    · intro c hc
      show ∃ k, d[c]? = some k ∧ k < n
      rw [(hπ c).2]
      exact h1 _ (hπc c hc)
    · exact hm'.trans hd'.symm
    · exact hd'.trans h3
  laws := by
    rintro g ⟨h1, -, -⟩
    exact ⟨countLaws g giniFromCounts n cases h1, rfl⟩

theorem numContrast_ok (f : NumFeature K) (cases : List Nat) (h : f.Finite cases)
    (hm : f.missing.length = f.numData.length) :
    ContrastOk (sseLaws f cases h) (numContrast f)
      (fun g => g.Finite cases ∧ g.missing.length = g.numData.length) where
  start := ⟨h, hm⟩
  shuffle := by
    rintro g cs rng ⟨h1, h2⟩ hcs
    have hlt : ∀ c ∈ cases, c < g.numData.length := by
      intro c hc
      obtain ⟨k, hk⟩ := h1 c hc
      exact (List.getElem?_eq_some_iff.1 hk).1
    obtain ⟨m, d, r, π, e, hm', hd', hfix, hπ⟩ := shuffleLoop_ok cs g.numData.length
      (fun c hc => hlt c (hcs c hc)) _ 0 rfl g.missing g.numData rng h2 rfl
    have hπc : ∀ c ∈ cases, π c ∈ cases := by
      intro c hc
      by_cases hin : π c ∈ cs
      · exact hcs _ hin
      · have := π.injective (hfix _ hin)
        rwa [this]
    refine ⟨{ g with missing := m, numData := d }, r, ?_, ?_, ?_⟩
    · show g.shuffleCases cs rng = _
      unfold NumFeature.shuffleCases
      rw [e]; rfl
    · intro c hc
      show ∃ k, d[c]? = some (.fin k)
      rw [(hπ c).2]
      exact h1 _ (hπc c hc)
    · exact hm'.trans hd'.symm
  laws := by
    rintro g ⟨h1, -⟩
    exact ⟨sseLaws g cases h1, rfl⟩

/-! ## The search -/

/-- The state between calls. -/
structure StateOk {T : Target K} {cases : List Nat} (L : TargetLaws T cases) (fm : FeatureMatrix K)
    (cans oob : List Nat) (st : SplitState K) : Prop where
  allocs : L.Ok st.allocs
  cans_ : st.cans.Perm cans
  oob_ : st.oob.Perm oob

section
variable {fm : FeatureMatrix K} {T : Target K} {cases : List Nat} {L : TargetLaws T cases}
  {C : Contrast K τ} {good : τ → Prop} {o : SplitOpts} {cans oob cs : List Nat}

theorem drawInv_start {σ : Type} {P : σ → Prop} {G : Nat → Found K → Prop} {cans : List Nat} {nc : Nat}
    (hnc : nc ≤ cans.length) {s : σ} (hs : P s) :
    DrawInv (K := K) P G cans nc 0 ⟨cans, 0, 0, nc, 0, none, minImp, [], s⟩ :=
  ⟨hs, by simp, rfl, List.Perm.refl _, rfl, by simpa using hnc, Nat.zero_le _, le_refl _, by simp,
    by simp, .inl ⟨rfl, rfl, rfl, by simp⟩⟩

theorem bestSplitter_ok (hM : ∀ f ∈ fm.data, FeatOk f cases)
    (h3 : o.evaloob = true → L.Total3) (hC : o.vet = true → ContrastOk L C good)
    (hgood : good C.start) (hls : 1 ≤ o.leafSize)
    {st : SplitState K} (hcans : ∀ i ∈ st.cans, i < fm.data.length)
    (hm : o.mTry ≤ st.cans.length) {nc : Nat} (hnc : nc ≤ st.cans.length)
    (hcs : ∀ c ∈ cs, c ∈ cases) (hoob : ∀ c ∈ st.oob, c ∈ cases) (hok : L.Ok st.allocs) :
    ∃ d j, bestSplitter fm T C o st cs nc = some d ∧
      DrawInv (EvalState L good cs st.oob) (EvalGood fm o.leafSize cs) st.cans nc j d ∧
      (d.log = [] ∧ d.cans = st.cans ∧ d.nConst = nc ∧ L.I cs ≤ minImp ∨
        DrawEnd o.mTry o.force st.cans j d) ∧ d.log.length ≤ j ∧ (d.log = [] ∨ ¬ (L.I cs ≤ minImp ∧ .fin 0 ≤ L.I cs)) := by
  unfold bestSplitter
  obtain ⟨a, e, hok'⟩ := L.impurity st.allocs cs hok hcs
  rw [e]
  simp only
  have hs : EvalState L good cs st.oob ⟨⟨cs, a, st.rng⟩, st.oob, C.start⟩ :=
    ⟨List.Perm.refl _, hok', List.Perm.refl _, hgood⟩
  have h0 := drawInv_start (K := K) (G := EvalGood fm o.leafSize cs) hnc hs
  by_cases hp : L.I cs ≤ minImp ∧ .fin 0 ≤ L.I cs
  · rw [if_pos hp]
    exact ⟨_, 0, rfl, h0, .inl ⟨rfl, rfl, rfl, hp.1⟩, le_refl _, .inl rfl⟩
  · rw [if_neg hp]
    obtain ⟨d, j, e2, h1, h2, h4⟩ := bestLoop_ok (P := EvalState L good cs st.oob)
      (G := EvalGood fm o.leafSize cs) (eval := evalFeature fm T C o (L.I cs))
      (intn := Searching.intn) (cans := st.cans) (nc := nc) (force := o.force) hm
      (fun s best i hs hi hb => evalFeature_ok hM h3 hC hls (L.I cs) hcs hoob hs hb (hcans i hi))
      (fun s n hs hn => searching_intn s n hs hn) (o.mTry + 2 * st.cans.length + 1) 0 _ h0
      (.inl (Nat.zero_le _)) (by omega) (Nat.zero_le _)
    exact ⟨d, j, e2, h1, .inr h2, h4, .inr hp⟩

/-- What `BestSplitter` returned, in terms of the evaluated features. -/
theorem DrawInv.split_ok {nc j : Nat} {d : Draw K (Searching K τ)}
    (h : DrawInv (EvalState L good cs oob) (EvalGood fm o.leafSize cs) cans nc j d)
    {code : Coded K} (hs : d.split = some code) :
    ∃ f, fm.data[d.fi]? = some f ∧ f.CodeFits code ∧ AdmCode f o.leafSize (f.knowns cs) code := by
  rcases h.best with hb | ⟨h1, ⟨e, he, h2, h4, h5⟩, -⟩
  · rw [hb.2.1] at hs; cases hs
  · obtain ⟨f, hf, hfit, hadm⟩ := (h.good e he).feat
    rw [h2] at hf
    refine ⟨f, hf, hfit code (h4.trans hs), ?_⟩
    obtain ⟨code', hc', ha⟩ := hadm (by rw [h5]; exact h1)
    rw [h4, hs] at hc'
    cases hc'
    exact ha

theorem admCode_counts {f : Feature K} {leafSize : Nat} {cs : List Nat} {code : Coded K}
    (h : AdmCode f leafSize (f.knowns cs) code) :
    leafSize ≤ leftCount f code cs ∧ leafSize ≤ rightCount f code cs := by
  unfold AdmCode Feature.lefts Feature.rights Feature.knowns at h
  rw [List.filter_filter, List.filter_filter] at h
  unfold leftCount rightCount
  refine ⟨h.1.trans (le_of_eq ?_), h.2.trans (le_of_eq ?_)⟩ <;>
  · congr 2; funext c; rw [Bool.and_comm]

variable {fp : List Nat → String} {md : Int} {sm : Bool}

theorem treeGrower_searchOk (hS : SplitSetting L fm C good o cans oob) :
    SearchOk (treeGrower fm T C o fp md sm) fm (StateOk L fm cans oob) (· ≤ cans.length) cases ∧
    Admissible (treeGrower fm T C o fp md sm) fm (StateOk L fm cans oob) (· ≤ cans.length) cases ∧
    ∀ st cs nc, StateOk L fm cans oob st → nc ≤ cans.length → (∀ c ∈ cs, c ∈ cases) →
      (treeGrower fm T C o fp md sm).best st cs nc ≠ none := by
  obtain ⟨hM, h3, hC, hgood, hls, hcans, hm, hoob⟩ := hS
  have key : ∀ (st : SplitState K) (cs : List Nat) (nc : Nat), StateOk L fm cans oob st →
      nc ≤ cans.length → (∀ c ∈ cs, c ∈ cases) → ∃ d j, bestSplitter fm T C o st cs nc = some d ∧
      DrawInv (EvalState L good cs st.oob) (EvalGood fm o.leafSize cs) st.cans nc j d := by
    intro st cs nc hst hnc hcs
    have hlen := hst.cans_.length_eq
    obtain ⟨d, j, e, h, -⟩ := bestSplitter_ok (cs := cs) (nc := nc) hM h3 hC hgood hls
      (fun i hi => hcans i (hst.cans_.subset hi)) (by omega) (by omega) hcs
      (fun c hc => hoob c (hst.oob_.subset hc)) hst.allocs
    exact ⟨d, j, e, h⟩
  refine ⟨⟨?_, ?_, ?_⟩, ?_, ?_⟩
  · intro st cs nc st' res hst hnc hcs h
    obtain ⟨d, j, e, hd⟩ := key st cs nc hst hnc hcs
    simp only [treeGrower, e, Option.bind_eq_bind, Option.bind_some, Option.some.injEq,
      Prod.mk.injEq] at h
    rw [← h.2]
    exact hd.st.cases_
  · intro st cs nc st' res code hst hnc hcs h hs
    obtain ⟨d, j, e, hd⟩ := key st cs nc hst hnc hcs
    simp only [treeGrower, e, Option.bind_eq_bind, Option.bind_some, Option.some.injEq,
      Prod.mk.injEq] at h
    rw [← h.2] at hs ⊢
    obtain ⟨f, hf, hfit, -⟩ := hd.split_ok hs
    exact ⟨f, hf, hfit⟩
  · intro st cs nc st' res hst hnc hcs h
    obtain ⟨d, j, e, hd⟩ := key st cs nc hst hnc hcs
    simp only [treeGrower, e, Option.bind_eq_bind, Option.bind_some, Option.some.injEq,
      Prod.mk.injEq] at h
    rw [← h.1, ← h.2]
    refine ⟨⟨hd.st.allocs, hd.perm.trans hst.cans_, hd.st.oob_.trans hst.oob_⟩, ?_⟩
    have := hd.fits
    have := hst.cans_.length_eq
    simp only
    omega
  · intro st cs nc st' res code f hst hnc hcs h hs hf
    obtain ⟨d, j, e, hd⟩ := key st cs nc hst hnc hcs
    simp only [treeGrower, e, Option.bind_eq_bind, Option.bind_some, Option.some.injEq,
      Prod.mk.injEq] at h
    rw [← h.2] at hs hf
    obtain ⟨f', hf', -, ha⟩ := hd.split_ok hs
    rw [hf] at hf'
    cases hf'
    exact admCode_counts ha
  · intro st cs nc hst hnc hcs
    obtain ⟨d, j, e, hd⟩ := key st cs nc hst hnc hcs
    simp [treeGrower, e]

end
end CloudForest
