import Verif.Lemmas.Vet
import Verif.Props.Choose
import Verif.Model.Targets
import Verif.Props.Splitter
import Verif.Spec.Fair

/-!
# C123: vetting measures a feature against chance
-/

set_option linter.unusedSectionVars false

namespace CloudForest
variable {K : Type} [Field K] [LinearOrder K] [IsStrictOrderedRing K]

/-- **C123**, classes without repeated cases: the shuffled copy keeps the classes of the node's cases, each perhaps in
another place. If a feature beats the best so far, what is taken off its decrease is at least zero and at most the
impurity of the node.
Missing from the full property: targets that do not measure Gini impurity (`c123_costs`) and samples with repeated cases
(`c123_repeated`). -/
theorem c123_gini_partial {t : CatFeature} {n : Nat} {all : List Nat} (ht : t.InRange n all)
    {fm : FeatureMatrix K} {o : SplitOpts} (hvet : o.vet = true) (hoob : o.evaloob = false) (hls : 1 ≤ o.leafSize) {i : Nat}
    {F : Feature K} (hi : fm.data[i]? = some F) (hF : FeatOk F all) (s : Searching K CatFeature)
    (hcon : s.contrast.missing.length = s.contrast.catData.length) (hlen : s.contrast.catData.length = t.catData.length)
    (hre : RearrangedOn s.work.cases t.catData s.contrast.catData)
    (hsame : ∀ c, c ∉ s.work.cases → s.contrast.catData[c]? = t.catData[c]?)
    (hnd : s.work.cases.Nodup) (hcs : ∀ c ∈ s.work.cases, c ∈ all) (hne : s.work.cases ≠ [])
    (hties : F.NoNearTies (F.knowns s.work.cases))
    (hok : s.work.allocs.counter.length = n ∧ s.work.allocs.lcounter.length = n ∧ s.work.allocs.rcounter.length = n)
    (hbig : (minImp : XF K) < .fin (t.gini K n s.work.cases)) (best : XF K) :
    ∃ r w found s', F.bestSplit (giniTarget t) (.fin (t.gini K n s.work.cases)) o.leafSize o.extraRandom s.work = some (r, w) ∧
      evalFeature fm (giniTarget t) (catContrast t) o (.fin (t.gini K n s.work.cases)) s best i = some (found, s') ∧
      RearrangedOn s.work.cases t.catData s'.contrast.catData ∧
      (∀ c, c ∉ s.work.cases → s'.contrast.catData[c]? = t.catData[c]?) ∧
      (¬ best < r.imp → found = r) ∧
      (best < r.imp → ∃ y, 0 ≤ y ∧ y ≤ t.gini K n s.work.cases ∧ found = ⟨r.code, r.imp - .fin y, r.constant⟩) := by
  have hlt : ∀ c ∈ s.work.cases, c < t.catData.length := by
    intro c hc
    obtain ⟨k, hk, -⟩ := ht c (hcs c hc)
    exact (List.getElem?_eq_some_iff.1 hk).1
  let P : CatFeature → Prop := fun g => g.missing.length = g.catData.length ∧ g.catData.length = t.catData.length ∧
    RearrangedOn s.work.cases t.catData g.catData ∧ ∀ c, c ∉ s.work.cases → g.catData[c]? = t.catData[c]?
  have hrange : ∀ g, P g → g.InRange n all := by
    rintro g ⟨-, -, h3, h4⟩ c hc
    by_cases hin : c ∈ s.work.cases
    · have : g.catData[c]? ∈ s.work.cases.map fun c => t.catData[c]? :=
        h3.mem_iff.1 (List.mem_map.2 ⟨c, hin, rfl⟩)
      obtain ⟨d, hd, he⟩ := List.mem_map.1 this
      obtain ⟨k, hk, hkn⟩ := ht d (hcs d hd)
      exact ⟨k, by rw [← he]; exact hk, hkn⟩
    · rw [h4 c hin]
      exact ht c hc
  have hC : VetOk (giniLaws (K := K) t n all ht) (t.gini K n) (catContrast t) s.work.cases P := by
    refine ⟨?_, ?_⟩
    · rintro g cs' rng ⟨h1, h2, h3, h4⟩ hp
      obtain ⟨m, d, rng', e, hm, hd, hr, hs⟩ := shuffleLoop_rearranged (hp.nodup_iff.2 hnd)
        (n := t.catData.length) (fun c hc => hlt c (hp.mem_iff.1 hc)) (h1.trans h2) h2 rng
      refine ⟨{ g with missing := m, catData := d }, rng', ?_, hm.trans hd.symm, hd, h3.trans (hr.perm hp), fun c hc => ?_⟩
      · show g.shuffleCases cs' rng = _
        unfold CatFeature.shuffleCases
        rw [e]; rfl
      · exact (hs c fun h => hc (hp.mem_iff.1 h)).trans (h4 c hc)
    · intro g hg
      exact ⟨giniLaws g n all (hrange g hg), g.gini K n, rfl, giniLaws_weighted g n all _, gini_super g n,
        gini_rearranged n hg.2.2.1⟩
  obtain ⟨r, w, found, s', h1, h2, -, -, h3, h4, h5⟩ := evalFeature_vet (giniLaws_weighted t n all ht) (fm := fm) hvet hoob hls hi hF hC
    ⟨hcon, hlen, hre, hsame⟩ hcs hne hties hok hbig best
  exact ⟨r, w, found, s', h1, h2, h3.2.2.1, h3.2.2.2, h4, h5⟩

/-- **C123**, numbers without repeated cases. -/
theorem c123_sse_partial {t : NumFeature K} {all : List Nat} (ht : t.Finite all)
    {fm : FeatureMatrix K} {o : SplitOpts} (hvet : o.vet = true) (hoob : o.evaloob = false) (hls : 1 ≤ o.leafSize) {i : Nat}
    {F : Feature K} (hi : fm.data[i]? = some F) (hF : FeatOk F all) (s : Searching K (NumFeature K))
    (hcon : s.contrast.missing.length = s.contrast.numData.length) (hlen : s.contrast.numData.length = t.numData.length)
    (hre : RearrangedOn s.work.cases t.numData s.contrast.numData)
    (hsame : ∀ c, c ∉ s.work.cases → s.contrast.numData[c]? = t.numData[c]?)
    (hnd : s.work.cases.Nodup) (hcs : ∀ c ∈ s.work.cases, c ∈ all) (hne : s.work.cases ≠ [])
    (hties : F.NoNearTies (F.knowns s.work.cases))
    (hbig : (minImp : XF K) < .fin (t.sse s.work.cases)) (best : XF K) :
    ∃ r w found s', F.bestSplit (sseTarget t) (.fin (t.sse s.work.cases)) o.leafSize o.extraRandom s.work = some (r, w) ∧
      evalFeature fm (sseTarget t) (numContrast t) o (.fin (t.sse s.work.cases)) s best i = some (found, s') ∧
      RearrangedOn s.work.cases t.numData s'.contrast.numData ∧
      (∀ c, c ∉ s.work.cases → s'.contrast.numData[c]? = t.numData[c]?) ∧
      (¬ best < r.imp → found = r) ∧
      (best < r.imp → ∃ y, 0 ≤ y ∧ y ≤ t.sse s.work.cases ∧ found = ⟨r.code, r.imp - .fin y, r.constant⟩) := by
  have hlt : ∀ c ∈ s.work.cases, c < t.numData.length := by
    intro c hc
    obtain ⟨k, hk⟩ := ht c (hcs c hc)
    exact (List.getElem?_eq_some_iff.1 hk).1
  let P : NumFeature K → Prop := fun g => g.missing.length = g.numData.length ∧ g.numData.length = t.numData.length ∧
    RearrangedOn s.work.cases t.numData g.numData ∧ ∀ c, c ∉ s.work.cases → g.numData[c]? = t.numData[c]?
  have hrange : ∀ g, P g → g.Finite all := by
    rintro g ⟨-, -, h3, h4⟩ c hc
    by_cases hin : c ∈ s.work.cases
    · have : g.numData[c]? ∈ s.work.cases.map fun c => t.numData[c]? :=
        h3.mem_iff.1 (List.mem_map.2 ⟨c, hin, rfl⟩)
      obtain ⟨d, hd, he⟩ := List.mem_map.1 this
      obtain ⟨k, hk⟩ := ht d (hcs d hd)
      exact ⟨k, by rw [← he]; exact hk⟩
    · rw [h4 c hin]
      exact ht c hc
  have hC : VetOk (sseLaws t all ht) t.sse (numContrast t) s.work.cases P := by
    refine ⟨?_, ?_⟩
    · rintro g cs' rng ⟨h1, h2, h3, h4⟩ hp
      obtain ⟨m, d, rng', e, hm, hd, hr, hs⟩ := shuffleLoop_rearranged (hp.nodup_iff.2 hnd)
        (n := t.numData.length) (fun c hc => hlt c (hp.mem_iff.1 hc)) (h1.trans h2) h2 rng
      refine ⟨{ g with missing := m, numData := d }, rng', ?_, hm.trans hd.symm, hd, h3.trans (hr.perm hp), fun c hc => ?_⟩
      · show g.shuffleCases cs' rng = _
        unfold NumFeature.shuffleCases
        rw [e]; rfl
      · exact (hs c fun h => hc (hp.mem_iff.1 h)).trans (h4 c hc)
    · intro g hg
      exact ⟨sseLaws g all (hrange g hg), g.sse, rfl, sseLaws_weighted g all _, sse_super g, sse_rearranged hg.2.2.1⟩
  obtain ⟨r, w, found, s', h1, h2, -, -, h3, h4, h5⟩ := evalFeature_vet (sseLaws_weighted t all ht) (fm := fm) hvet hoob hls hi hF hC
    ⟨hcon, hlen, hre, hsame⟩ hcs hne hties trivial hbig best
  exact ⟨r, w, found, s', h1, h2, h3.2.2.1, h3.2.2.2, h4, h5⟩

/-- Which measure is used for shuffled targets: Gini impurity or the numerical impurity, whatever options choose the
target. So the measures are alike only if no option does. -/
theorem c123_kinds (o : TargetOptions) (numeric : Bool) (hd : o.density = false) :
    ∃ k, (k = .num ∨ k = .cat) ∧ o.vetted numeric true = some (some k) ∧
      (o.target numeric = [k] ↔ o.asked numeric = []) := by
  obtain ⟨d, l, r, g, a, n, c, e, ac, w, en, h, u⟩ := o
  subst hd
  cases numeric
  · refine ⟨if g && !(n || c || e || ac || w || en || a || h) then .num else .cat, by split <;> simp, ?_⟩
    have key : ∀ g a n c e ac w en h u : Bool,
        let o : TargetOptions := ⟨false, false, false, g, a, n, c, e, ac, w, en, h, u⟩
        let k : TargetKind := if g && !(n || c || e || ac || w || en || a || h) then .num else .cat
        o.vetted false true = some (some k) ∧ (o.target false = [k] ↔ o.asked false = []) := by decide +kernel
    exact key g a n c e ac w en h u
  · refine ⟨.num, .inl rfl, ?_⟩
    have key : ∀ l r g a : Bool,
        let o : TargetOptions := ⟨false, l, r, g, a, false, false, false, false, false, false, false, false⟩
        o.vetted true true = some (some .num) ∧ (o.target true = [.num] ↔ o.asked true = []) := by decide +kernel
    exact key l r g a

/-- **C123 is false of the code** with `-density -vet`, which panics. -/
theorem c123_density (o : TargetOptions) (numeric : Bool) (hd : o.density = true) : o.vetted numeric true = none := by
  obtain ⟨d, l, r, g, a, n, c, e, ac, w, en, h, u⟩ := o
  subst hd
  cases numeric <;> rfl

/-- Two categories, two classes, four cases. -/
def exVetF : CatFeature := ⟨⟨fun _ => none, ["a", "b"]⟩, [0, 0, 1, 1], List.replicate 4 false, "x", false, false⟩
@[inherit_doc exVetF]
def exVetT : CatFeature := ⟨⟨fun _ => none, ["p", "q"]⟩, [0, 1, 1, 1], List.replicate 4 false, "t", false, false⟩
@[inherit_doc exVetF]
def exVetFM : FeatureMatrix ℚ := ⟨[.cat exVetF], fun s => if s = "x" then some 0 else none, []⟩
/-- The start of a search among the given cases. -/
def exVetStart (cases : List Nat) (t : CatFeature) (rng : Rng) : Searching ℚ CatFeature :=
  ⟨⟨cases, ⟨[0, 0], [0, 0], [0, 0], .fin 0, .fin 0, .fin 0, .fin 0, .fin 0, .fin 0⟩, rng⟩, [], t⟩

theorem exVetT_inRange : exVetT.InRange 2 [0, 1, 2, 3] := by
  intro c hc; fin_cases hc <;> simp [exVetT]

theorem exVetF_ok : FeatOk (Feature.cat (K := ℚ) exVetF) [0, 1, 2, 3] := by
  refine ⟨fun c hc => ?_, fun c hc => ?_, fun c hc => ?_⟩
  · fin_cases hc <;> exact ⟨by decide, by decide, fun k _ h => by cases h; decide⟩
  · simp only [Feature.isMissing, exVetF, List.getElem?_replicate] at hc
    split at hc <;> cases hc
  · have := List.mem_of_mem_filter hc
    fin_cases this <;> simp [exVetF, CatMap.nCats]

/-- Whatever the shuffle, vetting the two categories by Gini impurity takes something off the 1/8 that they decrease it by. -/
example : ∀ rng : Rng, ∃ found s' y, evalFeature exVetFM (giniTarget exVetT) (catContrast exVetT)
      ⟨1, 1, false, true, false, false⟩ (.fin (exVetT.gini ℚ 2 [0, 1, 2, 3])) (exVetStart [0, 1, 2, 3] exVetT rng) minImp 0 =
        some (found, s') ∧ RearrangedOn [0, 1, 2, 3] exVetT.catData s'.contrast.catData ∧
      found = ⟨some (.int 1), .fin (1 / 8) - .fin y, false⟩ ∧ 0 ≤ y ∧ y ≤ 3 / 8 := by
  intro rng
  obtain ⟨r, w, found, s', h1, h2, h3, -, -, h4⟩ := c123_gini_partial (K := ℚ) exVetT_inRange (fm := exVetFM)
    (o := ⟨1, 1, false, true, false, false⟩) rfl rfl (le_refl 1) (i := 0) rfl exVetF_ok (exVetStart [0, 1, 2, 3] exVetT rng)
    rfl rfl (RearrangedOn.refl _ _) (fun _ _ => rfl) (show ([0, 1, 2, 3] : List Nat).Nodup by decide) (fun _ h => h)
    (show ([0, 1, 2, 3] : List Nat) ≠ [] by decide) trivial ⟨rfl, rfl, rfl⟩
    (show (minImp : XF ℚ) < .fin (exVetT.gini ℚ 2 [0, 1, 2, 3]) by decide +kernel) minImp
  have hr : r = ⟨some (.int 1), .fin (1 / 8), false⟩ := by
    have h : ((Feature.cat exVetF).bestSplit (giniTarget exVetT) (.fin (exVetT.gini ℚ 2 [0, 1, 2, 3])) 1 false
        (exVetStart [0, 1, 2, 3] exVetT rng).work).map Prod.fst = some ⟨some (.int 1), .fin (1 / 8), false⟩ := by
      kernel_refl
    have h1' : ((Feature.cat exVetF).bestSplit (giniTarget exVetT) (.fin (exVetT.gini ℚ 2 [0, 1, 2, 3])) 1 false
        (exVetStart [0, 1, 2, 3] exVetT rng).work) = some (r, w) := h1
    rw [h1'] at h
    exact Option.some.inj h
  subst hr
  obtain ⟨y, hy0, hy1, rfl⟩ := h4 (by decide +kernel)
  refine ⟨_, s', y, h2, h3, rfl, hy0, ?_⟩
  have : exVetT.gini ℚ 2 [0, 1, 2, 3] = 3 / 8 := by decide +kernel
  rw [← this]
  exact hy1

/-- **C123 is false of the code** with `-cost -vet`, small costs: the impurity, a cost, is 1/400, the feature decreases
it by 1/800, and whatever the shuffle vetting adds 99/400 to that. -/
theorem c123_costs :
    ((regretTarget [(.fin (1 / 50) : XF ℚ), .fin (1 / 100)] exVetT).impurity ⟨[0, 0], [0, 0], [0, 0], .fin 0, .fin 0, .fin 0,
      .fin 0, .fin 0, .fin 0⟩ [0, 1, 2, 3]).map Prod.fst = some (.fin (1 / 400)) ∧
    ∀ d ∈ drawSeqs 4 4, ∀ vet : Bool,
      (evalFeature exVetFM (regretTarget [.fin (1 / 50), .fin (1 / 100)] exVetT) (catContrast exVetT)
        ⟨1, 1, false, vet, false, false⟩ (.fin (1 / 400)) (exVetStart [0, 1, 2, 3] exVetT (streamOf d)) minImp 0).map
          (·.1.imp) = some (.fin (1 / 800 + if vet then 99 / 400 else 0)) := by
  decide +kernel

/-- Large costs: a feature that halves the impurity of 25 is never split on, whatever the shuffle. Without vetting it
is. -/
theorem c123_costs_large : ∀ d ∈ drawSeqs 4 4, ∀ vet : Bool,
    (bestSplitter exVetFM (regretTarget [.fin 200, .fin 100] exVetT) (catContrast exVetT) ⟨1, 1, false, vet, false, false⟩
      ⟨⟨[0, 0], [0, 0], [0, 0], .fin 0, .fin 0, .fin 0, .fin 0, .fin 0, .fin 0⟩, streamOf (0 :: d), [0], []⟩ [0, 1, 2, 3] 0).map
        (fun d => (d.split, d.log.map (·.2.imp))) =
      some (if vet then (none, [.fin (1 / 4 - 25 / 2)]) else (some (.int 1), [.fin (25 / 2)])) := by
  decide +kernel

/-- The third of three cases is of another category, and of another class. -/
def exRepF : CatFeature := ⟨⟨fun _ => none, ["a", "b"]⟩, [0, 0, 1], List.replicate 3 false, "x", false, false⟩

/-- **C123 is false of the code** for repeated cases, as bags have them: the classes of three cases drawn three times,
three times and once have impurity 12/49. Shuffled they can be three to four, and then what is taken off is negative.
The score is 3/7, more than the impurity. -/
theorem c123_repeated :
    exRepF.gini ℚ 2 [0, 0, 0, 1, 1, 1, 2] = 12 / 49 ∧
    (evalFeature ⟨[.cat exRepF], fun _ => some 0, []⟩ (giniTarget exRepF) (catContrast exRepF) ⟨1, 1, false, true, false, false⟩
      (.fin (12 / 49)) (exVetStart [0, 0, 0, 1, 1, 1, 2] exRepF (streamOf [6, 0, 0, 0, 0, 0, 0])) minImp 0).map (·.1.imp) =
      some (.fin (3 / 7)) := by
  decide +kernel

end CloudForest
