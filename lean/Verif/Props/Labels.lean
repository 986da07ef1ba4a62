import Verif.Lemmas.Labels
import Verif.Props.Fit
import Verif.Props.RoundedGini

/-!
# C137: the questions of a tree do not depend on names, numbers or origins of its target
-/

set_option linter.unusedSectionVars false

namespace CloudForest
variable {K : Type} [Field K] [LinearOrder K] [IsStrictOrderedRing K] {τ : Type}

/-- Targets with the same impurities make trees that differ in their predictions only. -/
theorem grow_agree {fm : FeatureMatrix K} {T T' : Target K} {C C' : Contrast K τ} {good good' : τ → Prop} {o : SplitOpts}
    {all cases : List Nat} (hM : MatrixOk fm all) (hc : ∀ c ∈ cases, c ∈ all) {L : TargetLaws T all} {L' : TargetLaws T' all}
    (hE : L.Agrees L') {st : SplitState K} (hS : SplitSetting L fm C good o st.cans st.oob)
    (hS' : SplitSetting L' fm C' good' o st.cans st.oob) (hok : L.Ok st.allocs) (hok' : L'.Ok st.allocs)
    (hvet : o.vet = false) (hoob : o.evaloob = false) (predict predict' : List Nat → String) (maxDepth : Int)
    (splitmissing : Bool) :
    ∃ root root' st1 st1', (∀ fuel, cases.length < fuel →
        grow (treeGrower fm T C o predict maxDepth splitmissing) fm fuel .fresh st cases 0 0 = some (root, st1) ∧
        grow (treeGrower fm T' C' o predict' maxDepth splitmissing) fm fuel .fresh st cases 0 0 = some (root', st1')) ∧
      root'.blank = root.blank := by
  have hR : fm.Rescaled fm all := by
    refine ⟨rfl, fun i F F' hF hF' => ?_⟩
    rw [hF] at hF'
    cases hF'
    cases F with
    | num f => exact ⟨rfl, rfl, fun _ _ _ _ => Iff.rfl⟩
    | cat f => exact (rfl : f = f)
  obtain ⟨r0, r0', s0, s0', h0, hta⟩ := grow_alike hM hM hc hE hS hS' hok hok' rfl rfl hvet hoob hR (.inl rfl) (.refl _)
    (findPredicted := fun _ => "") (fun _ _ _ _ => rfl) maxDepth splitmissing
  cases treatAlike_eq hta
  obtain ⟨root, st1, h, -⟩ := c09_grow hM hc hS hok predict maxDepth splitmissing
  obtain ⟨root', st1', h', -⟩ := c09_grow hM hc hS' hok' predict' maxDepth splitmissing
  refine ⟨root, root', st1, st1', fun fuel hf => ⟨h fuel hf, h' fuel hf⟩, ?_⟩
  have e := grow_blank (treeGrower fm T C o predict maxDepth splitmissing) fm (cases.length + 1) .fresh st cases 0 0
  have e' := grow_blank (treeGrower fm T' C' o predict' maxDepth splitmissing) fm (cases.length + 1) .fresh st cases 0 0
  rw [h _ (Nat.lt_succ_self _)] at e
  rw [h' _ (Nat.lt_succ_self _)] at e'
  have g := (h0 _ (Nat.lt_succ_self _)).1.symm.trans e
  have g' := (h0 _ (Nat.lt_succ_self _)).2.symm.trans e'
  simp only [Option.map_some, Option.some.injEq, Prod.mk.injEq] at g g'
  exact g'.1.symm.trans g.1

/-- **C137, classes.** Two categorical targets that put the same cases into the same classes, under whatever names and
numbers, make trees that ask the same questions of the same features in the same places, with the same random numbers:
the trees differ in their predictions only. Gini impurity. -/
theorem c137_classes {fm : FeatureMatrix K} {f f' : CatFeature} {n : Nat} {C C' : Contrast K τ} {good good' : τ → Prop}
    {o : SplitOpts} {all cases : List Nat} (hM : MatrixOk fm all) (hc : ∀ c ∈ cases, c ∈ all) (hf : f.InRange n all)
    (hf' : f'.InRange n all) (hs : f.SameClasses f' all) {st : SplitState K}
    (hS : SplitSetting (giniLaws f n all hf) fm C good o st.cans st.oob)
    (hS' : SplitSetting (giniLaws f' n all hf') fm C' good' o st.cans st.oob) (ha : CountersFor n st.allocs)
    (hvet : o.vet = false) (hoob : o.evaloob = false) (predict predict' : List Nat → String) (maxDepth : Int)
    (splitmissing : Bool) :
    ∃ root root' st1 st1', (∀ fuel, cases.length < fuel →
        grow (treeGrower fm (giniTarget f) C o predict maxDepth splitmissing) fm fuel .fresh st cases 0 0 = some (root, st1) ∧
        grow (treeGrower fm (giniTarget f') C' o predict' maxDepth splitmissing) fm fuel .fresh st cases 0 0 =
          some (root', st1')) ∧ root'.blank = root.blank :=
  grow_agree (L := giniLaws f n all hf) (L' := giniLaws f' n all hf') hM hc
    (countLaws_agree hf hf' hs (imp := giniFromCounts) fun n _ _ h => giniFromCounts_perm n h) hS hS' ha ha hvet hoob predict predict'
    maxDepth splitmissing

/-- **C137, classes.** The same for the entropy, whatever the logarithm. -/
theorem c137_entropy {fm : FeatureMatrix K} {log : XF K → XF K} {f f' : CatFeature} {n : Nat} {C C' : Contrast K τ}
    {good good' : τ → Prop} {o : SplitOpts} {all cases : List Nat} (hM : MatrixOk fm all) (hc : ∀ c ∈ cases, c ∈ all)
    (hf : f.InRange n all) (hf' : f'.InRange n all) (hs : f.SameClasses f' all) {st : SplitState K}
    (hS : SplitSetting (countLaws f (entropyFromCounts log) n all hf) fm C good o st.cans st.oob)
    (hS' : SplitSetting (countLaws f' (entropyFromCounts log) n all hf') fm C' good' o st.cans st.oob)
    (ha : CountersFor n st.allocs) (hvet : o.vet = false) (hoob : o.evaloob = false)
    (predict predict' : List Nat → String) (maxDepth : Int) (splitmissing : Bool) :
    ∃ root root' st1 st1', (∀ fuel, cases.length < fuel →
        grow (treeGrower fm (entropyTarget log f) C o predict maxDepth splitmissing) fm fuel .fresh st cases 0 0 =
          some (root, st1) ∧
        grow (treeGrower fm (entropyTarget log f') C' o predict' maxDepth splitmissing) fm fuel .fresh st cases 0 0 =
          some (root', st1')) ∧ root'.blank = root.blank :=
  grow_agree (L := countLaws f (entropyFromCounts log) n all hf) (L' := countLaws f' (entropyFromCounts log) n all hf') hM hc
    (countLaws_agree hf hf' hs (imp := entropyFromCounts log) fun n _ _ h => entropyFromCounts_perm log n h) hS hS' ha ha hvet hoob predict
    predict' maxDepth splitmissing

/-- **C137, numbers.** The same for a numerical target measured from another origin, or in the other direction. -/
theorem c137_numbers {fm : FeatureMatrix K} {f f' : NumFeature K} {C C' : Contrast K τ} {good good' : τ → Prop}
    {o : SplitOpts} {all cases : List Nat} (hM : MatrixOk fm all) (hc : ∀ c ∈ cases, c ∈ all) (hf : f.Finite all)
    (hf' : f'.Finite all) (hm : f.Moved f' all) {st : SplitState K}
    (hS : SplitSetting (sseLaws f all hf) fm C good o st.cans st.oob)
    (hS' : SplitSetting (sseLaws f' all hf') fm C' good' o st.cans st.oob)
    (hvet : o.vet = false) (hoob : o.evaloob = false) (predict predict' : List Nat → String) (maxDepth : Int)
    (splitmissing : Bool) :
    ∃ root root' st1 st1', (∀ fuel, cases.length < fuel →
        grow (treeGrower fm (sseTarget f) C o predict maxDepth splitmissing) fm fuel .fresh st cases 0 0 = some (root, st1) ∧
        grow (treeGrower fm (sseTarget f') C' o predict' maxDepth splitmissing) fm fuel .fresh st cases 0 0 =
          some (root', st1')) ∧ root'.blank = root.blank :=
  grow_agree hM hc (sseLaws_agree hf hf' hm) hS hS' trivial trivial hvet hoob predict predict' maxDepth splitmissing

/-- **C137, means.** And the prediction of a leaf moves with the target. -/
theorem c137_mean {f f' : NumFeature K} {cs : List Nat} {b : K} (hne : cs ≠ []) (hf : f.Finite cs) (hf' : f'.Finite cs)
    (hk : ∀ c ∈ cs, f.missing[c]? = some false) (hk' : ∀ c ∈ cs, f'.missing[c]? = some false)
    (hl : f.numData.length = f.missing.length) (hl' : f'.numData.length = f'.missing.length)
    (h : ∀ c ∈ cs, f'.value c = f.value c + b) :
    ∃ m, f.mean cs = some (.fin m) ∧ f'.mean cs = some (.fin (m + b)) := by
  have e : ∀ {f : NumFeature K}, (∀ c ∈ cs, f.missing[c]? = some false) → knownOf f.missing cs = cs := by
    intro f hk
    exact List.filter_eq_self.2 fun c hc => by rw [hk c hc]; rfl
  have hlt : ∀ {f : NumFeature K}, (∀ c ∈ cs, f.missing[c]? = some false) → ∀ c ∈ cs, c < f.missing.length :=
    fun hk c hc => (List.getElem?_eq_some_iff.1 (hk c hc)).1
  refine ⟨f.meanOf cs, ?_, ?_⟩
  · rw [mean_eq f cs (hlt hk) hl (by rw [e hk]; exact hf) (by rw [e hk]; exact hne), e hk]
  · rw [mean_eq f' cs (hlt hk') hl' (by rw [e hk']; exact hf') (by rw [e hk']; exact hne), e hk',
      meanOf_affine (f := f) (s := 1) (b := b) (fun c hc => by rw [h c hc]; ring) hne, one_mul]

/-! Examples -/

/-- The classes of `exSplitT` under other numbers. -/
def exLabelT : CatFeature := { exSplitT with catData := exSplitT.catData.map (1 - ·) }

theorem exLabelT_inRange : exLabelT.InRange 2 [0, 1, 2, 3, 4, 5] := by
  intro c hc; fin_cases hc <;> simp [exLabelT, exSplitT]

theorem exLabelT_same : exSplitT.SameClasses exLabelT [0, 1, 2, 3, 4, 5] := by
  unfold CatFeature.SameClasses
  decide +kernel

theorem exLabelSetting {f : CatFeature} (hf : f.InRange 2 [0, 1, 2, 3, 4, 5]) (hm : f.missing.length = f.catData.length)
    (imp : Nat → List Int → XF ℚ) :
    SplitSetting (countLaws (K := ℚ) f imp 2 _ hf) exFM3 (catContrast f) (fun _ => True) ⟨2, 1, true, false, false, true⟩
      exUnitsState.cans exUnitsState.oob where
  feats := exFM3_feats
  total3 h := by cases h
  contrast h := by cases h
  start := trivial
  leafSize := by decide
  exist := by decide
  mTry := by decide
  oobs := by decide

/-- Six cases, one of them twice, random thresholds. -/
example : ∃ root root' st1 st1', (∀ fuel, 6 < fuel →
    grow (treeGrower exFM3 (giniTarget exSplitT) (catContrast exSplitT) ⟨2, 1, true, false, false, true⟩
      (fun cs => (exSplitT.findPredicted cs).getD "") 0 true) exFM3 fuel .fresh exUnitsState [5, 2, 4, 5, 0, 3] 0 0 =
        some (root, st1) ∧
    grow (treeGrower exFM3 (giniTarget exLabelT) (catContrast exLabelT) ⟨2, 1, true, false, false, true⟩
      (fun cs => (exLabelT.findPredicted cs).getD "") 0 true) exFM3 fuel .fresh exUnitsState [5, 2, 4, 5, 0, 3] 0 0 =
        some (root', st1')) ∧ root'.blank = root.blank :=
  c137_classes exFM3_ok (cases := [5, 2, 4, 5, 0, 3]) (by decide) exSplitT_inRange exLabelT_inRange exLabelT_same
    (exLabelSetting exSplitT_inRange (by decide +kernel) _) (exLabelSetting exLabelT_inRange (by decide +kernel) _)
    ⟨rfl, rfl, rfl⟩ rfl rfl _ _ 0 true

example : ∃ root root' st1 st1', (∀ fuel, 6 < fuel →
    grow (treeGrower exFM3 (entropyTarget id exSplitT) (catContrast exSplitT) ⟨2, 1, true, false, false, true⟩
      (fun _ => "") 0 true) exFM3 fuel .fresh exUnitsState [5, 2, 4, 5, 0, 3] 0 0 = some (root, st1) ∧
    grow (treeGrower exFM3 (entropyTarget id exLabelT) (catContrast exLabelT) ⟨2, 1, true, false, false, true⟩
      (fun _ => "") 0 true) exFM3 fuel .fresh exUnitsState [5, 2, 4, 5, 0, 3] 0 0 =
        some (root', st1')) ∧ root'.blank = root.blank :=
  c137_entropy exFM3_ok (cases := [5, 2, 4, 5, 0, 3]) (by decide) exSplitT_inRange exLabelT_inRange exLabelT_same
    (exLabelSetting exSplitT_inRange (by decide +kernel) _) (exLabelSetting exLabelT_inRange (by decide +kernel) _)
    ⟨rfl, rfl, rfl⟩ rfl rfl _ _ 0 true

/-- Two of the example trees, and that they are divided at the root. -/
example : rootKind (grow (treeGrower exFM3 (giniTarget exLabelT) (catContrast exLabelT) ⟨2, 1, true, false, false, true⟩
      (fun _ => "") 0 true) exFM3 7 .fresh exUnitsState [5, 2, 4, 5, 0, 3] 0 0) = some 1 := by
  decide +kernel

/-- A target 0, 0, 1, and the same as 10, 10, 9: the other direction from another origin. -/
example : ∃ root root' st1 st1', (∀ fuel, 3 < fuel →
    grow (treeGrower exFitFM (sseTarget (exFitNum 0 0 1)) (numContrast (exFitNum 0 0 1)) ⟨1, 1, false, false, false, false⟩
      (fun _ => "") 0 false) exFitFM fuel .fresh ⟨exWork.allocs, fun _ => 0, [0], []⟩ [0, 1, 2] 0 0 = some (root, st1) ∧
    grow (treeGrower exFitFM (sseTarget (exFitNum 10 10 9)) (numContrast (exFitNum 10 10 9))
      ⟨1, 1, false, false, false, false⟩ (fun _ => "") 0 false) exFitFM fuel .fresh
        ⟨exWork.allocs, fun _ => 0, [0], []⟩ [0, 1, 2] 0 0 = some (root', st1')) ∧ root'.blank = root.blank := by
  have hset : ∀ a b c : ℚ, SplitSetting (sseLaws (exFitNum a b c) _ (exFitNum_finite a b c)) exFitFM
      (numContrast (exFitNum a b c)) (fun _ => True) ⟨1, 1, false, false, false, false⟩ [0] [] := fun a b c =>
    ⟨exFitFM_feats, (fun h => by cases h), (fun h => by cases h), trivial, by decide, by decide, by decide, by decide⟩
  refine c137_numbers exFitFM_ok (cases := [0, 1, 2]) (by decide) (exFitNum_finite 0 0 1) (exFitNum_finite 10 10 9)
    ⟨10, .inr ?_⟩ (st := ⟨exWork.allocs, fun _ => 0, [0], []⟩) (hset 0 0 1) (hset 10 10 9) rfl rfl _ _ 0 false
  intro c hc
  fin_cases hc <;> simp [exFitNum, NumFeature.value] <;> norm_num

example : ∃ m, (exFitNum 0 0 1).mean [0, 1, 2] = some (.fin m) ∧ (exFitNum 10 10 11).mean [0, 1, 2] = some (.fin (m + 10)) :=
  c137_mean (by decide) (exFitNum_finite 0 0 1) (exFitNum_finite 10 10 11) (by decide) (by decide) rfl rfl (by
    intro c hc
    fin_cases hc <;> simp [exFitNum, NumFeature.value] <;> norm_num)

/-! ## What does depend on them -/

/-- Three cases of two classes. The classes are numbered in order of appearance. -/
def exOrderT (first : String) : CatFeature := [first, "b", "a"].foldl (fun f v => f.append v) (.new "C:t")

/-- **C137.** The prediction of a leaf where classes are equally frequent does depend on their numbers, that is on the
order in which they appear in the file: for the cases 1 and 2, of the classes b and a in both files, it is b if case 0 is
a b and a if it is an a. -/
theorem c137_tie : (exOrderT "b").SameClasses (exOrderT "a") [1, 2] ∧
    [1, 2].map (exOrderT "b").getStr = [1, 2].map (exOrderT "a").getStr ∧
    (exOrderT "b").findPredicted [1, 2] = some "b" ∧ (exOrderT "a").findPredicted [1, 2] = some "a" := by
  unfold CatFeature.SameClasses
  decide +kernel

/-- **C137.** In double precision the impurity may depend on the numbers of the classes in its last digit: of seven cases
one, two and four are of the classes 0, 1 and 2, or of the classes 2, 1 and 0. -/
theorem c137_rounded : giniFromCounts (K := ℚ) 7 [1, 2, 4] = giniFromCounts 7 [4, 2, 1] ∧
    giniFromCountsR F64.round 7 [1, 2, 4] ≠ giniFromCountsR F64.round 7 [4, 2, 1] := by
  decide +kernel

end CloudForest
