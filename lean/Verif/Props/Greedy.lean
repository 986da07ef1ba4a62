import Verif.Lemmas.Greedy2

/-!
# Property C121: every node of a grown tree is the best it can be
-/

set_option linter.unusedSectionVars false

namespace CloudForest
variable {K : Type} [Field K] [LinearOrder K] [IsStrictOrderedRing K] {τ : Type}

/-- **C121.** `Tree.Grow` trying every candidate, without vetting, out-of-bag evaluation or random thresholds, on
candidates that are searched completely and have no near ties: whatever the random numbers, every split of the tree is
the best that any candidate offers for the cases that reach its node, and no leaf above the depth limit could be divided
to advantage. Missing from the full property: divisions by a threshold that leave exactly `leafSize` cases on the right
(`c121_last_case`), and divisions whose advantage is in setting the cases with missing values apart
(`c121_missing_apart`). -/
theorem c121_greedy_partial {fm : FeatureMatrix K} {T : Target K} {C : Contrast K τ} {good : τ → Prop} {o : SplitOpts}
    {all cases : List Nat} (hM : MatrixOk fm all) (hc : ∀ c ∈ cases, c ∈ all) {L : TargetLaws T all} {st : SplitState K}
    (hS : SplitSetting L fm C good o st.cans st.oob) (hok : L.Ok st.allocs) {imp : List Nat → K} (hw : L.Weighted imp)
    (hvet : o.vet = false) (hoob : o.evaloob = false) (hrand : o.extraRandom = false) (hall : o.mTry = st.cans.length)
    (hsome : ∀ i ∈ st.cans, ∀ F, fm.data[i]? = some F → F.Exhaustive ∧ F.NoNearTies (F.knowns all))
    (findPredicted : List Nat → String) (maxDepth : Int) (splitmissing : Bool) :
    ∃ root st', (∀ fuel, cases.length < fuel →
        grow (treeGrower fm T C o findPredicted maxDepth splitmissing) fm fuel .fresh st cases 0 0 = some (root, st')) ∧
      Greedy fm st.cans imp o.leafSize maxDepth root cases 0 := by
  obtain ⟨root, st', h, -⟩ := c09_grow hM hc hS hok findPredicted maxDepth splitmissing
  refine ⟨root, st', h, ?_⟩
  exact (grow_greedy hM hw hS.feats hsome hvet hoob hrand hS.leafSize hS.start hS.exist hall findPredicted maxDepth
    splitmissing _ _ _ st cases 0 0 root st' ⟨hok, List.Perm.refl _⟩ (Nat.zero_le _) hc
    (by simp) (h _ (Nat.lt_succ_self _))).2.2

/-- **C121 for classes:** by Gini impurity. -/
theorem c121_gini_partial {fm : FeatureMatrix K} {f : CatFeature} {n : Nat} {C : Contrast K τ} {good : τ → Prop} {o : SplitOpts}
    {all cases : List Nat} (hM : MatrixOk fm all) (hc : ∀ c ∈ cases, c ∈ all) (hf : f.InRange n all) {st : SplitState K}
    (hS : SplitSetting (giniLaws (K := K) f n all hf) fm C good o st.cans st.oob)
    (hok : (giniLaws (K := K) f n all hf).Ok st.allocs)
    (hvet : o.vet = false) (hoob : o.evaloob = false) (hrand : o.extraRandom = false) (hall : o.mTry = st.cans.length)
    (hsome : ∀ i ∈ st.cans, ∀ F, fm.data[i]? = some F → F.Exhaustive ∧ F.NoNearTies (F.knowns all))
    (findPredicted : List Nat → String) (maxDepth : Int) (splitmissing : Bool) :
    ∃ root st', (∀ fuel, cases.length < fuel →
        grow (treeGrower fm (giniTarget f) C o findPredicted maxDepth splitmissing) fm fuel .fresh st cases 0 0 =
          some (root, st')) ∧
      Greedy fm st.cans (f.gini K n) o.leafSize maxDepth root cases 0 :=
  c121_greedy_partial hM hc hS hok (giniLaws_weighted f n all hf) hvet hoob hrand hall hsome findPredicted maxDepth
    splitmissing

/-- **C121 for numbers:** by the sum of squared deviations. -/
theorem c121_sse_partial {fm : FeatureMatrix K} {f : NumFeature K} {C : Contrast K τ} {good : τ → Prop} {o : SplitOpts}
    {all cases : List Nat} (hM : MatrixOk fm all) (hc : ∀ c ∈ cases, c ∈ all) (hf : f.Finite all) {st : SplitState K}
    (hS : SplitSetting (sseLaws f all hf) fm C good o st.cans st.oob)
    (hvet : o.vet = false) (hoob : o.evaloob = false) (hrand : o.extraRandom = false) (hall : o.mTry = st.cans.length)
    (hsome : ∀ i ∈ st.cans, ∀ F, fm.data[i]? = some F → F.Exhaustive ∧ F.NoNearTies (F.knowns all))
    (findPredicted : List Nat → String) (maxDepth : Int) (splitmissing : Bool) :
    ∃ root st', (∀ fuel, cases.length < fuel →
        grow (treeGrower fm (sseTarget f) C o findPredicted maxDepth splitmissing) fm fuel .fresh st cases 0 0 =
          some (root, st')) ∧
      Greedy fm st.cans f.sse o.leafSize maxDepth root cases 0 :=
  c121_greedy_partial hM hc hS trivial (sseLaws_weighted f all hf) hvet hoob hrand hall hsome findPredicted maxDepth
    splitmissing

/-! Examples -/

/-- The example matrix, all three candidates tried. -/
theorem exGreedyPlain : SplitSetting (giniLaws (K := ℚ) exSplitT 2 _ exSplitT_inRange) exFM3
    (catContrast exSplitT) (fun g => g.InRange 2 [0, 1, 2, 3, 4, 5] ∧
      g.missing.length = g.catData.length ∧ g.catData.length = exSplitT.catData.length)
    ⟨3, 1, true, false, false, false⟩ exState.cans exState.oob where
  feats := exFM3_feats
  total3 _ := countLaws_total3 _ _ _ _ _
  contrast _ := catContrast_ok _ _ _ _ rfl _
  start := ⟨exSplitT_inRange, rfl, rfl⟩
  leafSize := by decide
  exist := by decide
  mTry := by decide
  oobs := by decide

theorem exFM3_plain : ∀ i ∈ exState.cans, ∀ F, exFM3.data[i]? = some F →
    F.Exhaustive ∧ F.NoNearTies (F.knowns [0, 1, 2, 3, 4, 5]) := by
  intro i hi F hF
  simp only [exState, List.mem_cons, List.not_mem_nil, or_false] at hi
  rcases hi with rfl | rfl | rfl <;> cases hF
  · exact ⟨trivial, fun c hc d hd => exSplit_ties c (List.mem_of_mem_filter hc) d (List.mem_of_mem_filter hd)⟩
  · refine ⟨trivial, fun c hc d hd h => absurd h ?_⟩
    have hv : ∀ c ∈ [0, 1, 2, 3, 4, 5], exConst.value c = 7 := by
      intro c hc
      fin_cases hc <;> rfl
    rw [hv c (List.mem_of_mem_filter hc), hv d (List.mem_of_mem_filter hd)]
    exact lt_irrefl _
  · exact ⟨.inl (by decide), trivial⟩

/-- Five cases in the bag, one of them twice. -/
example : ∃ root st', (∀ fuel, 6 < fuel → grow (treeGrower exFM3 (giniTarget exSplitT) (catContrast exSplitT)
      ⟨3, 1, true, false, false, false⟩ (fun _ => "p") 0 true) exFM3 fuel .fresh exState [5, 2, 4, 5, 0, 3] 0 0 =
        some (root, st')) ∧
    Greedy exFM3 [0, 1, 2] (exSplitT.gini ℚ 2) 1 0 root [5, 2, 4, 5, 0, 3] 0 :=
  c121_gini_partial exFM3_ok (cases := [5, 2, 4, 5, 0, 3]) (by decide) exSplitT_inRange exGreedyPlain ⟨rfl, rfl, rfl⟩ rfl rfl rfl
    rfl exFM3_plain (fun _ => "p") 0 true

/-- The root of that tree divides by the class feature. -/
example : (grow (treeGrower exFM3 (giniTarget exSplitT) (catContrast exSplitT)
      ⟨3, 1, true, false, false, false⟩ (fun _ => "p") 0 true) exFM3 7 .fresh exState [5, 2, 4, 5, 0, 3] 0 0).map
        (fun r => match r.1 with
          | .mk c fi _ _ _ _ _ => (c, fi)
          | .nil => (none, 9)) = some (some (.int 1), 2) := by
  decide +kernel

/-! ## Where it fails -/

/-- Two cases with the values 0 and 1 and their classes. -/
def exGreedyTwo : NumFeature ℚ := ⟨[.fin 0, .fin 1], [false, false], "x", false⟩
@[inherit_doc exGreedyTwo]
def exTwoT : CatFeature := ⟨.empty, [0, 1], [false, false], "t", false, false⟩

/-- **C121 fails for the last case.** Two cases of different classes and values are left together in a leaf, though
`leafSize` is 1 and the threshold 1/2 would part them and lower the impurity by 1/2. -/
theorem c121_last_case :
    (grow (treeGrower ⟨[.num exGreedyTwo], fun _ => some 0, []⟩ (giniTarget exTwoT) (catContrast exTwoT)
      ⟨1, 1, false, false, false, false⟩ (fun _ => "p") 0 false) ⟨[.num exGreedyTwo], fun _ => some 0, []⟩ 3 .fresh
      ⟨exWork.allocs, fun _ => 0, [0], []⟩ [0, 1] 0 0).map (fun r => (r.1.isLeaf, r.1.predOf)) = some (true, "p") ∧
    (Feature.num exGreedyTwo).toLeft (fun c => decide (exGreedyTwo.value c ≤ 1 / 2)) [0, 1] = [0] ∧
    (Feature.num exGreedyTwo).toRight (fun c => decide (exGreedyTwo.value c ≤ 1 / 2)) [0, 1] = [1] ∧
    (Feature.num exGreedyTwo).gain3 (exTwoT.gini ℚ 2) (fun c => decide (exGreedyTwo.value c ≤ 1 / 2)) [0, 1] = 1 / 2 := by
  decide +kernel

/-- Cases with the values 1, 2, 3 and two missing, and their classes. -/
def exApart : NumFeature ℚ := ⟨[.fin 1, .fin 2, .fin 3, .fin 0, .fin 0], [false, false, false, true, true], "x", true⟩
@[inherit_doc exApart]
def exApartT : CatFeature := ⟨.empty, [0, 0, 0, 1, 1], List.replicate 5 false, "t", false, false⟩

/-- **C121 fails where only missing values tell classes apart.** Cases with known values are of one class, cases with
missing values of the other. With `-splitmissing` any threshold would part them and remove all impurity, but the tree is a
single leaf, as no threshold is of use among the known cases alone. -/
theorem c121_missing_apart :
    (grow (treeGrower ⟨[.num exApart], fun _ => some 0, []⟩ (giniTarget exApartT) (catContrast exApartT)
      ⟨1, 1, false, false, false, false⟩ (fun _ => "p") 0 true) ⟨[.num exApart], fun _ => some 0, []⟩ 6 .fresh
      ⟨exWork.allocs, fun _ => 0, [0], []⟩ [0, 1, 2, 3, 4] 0 0).map (fun r => (r.1.isLeaf, r.1.predOf)) =
        some (true, "p") ∧
    (Feature.num exApart).toLeft (fun c => decide (exApart.value c ≤ 3 / 2)) [0, 1, 2, 3, 4] = [0] ∧
    (Feature.num exApart).toRight (fun c => decide (exApart.value c ≤ 3 / 2)) [0, 1, 2, 3, 4] = [1, 2] ∧
    exApartT.gini ℚ 2 [0, 1, 2, 3, 4] = 12 / 25 ∧
    (Feature.num exApart).gain3 (exApartT.gini ℚ 2) (fun c => decide (exApart.value c ≤ 3 / 2)) [0, 1, 2, 3, 4] =
      12 / 25 := by
  decide +kernel

end CloudForest
