import Verif.Lemmas.Account
import Verif.Props.Fit
import Verif.Props.Books
import Verif.Lemmas.Leafcount

/-!
# C135: importances account for the impurity that was removed
-/

set_option linter.unusedSectionVars false

namespace CloudForest
variable {K : Type} [Field K] [LinearOrder K] [IsStrictOrderedRing K] {τ : Type}

/-- **C135.** In a grown tree the decreases of impurity at the splits, each multiplied by the number of cases of the bag
that arrive there, and the impurities of the leaves, counted once for each case that ends there, add up to the impurity
of the bag, counted once for each case. For every impurity, every option and every feature, if every case of the bag
ends in a leaf. Missing from the full property: the numbers in the importance file are not multiplied by the number of
cases, see `c135_unweighted`. -/
theorem c135_account_partial {fm : FeatureMatrix K} {T : Target K} {C : Contrast K τ} {good : τ → Prop}
    {o : SplitOpts} {all cases : List Nat} (hM : MatrixOk fm all) (hc : ∀ c ∈ cases, c ∈ all) {L : TargetLaws T all}
    {st : SplitState K} (hS : SplitSetting L fm C good o st.cans st.oob) (hok : L.Ok st.allocs)
    (findPredicted : List Nat → String) (maxDepth : Int) (splitmissing : Bool)
    {fuel : Nat} {root : Node K} {st' : SplitState K}
    (h : grow (treeGrower fm T C o findPredicted maxDepth splitmissing) fm fuel .fresh st cases 0 0 = some (root, st'))
    (hland : ∀ c ∈ cases, landing fm root c ≠ none) (imp : List Nat → K) :
    ((usesOf fm (fun fi code S => S.length * threeWayDecrease fm imp fi code S) root cases 0).map (·.dec)).sum +
      (cases.map fun c => imp (leafMates fm root cases c)).sum = cases.length * imp cases := by
  have hP : StateOk L fm st.cans st.oob st := ⟨hok, List.Perm.refl _, List.Perm.refl _⟩
  obtain ⟨h1, -, -⟩ := treeGrower_searchOk (fp := findPredicted) (md := maxDepth) (sm := splitmissing) hS
  have hplain : root.Plain := ((grow_grown (hM.mono hc) (h1.mono hc) fuel 0 "" st cases 0 0 root st' hP
    (Nat.zero_le _) (fun _ h => h) h).2 false).plain
  exact account fm imp root hplain cases 0 hland

/-- A leaf gets at most as many cases wrong as its Gini impurity times its number of cases. -/
theorem leaf_mistakes {f : CatFeature} (hf : f.Consistent) {n : Nat} {S cs : List Nat} (hp : S.Perm cs) (hne : cs ≠ [])
    (hr : f.InRange n cs) (hknown : ∀ d ∈ cs, f.missing[d]? = some false) :
    ((cs.countP fun c => decide (f.getStr c ≠ some ((f.findPredicted S).getD ""))) : K) ≤ cs.length * f.gini K n cs := by
  have hk : knownOf f.missing S = S := by
    unfold knownOf
    rw [List.filter_eq_self]
    intro d hd
    rw [hknown d (hp.mem_iff.1 hd)]
    rfl
  have hlt : ∀ d ∈ S, d < f.missing.length := fun d hd =>
    (List.getElem?_eq_some_iff.1 (hknown d (hp.mem_iff.1 hd))).1
  have hS : S ≠ [] := by
    rintro rfl
    exact hne (List.nil_perm.1 hp)
  obtain ⟨s, m, h1, h2, h3⟩ := c38_cat f hf S hlt (by rw [hk]; exact hS)
  rw [hk] at h3
  have h4 : ∀ k, f.catCount cs k ≤ f.catCount cs m := fun k => by
    rw [← catCount_perm f hp, ← catCount_perm f hp]
    exact h3 k
  rw [h1, Option.getD_some]
  have hN : (0 : K) < cs.length := length_pos' hne
  have hwrong : cs.countP (fun c => decide (f.getStr c ≠ some s)) + f.catCount cs m ≤ cs.length := by
    have := List.length_eq_countP_add_countP (l := cs) (fun c => decide (f.getStr c ≠ some s))
    have hle : f.catCount cs m ≤ cs.countP fun c => ¬ decide (f.getStr c ≠ some s) := by
      unfold CatFeature.catCount
      refine List.countP_mono_left fun c hc e => ?_
      have e : f.catData[c]? = some m := by simpa using e
      rw [CatFeature.getStr_known (hknown c hc), e]
      simpa using h2
    omega
  have hsq : ((List.range n).map fun k => ((f.catCount cs k : K) / (cs.length : K)) ^ 2).sum ≤
      (f.catCount cs m : K) / cs.length := by
    calc ((List.range n).map fun k => ((f.catCount cs k : K) / (cs.length : K)) ^ 2).sum
        ≤ ((List.range n).map fun k => (f.catCount cs k : K) * ((f.catCount cs m : K) / (cs.length : K) ^ 2)).sum := by
          refine List.sum_le_sum fun k _ => ?_
          have : (f.catCount cs k : K) ≤ f.catCount cs m := by exact_mod_cast h4 k
          rw [div_pow, mul_div_assoc', sq]
          gcongr
      _ = (f.catCount cs m : K) / cs.length := by
          rw [List.sum_map_mul_right, sum_catCount f n cs hr]
          field_simp
  have hw : ((cs.countP fun c => decide (f.getStr c ≠ some s)) : K) + f.catCount cs m ≤ cs.length := by
    exact_mod_cast hwrong
  unfold CatFeature.gini
  have := mul_le_mul_of_nonneg_left hsq hN.le
  rw [mul_div_cancel₀ _ hN.ne'] at this
  rw [mul_sub, mul_one]
  linarith

/-- **C135.** A tree of classes misclassifies at most so many cases of its bag as the Gini impurity of the bag, times
their number, less what the splits removed. -/
theorem c135_mistakes {fm : FeatureMatrix K} {f : CatFeature} {n : Nat} {C : Contrast K τ} {good : τ → Prop}
    {o : SplitOpts} {all cases : List Nat} (hM : MatrixOk fm all) (hc : ∀ c ∈ cases, c ∈ all) (hf : f.InRange n all)
    {st : SplitState K} (hS : SplitSetting (giniLaws (K := K) f n all hf) fm C good o st.cans st.oob)
    (hok : (giniLaws (K := K) f n all hf).Ok st.allocs) (hcons : f.Consistent)
    (hknown : ∀ c ∈ cases, f.missing[c]? = some false) (maxDepth : Int) (splitmissing : Bool)
    {fuel : Nat} {root : Node K} {st' : SplitState K}
    (h : grow (treeGrower fm (giniTarget f) C o (fun S => (f.findPredicted S).getD "") maxDepth splitmissing) fm fuel
      .fresh st cases 0 0 = some (root, st')) (hland : ∀ c ∈ cases, landing fm root c ≠ none) :
    ((cases.countP fun c => decide (f.getStr c ≠ (landing fm root c).map (·.2))) : K) ≤ cases.length * f.gini K n cases -
      ((usesOf fm (fun fi code S => S.length * threeWayDecrease fm (f.gini K n) fi code S) root cases 0).map
        (·.dec)).sum := by
  rw [← c135_account_partial hM hc hS hok _ maxDepth splitmissing h hland (f.gini K n), add_sub_cancel_left]
  have h8 := (c08_grow hM hc hS hok _ maxDepth splitmissing h).1
  have hmates : ∀ c, leafMates fm root cases c =
      cases.filter fun e => (landing fm root e).map (·.1) == (landing fm root c).map (·.1) := fun _ => rfl
  have hcount : ((cases.countP fun c => decide (f.getStr c ≠ (landing fm root c).map (·.2))) : K) =
      (cases.map fun c => if decide (f.getStr c ≠ (landing fm root c).map (·.2)) then (1 : K) else 0).sum := by
    rw [← sum_filter_ite cases _ (fun _ => (1 : K)), List.countP_eq_length_filter]
    simp
  rw [hcount, ← sum_group_avg (fun c => (landing fm root c).map (·.1)) cases]
  refine List.sum_le_sum fun c hcc => ?_
  rw [← hmates c]
  have hcm : c ∈ leafMates fm root cases c := List.mem_filter.2 ⟨hcc, by simp⟩
  have hN : (0 : K) < (leafMates fm root cases c).length := length_pos' (List.ne_nil_of_mem hcm)
  have hsub : ∀ d ∈ leafMates fm root cases c, d ∈ cases := fun d hd => (List.mem_filter.1 hd).1
  obtain ⟨⟨path, pred⟩, hl⟩ := Option.ne_none_iff_exists'.1 (hland c hcc)
  have hpath : leafMates fm root cases c = cases.filter fun e => (landing fm root e).map (·.1) == some path := by
    unfold leafMates
    rw [hl]
    rfl
  have hpred : ∀ d ∈ leafMates fm root cases c, (landing fm root d).map (·.2) = some pred := by
    intro d hd
    have hd := (List.mem_filter.1 hd).2
    rw [hl] at hd
    obtain ⟨⟨path', pred'⟩, hl', e⟩ := Option.map_eq_some_iff.1 (show (landing fm root d).map (·.1) = some path by
      simpa using hd)
    cases e
    rw [hl']
    exact congrArg some (landing_leaf fm root d _ _ _ hl' (landing_mem root c _ hl))
  obtain ⟨S, hperm, hSp⟩ : ∃ S, S.Perm (leafMates fm root cases c) ∧ pred = (f.findPredicted S).getD "" := by
    rw [hpath]
    rcases h8 (path, pred) (landing_mem root c _ hl) with h | ⟨-, -, -, h⟩
    · exact h
    · exact absurd (by rw [hl]; rfl) (h c hcc)
  rw [div_le_iff₀ hN, mul_comm]
  refine le_trans (le_of_eq ?_) (leaf_mistakes hcons hperm (List.ne_nil_of_mem hcm) (fun e he => hf e (hc e (hsub e he)))
    fun d hd => hknown d (hsub d hd))
  rw [← sum_filter_ite _ _ (fun _ => (1 : K)), List.countP_eq_length_filter, List.map_const', List.sum_replicate,
    nsmul_eq_mul, mul_one]
  congr 2
  refine List.filter_congr fun d hd => ?_
  rw [hpred d hd, hSp]

/-! ## Examples -/

/-- Sixteen cases: the classes are a for the first half and b for the second, but for one case of each half. -/
def exAccountT : CatFeature :=
  ⟨.empty, [0, 0, 0, 0, 0, 0, 0, 1, 1, 1, 1, 1, 1, 1, 1, 0], List.replicate 16 false, "t", false, false⟩

/-- The first feature tells the halves apart, the second the exceptions. -/
def exAccountFM : FeatureMatrix ℚ :=
  ⟨[.cat ⟨⟨fun s => if s = "0" then some 0 else if s = "1" then some 1 else none, ["0", "1"]⟩,
        [0, 0, 0, 0, 0, 0, 0, 0, 1, 1, 1, 1, 1, 1, 1, 1], List.replicate 16 false, "C:half", false, false⟩,
    .cat ⟨⟨fun s => if s = "0" then some 0 else if s = "1" then some 1 else none, ["0", "1"]⟩,
        [0, 0, 0, 0, 0, 0, 0, 1, 0, 0, 0, 0, 0, 0, 0, 1], List.replicate 16 false, "C:odd", false, false⟩],
    fun s => if s = "C:half" then some 0 else if s = "C:odd" then some 1 else none, []⟩

/-- A tree grown from all sixteen cases, both features tried at every node. -/
def exAccountRun : Option (List (Node ℚ) × Scores ℚ) :=
  growScored (treeNoter exAccountFM (giniTarget exAccountT) (catContrast exAccountT) ⟨2, 1, false, false, false, false⟩
    (fun _ => "") 0 false) exAccountFM 17 [⟨id, .fresh, List.range 16⟩] ⟨exWork.allocs, fun _ => 0, [0, 1], []⟩
    (Scores.new 2)

/-- **C135 is false of the code.** The split that tells the halves apart removes 9/32 of impurity per case, the two
splits that find the exceptions together 7/32, and nothing is left of the 1/2 there was. The importance file says 9/32
for the first feature and 7/16 for the second: a decrease counts the same for all cases and for half of them. -/
theorem c135_unweighted :
    exAccountT.gini ℚ 2 (List.range 16) = 1 / 2 ∧
    (exAccountRun.map fun r => r.1.map fun t =>
      (usesOf exAccountFM (fun fi code S => S.length * threeWayDecrease exAccountFM (exAccountT.gini ℚ 2) fi code S) t
        (List.range 16) 0).map fun u => (u.feature, u.dec / 16)) = some [[(0, 9 / 32), (1, 7 / 64), (1, 7 / 64)]] ∧
    (exAccountRun.bind fun r => r.2.line 1 0).map (·.perTree) = some (.fin (9 / 32)) ∧
    (exAccountRun.bind fun r => r.2.line 1 1).map (·.perTree) = some (.fin (7 / 16)) := by
  decide +kernel

/-- Other classes for the example matrix. -/
def exErrT : CatFeature := ["b", "a", "b", "b", "a", "a"].foldl (fun f v => f.append v) (.new "C:t")

theorem exErrT_consistent : exErrT.Consistent :=
  (cat_appends_reads _ (.new "C:t") [] (consistent_new _)
    ⟨rfl, fun i => by simp [CatFeature.new, CatFeature.getStr]⟩).1

theorem exErrT_inRange : exErrT.InRange 2 [0, 1, 2, 3, 4, 5] := by
  intro c hc
  have h : ∀ c ∈ [0, 1, 2, 3, 4, 5], ∃ k ∈ [0, 1], exErrT.catData[c]? = some k := by decide +kernel
  obtain ⟨k, hk, e⟩ := h c hc
  exact ⟨k, e, by fin_cases hk <;> decide⟩

theorem exErrSetting : SplitSetting (giniLaws (K := ℚ) exErrT 2 _ exErrT_inRange) exFM3
    (catContrast exErrT) (fun g => g.InRange 2 [0, 1, 2, 3, 4, 5] ∧
      g.missing.length = g.catData.length ∧ g.catData.length = exErrT.catData.length)
    ⟨3, 1, true, false, false, false⟩ exState.cans exState.oob where
  feats := exFM3_feats
  total3 _ := countLaws_total3 _ _ _ _ _
  contrast _ := catContrast_ok _ _ _ _ (by decide +kernel) _
  start := ⟨exErrT_inRange, by decide +kernel, rfl⟩
  leafSize := by decide
  exist := by decide
  mTry := by decide
  oobs := by decide

theorem exErrTree : ∃ root st', grow (treeGrower exFM3 (giniTarget exErrT) (catContrast exErrT)
    ⟨3, 1, true, false, false, false⟩ (fun S => (exErrT.findPredicted S).getD "") 1 true) exFM3 7 .fresh exState
      [0, 1, 2, 3, 4, 5] 0 0 = some (root, st') ∧
    (∀ c ∈ [0, 1, 2, 3, 4, 5], landing exFM3 root c ≠ none) ∧
    [0, 1, 2, 3, 4, 5].countP (fun c => decide (exErrT.getStr c ≠ (landing exFM3 root c).map (·.2))) = 1 := by
  have h : ((grow (treeGrower exFM3 (giniTarget exErrT) (catContrast exErrT)
    ⟨3, 1, true, false, false, false⟩ (fun S => (exErrT.findPredicted S).getD "") 1 true) exFM3 7 .fresh exState
      [0, 1, 2, 3, 4, 5] 0 0).map fun r => ([0, 1, 2, 3, 4, 5].map fun c => (landing exFM3 r.1 c).isSome,
        [0, 1, 2, 3, 4, 5].countP fun c => decide (exErrT.getStr c ≠ (landing exFM3 r.1 c).map (·.2)))) =
      some ([true, true, true, true, true, true], 1) := by
    decide +kernel
  obtain ⟨r, e, h⟩ := Option.map_eq_some_iff.1 h
  simp only [Prod.mk.injEq] at h
  obtain ⟨h1, h2⟩ := h
  refine ⟨r.1, r.2, e, ?_, h2⟩
  simp only [List.map_cons, List.map_nil, List.cons.injEq, and_true] at h1
  obtain ⟨a, b, c, d, e, f⟩ := h1
  intro x hx
  rw [← Option.isSome_iff_ne_none]
  fin_cases hx <;> assumption

/-- A tree of one split, which gets one of six cases wrong, meets the hypotheses. -/
example : ∃ root st', grow (treeGrower exFM3 (giniTarget exErrT) (catContrast exErrT)
    ⟨3, 1, true, false, false, false⟩ (fun S => (exErrT.findPredicted S).getD "") 1 true) exFM3 7 .fresh exState
      [0, 1, 2, 3, 4, 5] 0 0 = some (root, st') ∧
    1 ≤ 6 * exErrT.gini ℚ 2 [0, 1, 2, 3, 4, 5] -
      ((usesOf exFM3 (fun fi code S => S.length * threeWayDecrease exFM3 (exErrT.gini ℚ 2) fi code S) root
        [0, 1, 2, 3, 4, 5] 0).map (·.dec)).sum := by
  obtain ⟨root, st', h, h1, h2⟩ := exErrTree
  have := c135_mistakes (K := ℚ) exFM3_ok (by decide) exErrT_inRange exErrSetting ⟨rfl, rfl, rfl⟩ exErrT_consistent
    (by decide +kernel) 1 true h h1
  rw [h2] at this
  exact ⟨root, st', h, by exact_mod_cast this⟩

end CloudForest
