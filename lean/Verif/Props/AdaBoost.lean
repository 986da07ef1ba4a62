import Verif.Lemmas.AdaBoost
import Mathlib.Analysis.SpecialFunctions.Log.Basic
import Mathlib.Tactic.IntervalCases

/-!
# Adaptive boosting
-/

set_option linter.unusedSectionVars false

namespace CloudForest
variable {K : Type} [Field K] [LinearOrder K] [IsStrictOrderedRing K]

/-- **C37**, one round. `Boost` takes for each leaf a category that is most frequent in it. If some weight lies on
cases of other categories, it returns positive weights with sum one; the weight of a wrongly predicted case grows
relative to that of a rightly predicted one exactly when the weighted error is below one half, and nothing changes
when it is not. -/
theorem c37_step (el : ExpLog K) {E L : K → K} (law : el.Lawful E L) (f : CatFeature) (n : Nat)
    (hm : f.missing.length = n) (w : Nat → K) (hw : ∀ i < n, 0 < w i) (hs : ((List.range n).map w).sum = 1)
    (leaves : List (List Nat)) (hl : f.Leaves n leaves) :
    ∃ pick : List Nat → Nat, (∀ leaf ∈ leaves, f.MostFrequent leaf (pick leaf)) ∧
      (0 < weightedError f pick w leaves → ∃ (w' : Nat → K) (α : K),
        adaBoost el f (finList n w) leaves = some (finList n w', .fin α) ∧
        (∀ i < n, 0 < w' i) ∧ ((List.range n).map w').sum = 1 ∧
        (∀ leaf ∈ leaves, ∀ c ∈ leaf, ∀ leaf' ∈ leaves, ∀ d ∈ leaf',
          f.missing[c]? = some false → f.missing[d]? = some false →
          f.catData[c]? ≠ some (pick leaf) → f.catData[d]? = some (pick leaf') →
          (w' d / w d < w' c / w c ↔ weightedError f pick w leaves < 1 / 2)) ∧
        (0 < α ↔ weightedError f pick w leaves < 1 / 2) ∧
        (1 / 2 ≤ weightedError f pick w leaves → ∀ i < n, w' i = w i)) := by
  refine ⟨adaPick f, fun leaf h => adaPick_most f leaf (hl.range leaf h), fun hpos => ?_⟩
  have hn : n ≠ 0 := by
    rintro rfl
    simp at hs
  have key := adaBoost_eq el law f n hn hm w hw leaves hl hpos
  by_cases hhalf : 1 / 2 ≤ weightedError f (adaPick f) w leaves
  · rw [if_pos hhalf] at key
    refine ⟨w, 0, key, hw, hs, ?_, ?_, fun _ _ _ => rfl⟩
    · intro leaf hlf c hc leaf' hlf' d hd _ _ _ _
      rw [div_self (hw c (hl.cases leaf hlf c hc)).ne', div_self (hw d (hl.cases leaf' hlf' d hd)).ne']
      exact iff_of_false (lt_irrefl _) (not_lt.2 hhalf)
    · exact iff_of_false (lt_irrefl _) (not_lt.2 hhalf)
  · rw [if_neg hhalf] at key
    simp only at key
    have hlt := not_le.1 hhalf
    generalize weightedError f (adaPick f) w leaves = err at *
    have hα : 0 < 1 / 2 * L ((1 - err) / err) := by
      refine mul_pos (by norm_num) ((law.gain _ (div_pos (by linarith) hpos)).2 ?_)
      rw [lt_div_iff₀ hpos]
      linarith
    generalize 1 / 2 * L ((1 - err) / err) = α at *
    have hg : 0 < ((List.range n).map fun i => w i * adaFactor f E α leaves i).sum :=
      sum_range_pos hn fun i hi => mul_pos (hw i hi) (adaFactor_pos f law.pos α leaves i)
    refine ⟨_, α, key, fun i hi => div_pos (mul_pos (hw i hi) (adaFactor_pos f law.pos α leaves i)) hg, ?_, ?_, ?_,
      fun h => absurd h hhalf⟩
    · rw [sum_range_div, div_self hg.ne']
    · intro leaf hlf c hc leaf' hlf' d hd hmc hmd hwc hrd
      have hwc0 := hw c (hl.cases leaf hlf c hc)
      have hwd0 := hw d (hl.cases leaf' hlf' d hd)
      rw [adaFactor_of_mem f E α leaves hl.disjoint leaf hlf c hc,
        adaFactor_of_mem f E α leaves hl.disjoint leaf' hlf' d hd]
      generalize ((List.range n).map fun i => w i * adaFactor f E α leaves i).sum = S at *
      have e1 : adaFac f E α (adaPick f leaf) c = E α := by
        unfold adaFac
        rw [hmc]
        simp [hwc]
      have e2 : adaFac f E α (adaPick f leaf') d = E (-α) := by
        unfold adaFac
        rw [hmd]
        simp [hrd]
      rw [e1, e2]
      have hgt : 1 < E α := (law.above α).2 hα
      have hinv := law.inv α
      have hlt1 : E (-α) < 1 := by
        have h0 := law.pos (-α)
        nlinarith
      refine iff_of_true ?_ hlt
      rw [show w d * E (-α) / S / w d = E (-α) / S by field_simp, show w c * E α / S / w c = E α / S by field_simp]
      exact div_lt_div_of_pos_right (by linarith) hg
    · exact iff_of_true hα hlt

/-- **C37**, all rounds: from the weights `NewAdaBoostTarget` starts with, any sequence of partitions in each of
which some leaf mixes two categories keeps the weights positive with sum one. -/
theorem c37_rounds (el : ExpLog K) {E L : K → K} (law : el.Lawful E L) (f : CatFeature) (hn : f.missing ≠ [])
    (parts : List (List (List Nat))) (hp : ∀ leaves ∈ parts, f.Leaves f.missing.length leaves ∧
      ∃ leaf ∈ leaves, ∃ c ∈ leaf, ∃ d ∈ leaf, f.catData[c]? ≠ f.catData[d]?) :
    ∃ w : Nat → K, parts.foldlM (fun ws leaves => (adaBoost el f ws leaves).map (·.1)) (newAdaWeights f) =
        some (finList f.missing.length w) ∧
      (∀ i < f.missing.length, 0 < w i) ∧ ((List.range f.missing.length).map w).sum = 1 := by
  have h0 : (f.missing.length : K) ≠ 0 := by simpa using hn
  have hstart : (newAdaWeights f : List (XF K)) = finList f.missing.length fun _ => 1 / (f.missing.length : K) := by
    unfold newAdaWeights finList
    rw [List.map_const', List.length_range]
    congr 1
    show XF.div (.fin 1) (.fin _) = _
    unfold XF.div
    simp only
    rw [if_neg h0]
  rw [hstart]
  have hgen : ∀ w : Nat → K, (∀ i < f.missing.length, 0 < w i) → ((List.range f.missing.length).map w).sum = 1 →
      ∃ w' : Nat → K, parts.foldlM (fun ws leaves => (adaBoost el f ws leaves).map (·.1)) (finList f.missing.length w) =
        some (finList f.missing.length w') ∧
      (∀ i < f.missing.length, 0 < w' i) ∧ ((List.range f.missing.length).map w').sum = 1 := by
    induction parts with
    | nil => intro w h1 h2; exact ⟨w, rfl, h1, h2⟩
    | cons leaves ps ih =>
      intro w h1 h2
      obtain ⟨hl, hx⟩ := hp leaves (by simp)
      obtain ⟨pick, -, hstep⟩ := c37_step el law f _ rfl w h1 h2 leaves hl
      obtain ⟨w', α, e, p1, p2, -⟩ := hstep (weightedError_pos f pick h1 hl.cases hx)
      obtain ⟨w'', e', q⟩ := ih (fun l h => hp l (by simp [h])) w' p1 p2
      refine ⟨w'', ?_, q⟩
      rw [List.foldlM_cons, e]
      exact e'
  apply hgen
  · intro i _
    exact one_div_pos.2 (lt_of_le_of_ne (Nat.cast_nonneg _) (Ne.symm h0))
  · rw [List.map_const', List.sum_replicate, List.length_range, nsmul_eq_mul]
    field_simp

/-- The real exponential and logarithm, with Go's values at the infinities and at zero. -/
noncomputable def realExpLog : ExpLog ℝ where
  exp := fun
    | .nan => .nan
    | .pinf => .pinf
    | .ninf => .fin 0
    | .fin x => .fin (Real.exp x)
  log := fun
    | .nan => .nan
    | .pinf => .pinf
    | .ninf => .nan
    | .fin x => if 0 < x then .fin (Real.log x) else if x = 0 then .ninf else .nan

/-- The laws of `exp` and `log` used above hold for the real functions. -/
theorem realExpLog_lawful : realExpLog.Lawful Real.exp Real.log where
  exp _ := rfl
  log x h := by simp [realExpLog, h]
  pos := Real.exp_pos
  inv x := by rw [← Real.exp_add]; simp
  above x := by simp
  gain x h := Real.log_pos_iff h.le

/-- Five cases of two classes; the fifth is alone in its leaf. -/
def exAda : CatFeature where
  cm := ⟨fun s => if s = "a" then some 0 else if s = "b" then some 1 else none, ["a", "b"]⟩
  catData := [0, 0, 1, 1, 0]
  missing := [false, false, false, false, false]
  name := "C:y"
  randomSearch := false
  hasMissing := false

/-- Two leaves, the first with one case of the other class. -/
theorem exAda_leaves : exAda.Leaves 5 [[0, 1, 2], [3]] where
  disjoint := by decide
  range := by
    intro leaf h c hc
    have : c < 4 := by
      simp at h
      rcases h with rfl | rfl <;> simp at hc <;> omega
    interval_cases c <;> exact ⟨_, rfl, by decide⟩
  cases := by decide

/-- A positive error below one half on which the weights change. -/
example : weightedError exAda (adaPick exAda) (fun _ => (1 / 5 : ℚ)) [[0, 1, 2], [3]] = 1 / 5 := by decide +kernel

example : ∃ w : Nat → ℝ, [[[0, 1, 2], [3]], [[0, 1], [2, 3, 4]]].foldlM
    (fun ws leaves => (adaBoost realExpLog exAda ws leaves).map (·.1)) (newAdaWeights exAda) = some (finList 5 w) ∧
    (∀ i < 5, 0 < w i) ∧ ((List.range 5).map w).sum = 1 := by
  refine c37_rounds realExpLog realExpLog_lawful exAda (by decide) _ ?_
  intro leaves h
  simp only [List.mem_cons, List.not_mem_nil, or_false] at h
  rcases h with rfl | rfl
  · exact ⟨exAda_leaves, [0, 1, 2], by simp, 0, by simp, 2, by simp, by decide⟩
  · refine ⟨⟨by decide, ?_, by decide⟩, [2, 3, 4], by simp, 2, by simp, 4, by simp, by decide⟩
    intro leaf h c hc
    have : c < 5 := by
      simp at h
      rcases h with rfl | rfl <;> simp at hc <;> omega
    interval_cases c <;> exact ⟨_, rfl, by decide⟩

/-- **C63** is false of the code: after a tree that predicts every case rightly, the tree's weight is `+Inf` and
every case weight is NaN, so the next tree's weighted errors are NaN too. For every target without missing values
and every partition of its cases into pure leaves. -/
theorem c63_perfect_tree (el : ExpLog K) (hlog : el.log .pinf = .pinf) (hexp : el.exp .ninf = .fin 0)
    (f : CatFeature) (n : Nat) (hn : n ≠ 0) (hm : f.missing = List.replicate n false) (w : Nat → K)
    (leaves : List (List Nat)) (hl : f.Leaves n leaves) (hall : ∀ i < n, i ∈ leaves.flatten)
    (hpure : ∀ leaf ∈ leaves, ∀ c ∈ leaf, ∀ d ∈ leaf, f.catData[c]? = f.catData[d]?) :
    adaBoost el f (finList n w) leaves = some (List.replicate n .nan, .pinf) :=
  adaBoost_pure el hlog hexp f n hn hm w leaves hl hall hpure

/-- Three pure leaves. -/
example : adaBoost realExpLog exAda (newAdaWeights exAda) [[0, 1], [2, 3], [4]] =
    some (List.replicate 5 .nan, .pinf) := by
  have hw : (newAdaWeights exAda : List (XF ℝ)) = finList 5 fun _ => 1 / 5 := by
    unfold newAdaWeights finList
    show List.replicate 5 (XF.div (.fin 1) (.fin _)) = _
    unfold XF.div
    simp only
    rw [if_neg (by simp [exAda])]
    simp [exAda, List.range_succ]
  rw [hw]
  refine c63_perfect_tree realExpLog rfl rfl exAda 5 (by decide) rfl _ _ ⟨by decide, ?_, by decide⟩ ?_ ?_
  · intro leaf h c hc
    have : c < 5 := by
      simp at h
      rcases h with rfl | rfl | rfl <;> simp at hc <;> omega
    interval_cases c <;> exact ⟨_, rfl, by decide⟩
  · decide
  · decide

end CloudForest
