import Verif.Spec.Stats
import Verif.Lemmas.Impurity
import Mathlib.Tactic.Ring
import Mathlib.Tactic.FieldSimp
import Mathlib.Tactic.Linarith
import Mathlib.Algebra.Order.BigOperators.Group.List

/-! # Lemmas about the t-test -/

set_option linter.unusedSectionVars false

namespace CloudForest
variable {K : Type} [Field K] [LinearOrder K] [IsStrictOrderedRing K]

namespace XF
theorem nan_add (x : XF K) : (nan : XF K) + x = nan := by cases x <;> rfl
theorem add_nan (x : XF K) : x + (nan : XF K) = nan := by cases x <;> rfl
theorem nan_mul (x : XF K) : (nan : XF K) * x = nan := by cases x <;> rfl
theorem mul_nan (x : XF K) : x * (nan : XF K) = nan := by cases x <;> rfl
theorem nan_div (x : XF K) : (nan : XF K) / x = nan := by cases x <;> rfl
theorem div_nan (x : XF K) : x / (nan : XF K) = nan := by cases x <;> rfl
theorem nan_sub (x : XF K) : (nan : XF K) - x = nan := by cases x <;> rfl
theorem sub_nan (x : XF K) : x - (nan : XF K) = nan := by cases x <;> rfl
theorem not_nan_lt (x : XF K) : ¬ (nan : XF K) < x := by cases x <;> exact id
theorem not_lt_nan (x : XF K) : ¬ x < (nan : XF K) := by cases x <;> exact id
theorem zero_div_zero : (fin 0 / fin 0 : XF K) = nan := by
  show (if (0 : K) = 0 then infTimes 0 else _) = _
  simp [infTimes]
end XF

theorem foldl_fin_add (xs : List K) (a : K) :
    (xs.map XF.fin).foldl (fun (v : XF K) x => v + x) (.fin a) = .fin (a + xs.sum) := by
  induction xs generalizing a with
  | nil => simp
  | cons x xs ih =>
    rw [List.map_cons, List.foldl_cons, XF.fin_add, ih, List.sum_cons]
    congr 1; ring

theorem foldl_fin_sq (xs : List K) (a : K) :
    (xs.map XF.fin).foldl (fun (v : XF K) x => v + x * x) (.fin a) =
      .fin (a + (xs.map fun x => x * x).sum) := by
  induction xs generalizing a with
  | nil => simp
  | cons x xs ih =>
    rw [List.map_cons, List.foldl_cons, XF.fin_mul, XF.fin_add, ih, List.map_cons, List.sum_cons]
    congr 1; ring

theorem sum_sq_sample (xs : List K) (m : K) :
    (xs.map fun x => (x - m) ^ 2).sum =
      (xs.map fun x => x * x).sum - 2 * m * xs.sum + xs.length * m * m := by
  induction xs with
  | nil => simp
  | cons x xs ih =>
    simp only [List.map_cons, List.sum_cons, ih, List.length_cons]
    push_cast; ring

theorem meanAndVar_eq (xs : List K) (h : 2 ≤ xs.length) :
    meanAndVar (xs.map XF.fin) =
      (.fin (sampleMean xs), .fin (sampleVar xs), .fin xs.length) := by
  have hn : ((xs.length : Nat) : K) ≠ 0 := by
    have : xs.length ≠ 0 := by omega
    exact_mod_cast this
  have hn1 : ((xs.length : Nat) : K) - 1 ≠ 0 := by
    intro e
    have : ((xs.length : Nat) : K) = ((1 : Nat) : K) := by push_cast; linarith
    have := Nat.cast_injective this
    omega
  simp only [meanAndVar, foldl_fin_add, foldl_fin_sq, zero_add, List.length_map, XF.ofNat,
    XF.fin_div _ hn, XF.fin_mul, XF.fin_sub, XF.fin_div _ hn1, Prod.mk.injEq, XF.fin.injEq,
    and_true]
  refine ⟨rfl, ?_⟩
  unfold sampleVar
  rw [sum_sq_sample]
  congr 1
  unfold sampleMean
  field_simp
  ring

theorem sampleVar_nonneg (xs : List K) (h : 2 ≤ xs.length) : 0 ≤ sampleVar xs := by
  unfold sampleVar
  apply div_nonneg
  · apply List.sum_nonneg
    intro x hx
    obtain ⟨y, -, rfl⟩ := List.mem_map.1 hx
    positivity
  · have : ((2 : Nat) : K) ≤ (xs.length : Nat) := Nat.cast_le.2 h
    push_cast at this
    linarith

theorem seSq_nonneg (xs : List K) (h : 2 ≤ xs.length) : 0 ≤ seSq xs :=
  div_nonneg (sampleVar_nonneg xs h) (Nat.cast_nonneg _)

/-- `t` and the degrees of freedom. -/
theorem ttest_stats (F : MathFns K) (A B : List K) (hA : 2 ≤ A.length) (hB : 2 ≤ B.length) (r : K)
    (hs : F.sqrt (.fin (seSq A + seSq B)) = .fin r) (hr : r * r = seSq A + seSq B) (hr0 : r ≠ 0) :
    ttest F (A.map XF.fin) (B.map XF.fin) =
      ⟨tailProb F (.fin ((sampleMean A - sampleMean B) / r)) (.fin (welchDf A B)),
        .fin ((sampleMean A - sampleMean B) / r), .fin (welchDf A B), .fin (sampleMean A)⟩ := by
  have hnA : ((A.length : Nat) : K) ≠ 0 := by
    have : A.length ≠ 0 := by omega
    exact_mod_cast this
  have hnB : ((B.length : Nat) : K) ≠ 0 := by
    have : B.length ≠ 0 := by omega
    exact_mod_cast this
  have hpA : (0 : K) < (A.length : K) - 1 := by
    have : ((2 : Nat) : K) ≤ (A.length : Nat) := Nat.cast_le.2 hA
    push_cast at this; linarith
  have hpB : (0 : K) < (B.length : K) - 1 := by
    have : ((2 : Nat) : K) ≤ (B.length : Nat) := Nat.cast_le.2 hB
    push_cast at this; linarith
  have hspos : 0 < seSq A + seSq B := by
    rw [← hr]; exact mul_self_pos.2 hr0
  have hden : 0 < seSq A * seSq A / ((A.length : K) - 1) + seSq B * seSq B / ((B.length : K) - 1) := by
    have a0 := seSq_nonneg A hA
    have b0 := seSq_nonneg B hB
    rcases lt_or_eq_of_le a0 with ha | ha
    · have : 0 ≤ seSq B * seSq B / ((B.length : K) - 1) := by positivity
      have : 0 < seSq A * seSq A / ((A.length : K) - 1) := by positivity
      linarith
    · have hb : 0 < seSq B := by rw [← ha] at hspos; linarith
      have : 0 ≤ seSq A * seSq A / ((A.length : K) - 1) := by positivity
      have : 0 < seSq B * seSq B / ((B.length : K) - 1) := by positivity
      linarith
  have e1 : (XF.fin (sampleVar A) / XF.fin (A.length : K)) = .fin (seSq A) := XF.fin_div _ hnA
  have e2 : (XF.fin (sampleVar B) / XF.fin (B.length : K)) = .fin (seSq B) := XF.fin_div _ hnB
  simp only [ttest, meanAndVar_eq A hA, meanAndVar_eq B hB, e1, e2, XF.fin_add, hs, XF.fin_sub,
    XF.fin_div _ hr0, XF.fin_mul, XF.fin_div _ hpA.ne', XF.fin_div _ hpB.ne', XF.fin_div _ hden.ne']
  have : (seSq A + seSq B) * (seSq A + seSq B) / (seSq A * seSq A / ((A.length : K) - 1) +
      seSq B * seSq B / ((B.length : K) - 1)) = welchDf A B := by
    unfold welchDf
    simp only [pow_two]
  rw [this]

/-- Without degrees of freedom there is no probability. -/
theorem tailProb_nan (F : MathFns K) (h : F.pow .nan .nan = .nan) (t : XF K) :
    tailProb F t .nan = .nan := by
  unfold tailProb tailIntegral
  simp only [XF.nan_div, if_neg (XF.not_lt_nan _), regIncBeta, h, XF.nan_mul]
  split <;> simp only [XF.sub_nan, XF.nan_div]

end CloudForest
