import Mathlib.Analysis.SpecificLimits.Normed
import Mathlib.Topology.Algebra.InfiniteSum.NatInt
import Mathlib.Tactic.Linarith
import Mathlib.Tactic.FieldSimp
import Mathlib.Tactic.Positivity

/-!
# Gauss's continued fraction

The hypergeometric series, its contiguous relations and what they say about quotients of neighbours.
-/

set_option linter.unusedSectionVars false

namespace CloudForest
open Filter Topology

/-- The coefficients of the hypergeometric series. -/
noncomputable def hgCoeff (α β γ : ℝ) : ℕ → ℝ
  | 0 => 1
  | n + 1 => hgCoeff α β γ n * ((α + n) * (β + n) / ((γ + n) * (n + 1)))

/-- The hypergeometric series. -/
noncomputable def hg (α β γ x : ℝ) : ℝ := ∑' n, hgCoeff α β γ n * x ^ n

theorem hgCoeff_symm (α β γ : ℝ) (n : ℕ) : hgCoeff α β γ n = hgCoeff β α γ n := by
  induction n with
  | zero => rfl
  | succ n ih => rw [hgCoeff, hgCoeff, ih, mul_comm (α + n)]

theorem hg_symm (α β γ x : ℝ) : hg α β γ x = hg β α γ x := by
  unfold hg
  simp only [hgCoeff_symm α β]

theorem hgCoeff_nonneg {α β γ : ℝ} (hα : 0 ≤ α) (hβ : 0 ≤ β) (hγ : 0 < γ) (n : ℕ) : 0 ≤ hgCoeff α β γ n := by
  induction n with
  | zero => exact zero_le_one
  | succ n ih =>
    rw [hgCoeff]
    positivity

theorem hg_summable {α β γ x : ℝ} (hα : 0 ≤ α) (hβ : 0 ≤ β) (hγ : 0 < γ) (h0 : 0 ≤ x) (h1 : x < 1) :
    Summable fun n => hgCoeff α β γ n * x ^ n := by
  obtain ⟨r, hr1, hr2⟩ := exists_between h1
  have hr0 : 0 < r := lt_of_le_of_lt h0 hr1
  refine summable_of_ratio_norm_eventually_le (r := r) hr2 ?_
  filter_upwards [eventually_ge_atTop ⌈x * (α + β) / (r - x)⌉₊, eventually_ge_atTop ⌈α * β * x / r⌉₊] with n hn1 hn2
  have hn1 : x * (α + β) / (r - x) ≤ n := Nat.ceil_le.1 hn1
  have hn2 : α * β * x / r ≤ n := Nat.ceil_le.1 hn2
  rw [div_le_iff₀ (by linarith)] at hn1
  rw [div_le_iff₀ hr0] at hn2
  have hc := hgCoeff_nonneg hα hβ hγ n
  have hn0 : (0 : ℝ) ≤ n := Nat.cast_nonneg n
  rw [Real.norm_of_nonneg (by rw [hgCoeff]; positivity), Real.norm_of_nonneg (by positivity), hgCoeff, pow_succ]
  have key : (α + n) * (β + n) / ((γ + n) * (n + 1)) * x ≤ r := by
    rw [div_mul_eq_mul_div, div_le_iff₀ (by positivity)]
    have h2 := mul_le_mul_of_nonneg_left hn1 hn0
    have h3 : 0 ≤ r * γ * n := by positivity
    have h4 : 0 ≤ r * γ := by positivity
    nlinarith
  calc hgCoeff α β γ n * ((α + n) * (β + n) / ((γ + n) * (n + 1))) * (x ^ n * x)
      = (α + n) * (β + n) / ((γ + n) * (n + 1)) * x * (hgCoeff α β γ n * x ^ n) := by ring
    _ ≤ r * (hgCoeff α β γ n * x ^ n) := mul_le_mul_of_nonneg_right key (by positivity)

theorem hg_eq {α β γ x : ℝ} (hα : 0 ≤ α) (hβ : 0 ≤ β) (hγ : 0 < γ) (h0 : 0 ≤ x) (h1 : x < 1) :
    hg α β γ x = 1 + ∑' n, hgCoeff α β γ (n + 1) * x ^ (n + 1) := by
  unfold hg
  rw [(hg_summable hα hβ hγ h0 h1).tsum_eq_zero_add]
  simp [hgCoeff]

theorem hg_ge_one {α β γ x : ℝ} (hα : 0 ≤ α) (hβ : 0 ≤ β) (hγ : 0 < γ) (h0 : 0 ≤ x) (h1 : x < 1) : 1 ≤ hg α β γ x := by
  rw [hg_eq hα hβ hγ h0 h1]
  have : 0 ≤ ∑' n, hgCoeff α β γ (n + 1) * x ^ (n + 1) :=
    tsum_nonneg fun n => mul_nonneg (hgCoeff_nonneg hα hβ hγ _) (by positivity)
  linarith

theorem hg_zero {α γ x : ℝ} (hα : 0 ≤ α) (hγ : 0 < γ) (h0 : 0 ≤ x) (h1 : x < 1) : hg α 0 γ x = 1 := by
  rw [hg_eq hα le_rfl hγ h0 h1]
  have : ∀ n, hgCoeff α 0 γ (n + 1) = 0 := by
    intro n
    induction n with
    | zero => simp [hgCoeff]
    | succ n ih => rw [hgCoeff, ih, zero_mul]
  simp [this]

/-- Coefficients by those of the series two further on. -/
theorem hgCoeff_first {α β γ : ℝ} (hγ : 0 < γ) (n : ℕ) :
    hgCoeff α β γ (n + 1) = hgCoeff (α + 1) (β + 1) (γ + 2) n * (α * β * (γ + n + 1) / (γ * (γ + 1) * (n + 1))) := by
  induction n with
  | zero =>
    simp [hgCoeff]
    field_simp
  | succ n ih =>
    rw [hgCoeff, ih, hgCoeff]
    have hn : (0 : ℝ) ≤ n := Nat.cast_nonneg n
    push_cast
    have e1 : γ + 2 + (n : ℝ) ≠ 0 := by positivity
    have e2 : γ + ((n : ℝ) + 1) + 1 = γ + 2 + n := by ring
    have e3 : γ + ((n : ℝ) + 1) = γ + n + 1 := by ring
    have e4 : γ + (n : ℝ) + 1 ≠ 0 := by positivity
    rw [e2, e3]
    field_simp
    ring

/-- Coefficients of the next series by those of the one after it. -/
theorem hgCoeff_second {α β γ : ℝ} (hγ : 0 < γ) (n : ℕ) :
    hgCoeff α (β + 1) (γ + 1) (n + 1) = hgCoeff (α + 1) (β + 1) (γ + 2) n * (α * (β + n + 1) / ((γ + 1) * (n + 1))) := by
  induction n with
  | zero =>
    simp [hgCoeff]
  | succ n ih =>
    rw [hgCoeff, ih, hgCoeff]
    have hn : (0 : ℝ) ≤ n := Nat.cast_nonneg n
    push_cast
    have e2 : γ + 1 + ((n : ℝ) + 1) = γ + 2 + n := by ring
    rw [e2]
    have e1 : γ + 2 + (n : ℝ) ≠ 0 := by positivity
    field_simp
    ring

/-- Gauss's relation between neighbours. -/
theorem hg_contiguous {α β γ x : ℝ} (hα : 0 ≤ α) (hβ : 0 ≤ β) (hγ : 0 < γ) (h0 : 0 ≤ x) (h1 : x < 1) :
    hg α β γ x = hg α (β + 1) (γ + 1) x - α * (γ - β) * x / (γ * (γ + 1)) * hg (α + 1) (β + 1) (γ + 2) x := by
  have s1 := (summable_nat_add_iff 1).2 (hg_summable hα hβ hγ h0 h1)
  have s2 := (summable_nat_add_iff 1).2 (hg_summable hα (by linarith : 0 ≤ β + 1) (by linarith : 0 < γ + 1) h0 h1)
  have s3 := hg_summable (by linarith : 0 ≤ α + 1) (by linarith : 0 ≤ β + 1) (by linarith : 0 < γ + 2) h0 h1
  rw [hg_eq hα hβ hγ h0 h1, hg_eq hα (by linarith) (by linarith) h0 h1]
  unfold hg
  rw [← tsum_mul_left, add_sub_assoc, ← s2.tsum_sub (s3.mul_left _)]
  congr 2
  ext n
  rw [hgCoeff_first hγ, hgCoeff_second hγ, pow_succ]
  have hn : (0 : ℝ) ≤ n := Nat.cast_nonneg n
  field_simp
  ring

/-- A bound for the quotient of neighbours. -/
theorem hg_ratio {α β γ x : ℝ} (hα : 0 ≤ α) (hβ : 0 ≤ β) (hγ : 0 < γ) (hβγ : β ≤ γ) (h0 : 0 ≤ x) (h1 : x < 1) :
    β / γ * hg α (β + 1) (γ + 1) x ≤ hg α β γ x := by
  have s1 := hg_summable hα hβ hγ h0 h1
  have s2 := hg_summable hα (by linarith : 0 ≤ β + 1) (by linarith : 0 < γ + 1) h0 h1
  unfold hg
  rw [← tsum_mul_left]
  refine (s2.mul_left _).tsum_le_tsum (fun n => ?_) s1
  cases n with
  | zero =>
    simp only [hgCoeff, pow_zero, mul_one]
    exact (div_le_one hγ).2 hβγ
  | succ n =>
    rw [hgCoeff_first hγ, hgCoeff_second hγ, ← mul_assoc]
    refine mul_le_mul_of_nonneg_right ?_ (by positivity)
    have hc := hgCoeff_nonneg (by linarith : 0 ≤ α + 1) (by linarith : 0 ≤ β + 1) (by linarith : 0 < γ + 2) n
    have hn : (0 : ℝ) ≤ n := Nat.cast_nonneg n
    calc β / γ * (hgCoeff (α + 1) (β + 1) (γ + 2) n * (α * (β + n + 1) / ((γ + 1) * (n + 1))))
        = hgCoeff (α + 1) (β + 1) (γ + 2) n * (α * β * (β + n + 1) / (γ * (γ + 1) * (n + 1))) := by
          field_simp
      _ ≤ _ := by
          refine mul_le_mul_of_nonneg_left ?_ hc
          refine div_le_div_of_nonneg_right ?_ (by positivity)
          exact mul_le_mul_of_nonneg_left (by linarith) (by positivity)

end CloudForest
