import Verif.Lemmas.BetaFraction
import Verif.Spec.Student
import Mathlib.Analysis.SpecialFunctions.JapaneseBracket
import Mathlib.MeasureTheory.Integral.IntegralEqImproper
import Mathlib.MeasureTheory.Measure.Haar.NormedSpace
import Mathlib.Analysis.SpecialFunctions.Gaussian.GaussianIntegral
import Mathlib.Analysis.SpecialFunctions.Pow.Deriv

/-!
# The tail of Student's distribution as a series
-/

set_option linter.unusedSectionVars false

namespace CloudForest
open MeasureTheory Filter Topology Set

theorem kernel_integrable {v r : ℝ} (hv : 0 < v) (hr : 1 / 2 < r) : Integrable fun u : ℝ => (v + u ^ 2) ^ (-r) := by
  have h1 : Integrable fun u : ℝ => ((1 : ℝ) + ‖u‖ ^ 2) ^ (-(2 * r) / 2) :=
    integrable_rpow_neg_one_add_norm_sq (by simp; linarith)
  have h2 := (h1.comp_div (Real.sqrt_pos.2 hv).ne').const_mul (v ^ (-r))
  refine h2.congr (Eventually.of_forall fun u => ?_)
  show v ^ (-r) * (1 + ‖u / Real.sqrt v‖ ^ 2) ^ (-(2 * r) / 2) = _
  rw [Real.norm_eq_abs, sq_abs, div_pow, Real.sq_sqrt hv.le, show -(2 * r) / 2 = -r by ring, ← Real.mul_rpow hv.le (by positivity)]
  congr 1
  field_simp

/-- The parts of the antiderivative. -/
theorem part_deriv {v r : ℝ} (hv : 0 < v) (u : ℝ) :
    HasDerivAt (fun u : ℝ => u * (v + u ^ 2) ^ (-r)) ((1 - 2 * r) * (v + u ^ 2) ^ (-r) + 2 * r * v * (v + u ^ 2) ^ (-(r + 1))) u := by
  have hq : 0 < v + u ^ 2 := by positivity
  have h1 : HasDerivAt (fun u : ℝ => v + u ^ 2) (2 * u) u := by
    have := ((hasDerivAt_id u).pow 2).const_add v
    simpa using this
  have h2 := h1.rpow_const (p := -r) (Or.inl hq.ne')
  have h3 := (hasDerivAt_id u).mul h2
  refine h3.congr_deriv ?_
  have e : (v + u ^ 2) ^ (-r) = (v + u ^ 2) ^ (-(r + 1)) * (v + u ^ 2) := by
    rw [← Real.rpow_add_one hq.ne']
    congr 1
    ring
  have e2 : (v + u ^ 2) ^ (-r - 1) = (v + u ^ 2) ^ (-(r + 1)) := by
    congr 1
    ring
  simp only [id, e2]
  rw [e]
  ring

theorem part_tendsto {v r : ℝ} (hv : 0 < v) (hr : 1 / 2 < r) : Tendsto (fun u : ℝ => u * (v + u ^ 2) ^ (-r)) atTop (𝓝 0) := by
  have hs : 0 < 2 * r - 1 := by linarith
  refine squeeze_zero' (g := fun u : ℝ => u ^ (-(2 * r - 1))) ?_ ?_ (tendsto_rpow_neg_atTop hs)
  · filter_upwards [eventually_ge_atTop 0] with u hu
    have : 0 < v + u ^ 2 := by positivity
    positivity
  · filter_upwards [eventually_gt_atTop 0] with u hu
    have h1 : (v + u ^ 2) ^ (-r) ≤ (u ^ 2) ^ (-r) :=
      Real.rpow_le_rpow_of_nonpos (by positivity) (by linarith) (by linarith)
    calc u * (v + u ^ 2) ^ (-r) ≤ u * (u ^ 2) ^ (-r) := mul_le_mul_of_nonneg_left h1 hu.le
      _ = u ^ (-(2 * r - 1)) := by
        rw [← Real.rpow_natCast u 2, ← Real.rpow_mul hu.le]
        nth_rewrite 1 [← Real.rpow_one u]
        rw [← Real.rpow_add hu]
        congr 1
        push_cast
        ring

/-- Integrals of neighbouring powers. -/
theorem kernel_step {v r t : ℝ} (hv : 0 < v) (hr : 1 / 2 < r) :
    (2 * r - 1) * (∫ u in Ioi t, (v + u ^ 2) ^ (-r)) = t * (v + t ^ 2) ^ (-r) + 2 * r * v * ∫ u in Ioi t, (v + u ^ 2) ^ (-(r + 1)) := by
  have i1 := (kernel_integrable hv hr).integrableOn (s := Ioi t)
  have i2 := (kernel_integrable hv (by linarith : 1 / 2 < r + 1)).integrableOn (s := Ioi t)
  have := integral_Ioi_of_hasDerivAt_of_tendsto' (fun u _ => part_deriv hv u) ((i1.const_mul (1 - 2 * r)).add (i2.const_mul (2 * r * v)))
    (part_tendsto hv hr) (a := t)
  rw [integral_add (i1.const_mul _) (i2.const_mul _), integral_const_mul, integral_const_mul] at this
  linarith

/-- The integral by the first terms of the series. -/
theorem kernel_partial {v a t : ℝ} (hv : 0 < v) (ha : 0 < a) (N : ℕ) :
    2 * a * (∫ u in Ioi t, (v + u ^ 2) ^ (-(a + 1 / 2))) =
      t * (v + t ^ 2) ^ (-(a + 1 / 2)) * (∑ n ∈ Finset.range N, hgCoeff (a + 1 / 2) 1 (a + 1) n * (v / (v + t ^ 2)) ^ n) +
        2 * (a + N) * hgCoeff (a + 1 / 2) 1 (a + 1) N * v ^ N * ∫ u in Ioi t, (v + u ^ 2) ^ (-(a + N + 1 / 2)) := by
  have hq : 0 < v + t ^ 2 := by positivity
  induction N with
  | zero => simp [hgCoeff]
  | succ N ih =>
    rw [ih, Finset.sum_range_succ, hgCoeff]
    have hN : (0 : ℝ) ≤ N := Nat.cast_nonneg N
    have hs := kernel_step hv (by linarith : 1 / 2 < a + N + 1 / 2) (t := t)
    have e1 : a + (N : ℝ) + 1 / 2 + 1 = a + ((N + 1 : ℕ) : ℝ) + 1 / 2 := by push_cast; ring
    rw [e1] at hs
    have e2 : (v + t ^ 2) ^ (-(a + N + 1 / 2)) = (v + t ^ 2) ^ (-(a + 1 / 2)) * ((v + t ^ 2) ^ N)⁻¹ := by
      rw [show -(a + (N : ℝ) + 1 / 2) = -(a + 1 / 2) + -(N : ℝ) by ring, Real.rpow_add hq, Real.rpow_neg hq.le (N : ℝ), Real.rpow_natCast]
    rw [e2, show 2 * (a + (N : ℝ) + 1 / 2) - 1 = 2 * (a + N) by ring] at hs
    generalize (∫ u in Ioi t, (v + u ^ 2) ^ (-(a + (N : ℝ) + 1 / 2))) = I1 at *
    generalize (∫ u in Ioi t, (v + u ^ 2) ^ (-(a + ((N + 1 : ℕ) : ℝ) + 1 / 2))) = I2 at *
    have h3 : 2 * (a + N) * hgCoeff (a + 1 / 2) 1 (a + 1) N * v ^ N * I1 = hgCoeff (a + 1 / 2) 1 (a + 1) N * v ^ N * (2 * (a + N) * I1) := by ring
    rw [h3, hs, div_pow, pow_succ]
    push_cast
    generalize hgCoeff (a + 1 / 2) 1 (a + 1) N = c
    generalize (v + t ^ 2) ^ (-(a + 1 / 2)) = q
    have hp : (v + t ^ 2) ^ N ≠ 0 := by positivity
    generalize (v + t ^ 2) ^ N = p at *
    have e4 : a + 1 + (N : ℝ) ≠ 0 := by positivity
    have e5 : 1 + (N : ℝ) ≠ 0 := by positivity
    field_simp
    ring

theorem hgCoeff_le_one {a : ℝ} (ha : 0 < a) (n : ℕ) : hgCoeff (a + 1 / 2) 1 (a + 1) n ≤ 1 := by
  induction n with
  | zero => exact le_rfl
  | succ n ih =>
    rw [hgCoeff]
    have hn : (0 : ℝ) ≤ n := Nat.cast_nonneg n
    refine mul_le_one₀ ih (by positivity) ?_
    rw [div_le_one (by positivity)]
    nlinarith

/-- The integral as a series. -/
theorem kernel_series {v a t : ℝ} (hv : 0 < v) (ha : 0 < a) (ht : 0 < t) :
    2 * a * (∫ u in Ioi t, (v + u ^ 2) ^ (-(a + 1 / 2))) =
      t * (v + t ^ 2) ^ (-(a + 1 / 2)) * gaussO a (1 / 2) (v / (v + t ^ 2)) 0 := by
  have hq : 0 < v + t ^ 2 := by positivity
  set w := v / (v + t ^ 2) with hw
  have hw0 : 0 < w := by positivity
  have hw1 : w < 1 := by
    rw [hw, div_lt_one hq]
    have : 0 < t ^ 2 := by positivity
    linarith
  have hsum : Tendsto (fun N => ∑ n ∈ Finset.range N, hgCoeff (a + 1 / 2) 1 (a + 1) n * w ^ n) atTop (𝓝 (gaussO a (1 / 2) w 0)) := by
    have := (hg_summable (by positivity : 0 ≤ a + 1 / 2) (by norm_num : (0 : ℝ) ≤ 1) (by positivity : 0 < a + 1) hw0.le hw1).hasSum.tendsto_sum_nat
    unfold gaussO
    simpa [hg] using this
  set J := ∫ u in Ioi t, (v + u ^ 2) ^ (-(a + 1 / 2)) with hJ
  have hJ0 : 0 ≤ J := setIntegral_nonneg measurableSet_Ioi fun u _ => by
    have : 0 < v + u ^ 2 := by positivity
    positivity
  have hrest : Tendsto (fun N : ℕ => 2 * (a + N) * hgCoeff (a + 1 / 2) 1 (a + 1) N * v ^ N * ∫ u in Ioi t, (v + u ^ 2) ^ (-(a + N + 1 / 2)))
      atTop (𝓝 0) := by
    have hlim : Tendsto (fun N : ℕ => 2 * J * (a * w ^ N + N * w ^ N)) atTop (𝓝 0) := by
      have h1 := tendsto_pow_atTop_nhds_zero_of_lt_one hw0.le hw1
      have h2 := tendsto_pow_const_mul_const_pow_of_abs_lt_one 1 (show |w| < 1 by rw [abs_of_pos hw0]; exact hw1)
      have h3 := ((h1.const_mul a).add h2).const_mul (2 * J)
      simpa using h3
    refine squeeze_zero (fun N => ?_) (fun N => ?_) hlim
    · have h1 : 0 ≤ ∫ u in Ioi t, (v + u ^ 2) ^ (-(a + (N : ℝ) + 1 / 2)) := setIntegral_nonneg measurableSet_Ioi fun u _ => by
        have : 0 < v + u ^ 2 := by positivity
        positivity
      have h2 := hgCoeff_nonneg (by positivity : 0 ≤ a + 1 / 2) (by norm_num : (0 : ℝ) ≤ 1) (by positivity : 0 < a + 1) N
      positivity
    · have hN : (0 : ℝ) ≤ N := Nat.cast_nonneg N
      have hI : v ^ N * (∫ u in Ioi t, (v + u ^ 2) ^ (-(a + (N : ℝ) + 1 / 2))) ≤ w ^ N * J := by
        rw [hJ, ← integral_const_mul, ← integral_const_mul]
        refine setIntegral_mono_on ((kernel_integrable hv (by linarith)).integrableOn.const_mul _)
          ((kernel_integrable hv (by linarith)).integrableOn.const_mul _) measurableSet_Ioi fun u hu => ?_
        have hu : t < u := hu
        have hqu : 0 < v + u ^ 2 := by positivity
        rw [show -(a + (N : ℝ) + 1 / 2) = -(N : ℝ) + -(a + 1 / 2) by ring, Real.rpow_add hqu, Real.rpow_neg hqu.le (N : ℝ), Real.rpow_natCast, ← mul_assoc]
        refine mul_le_mul_of_nonneg_right ?_ (by positivity)
        rw [hw, div_pow, ← div_eq_mul_inv]
        refine div_le_div_of_nonneg_left (by positivity) (by positivity) (pow_le_pow_left₀ hq.le ?_ N)
        nlinarith
      have hc := hgCoeff_le_one ha N
      have hc0 := hgCoeff_nonneg (by positivity : 0 ≤ a + 1 / 2) (by norm_num : (0 : ℝ) ≤ 1) (by positivity : 0 < a + 1) N
      calc 2 * (a + N) * hgCoeff (a + 1 / 2) 1 (a + 1) N * v ^ N * (∫ u in Ioi t, (v + u ^ 2) ^ (-(a + (N : ℝ) + 1 / 2)))
          = 2 * (a + N) * hgCoeff (a + 1 / 2) 1 (a + 1) N * (v ^ N * ∫ u in Ioi t, (v + u ^ 2) ^ (-(a + (N : ℝ) + 1 / 2))) := by ring
        _ ≤ 2 * (a + N) * hgCoeff (a + 1 / 2) 1 (a + 1) N * (w ^ N * J) := mul_le_mul_of_nonneg_left hI (by positivity)
        _ ≤ 2 * (a + N) * 1 * (w ^ N * J) := by
          refine mul_le_mul_of_nonneg_right ?_ (by positivity)
          exact mul_le_mul_of_nonneg_left hc (by positivity)
        _ = _ := by ring
  have hall := (hsum.const_mul (t * (v + t ^ 2) ^ (-(a + 1 / 2)))).add hrest
  rw [add_zero] at hall
  refine tendsto_nhds_unique ?_ hall
  refine tendsto_const_nhds.congr fun N => ?_
  rw [hJ, kernel_partial hv ha N]

/-- The tail of Student's distribution as a series. -/
theorem studentTail_eq {v t : ℝ} (hv : 0 < v) (ht : 0 < t) :
    studentTail v t = (v / (t ^ 2 + v)) ^ (v / 2) * (1 - v / (t ^ 2 + v)) ^ (1 / 2 : ℝ) /
      (v / 2 * (Real.Gamma (v / 2) * Real.Gamma (1 / 2) / Real.Gamma (v / 2 + 1 / 2))) * gaussO (v / 2) (1 / 2) (v / (t ^ 2 + v)) 0 / 2 := by
  have hq : 0 < v + t ^ 2 := by positivity
  have hk := kernel_series hv (by positivity : 0 < v / 2) ht
  have hc : t ^ 2 + v = v + t ^ 2 := add_comm _ _
  rw [hc]
  have hg1 := Real.Gamma_pos_of_pos (by positivity : 0 < v / 2)
  have hg2 := Real.Gamma_pos_of_pos (by positivity : 0 < v / 2 + 1 / 2)
  have hdens : ∀ u : ℝ, studentDensity v u = Real.Gamma (v / 2 + 1 / 2) / (Real.sqrt v * Real.Gamma (1 / 2) * Real.Gamma (v / 2)) * v ^ (v / 2 + 1 / 2) *
      (v + u ^ 2) ^ (-(v / 2 + 1 / 2)) := by
    intro u
    unfold studentDensity
    rw [Real.sqrt_mul hv.le, Real.Gamma_one_half_eq, mul_assoc (Real.Gamma (v / 2 + 1 / 2) / _)]
    congr 1
    · congr 2
      ring
    · have : 1 + u ^ 2 / v = (v + u ^ 2) / v := by field_simp
      rw [this, show -(v + 1) / 2 = -(v / 2 + 1 / 2) by ring, Real.div_rpow (by positivity) hv.le, Real.rpow_neg hv.le (v / 2 + 1 / 2), div_inv_eq_mul,
        mul_comm]
  unfold studentTail
  rw [show (fun u => studentDensity v u) = fun u => Real.Gamma (v / 2 + 1 / 2) / (Real.sqrt v * Real.Gamma (1 / 2) * Real.Gamma (v / 2)) * v ^ (v / 2 + 1 / 2) *
      (v + u ^ 2) ^ (-(v / 2 + 1 / 2)) from funext hdens, integral_const_mul]
  have hJ : (∫ u in Ioi t, (v + u ^ 2) ^ (-(v / 2 + 1 / 2))) = t * (v + t ^ 2) ^ (-(v / 2 + 1 / 2)) * gaussO (v / 2) (1 / 2) (v / (v + t ^ 2)) 0 / v := by
    rw [← hk]
    field_simp
  rw [hJ]
  have e1 : (v / (v + t ^ 2)) ^ (v / 2) * (1 - v / (v + t ^ 2)) ^ (1 / 2 : ℝ) = v ^ (v / 2) * t * (v + t ^ 2) ^ (-(v / 2 + 1 / 2)) := by
    have : 1 - v / (v + t ^ 2) = t ^ 2 / (v + t ^ 2) := by
      field_simp
      ring
    rw [this, Real.div_rpow hv.le hq.le, Real.div_rpow (by positivity) hq.le, ← Real.sqrt_eq_rpow (t ^ 2), Real.sqrt_sq ht.le, Real.rpow_neg hq.le, Real.rpow_add hq]
    field_simp
  rw [e1, Real.rpow_add hv, ← Real.sqrt_eq_rpow v]
  have hsq : 0 < Real.sqrt v := Real.sqrt_pos.2 hv
  have hgh := Real.Gamma_pos_of_pos (by norm_num : (0 : ℝ) < 1 / 2)
  field_simp

end CloudForest
