import Verif.Lemmas.Student
import Mathlib.Probability.Distributions.Beta
import Mathlib.MeasureTheory.Function.JacobianOneDim

/-!
# The middle of Student's distribution as a series
-/

set_option linter.unusedSectionVars false

namespace CloudForest
open MeasureTheory Filter Topology Set

/-- Euler's integral for the beta function. -/
theorem beta_integral {α β : ℝ} (hα : 0 < α) (hβ : 0 < β) :
    ∫ x in Ioo (0 : ℝ) 1, x ^ (α - 1) * (1 - x) ^ (β - 1) = Real.Gamma α * Real.Gamma β / Real.Gamma (α + β) := by
  rw [show Real.Gamma α * Real.Gamma β / Real.Gamma (α + β) = ProbabilityTheory.beta α β from rfl,
    ProbabilityTheory.beta_eq_betaIntegralReal α β hα hβ, Complex.betaIntegral, intervalIntegral.integral_of_le (by norm_num),
    ← integral_Ioc_eq_integral_Ioo, ← RCLike.re_to_complex, ← integral_re]
  · refine setIntegral_congr_fun measurableSet_Ioc fun x ⟨hx1, hx₂⟩ ↦ ?_
    norm_cast
    rw [← Complex.ofReal_cpow, ← Complex.ofReal_cpow, RCLike.re_to_complex, Complex.re_mul_ofReal, Complex.ofReal_re]
    all_goals linarith
  convert! Complex.betaIntegral_convergent (u := α) (v := β) (by simpa) (by simpa)
  rw [intervalIntegrable_iff_integrableOn_Ioc_of_le (by simp), IntegrableOn]

/-- All of the kernel. -/
theorem kernel_total {v b : ℝ} (hv : 0 < v) (hb : 0 < b) :
    2 * v ^ b * (∫ u in Ioi (0 : ℝ), (v + u ^ 2) ^ (-(b + 1 / 2))) = Real.Gamma b * Real.Gamma (1 / 2) / Real.Gamma (b + 1 / 2) := by
  rw [← beta_integral hb (by norm_num : (0 : ℝ) < 1 / 2)]
  have himg : (fun u : ℝ => v / (v + u ^ 2)) '' Ioi 0 = Ioo 0 1 := by
    ext y
    constructor
    · rintro ⟨u, hu, rfl⟩
      have hu : 0 < u := hu
      have hq : 0 < v + u ^ 2 := by positivity
      refine ⟨by positivity, ?_⟩
      show v / (v + u ^ 2) < 1
      rw [div_lt_one hq]
      have : 0 < u ^ 2 := by positivity
      linarith
    · rintro ⟨h0, h1⟩
      have h2 : 0 < v / y - v := by
        rw [sub_pos, lt_div_iff₀ h0]
        nlinarith
      refine ⟨Real.sqrt (v / y - v), Real.sqrt_pos.2 h2, ?_⟩
      show v / (v + Real.sqrt (v / y - v) ^ 2) = y
      rw [Real.sq_sqrt h2.le]
      field_simp
      ring
  have hinj : InjOn (fun u : ℝ => v / (v + u ^ 2)) (Ioi 0) := by
    intro u hu w hw h
    have hu : 0 < u := hu
    have hw : 0 < w := hw
    have h : v / (v + u ^ 2) = v / (v + w ^ 2) := h
    have hq1 : 0 < v + u ^ 2 := by positivity
    have hq2 : 0 < v + w ^ 2 := by positivity
    rw [div_eq_div_iff hq1.ne' hq2.ne'] at h
    have h := mul_left_cancel₀ hv.ne' h
    have h : w ^ 2 = u ^ 2 := by linarith
    exact ((pow_left_inj₀ hw.le hu.le (by norm_num)).1 h).symm
  rw [← himg, integral_image_eq_integral_abs_deriv_smul (f' := fun u => -(v * (2 * u)) / (v + u ^ 2) ^ 2) measurableSet_Ioi (fun u hu => ?_) hinj,
    ← integral_const_mul]
  · refine setIntegral_congr_fun measurableSet_Ioi fun u hu => ?_
    have hu : 0 < u := hu
    have hq : 0 < v + u ^ 2 := by positivity
    have e1 : 1 - v / (v + u ^ 2) = u ^ 2 / (v + u ^ 2) := by
      field_simp
      ring
    show 2 * v ^ b * (v + u ^ 2) ^ (-(b + 1 / 2)) = |(-(v * (2 * u)) / (v + u ^ 2) ^ 2)| • ((v / (v + u ^ 2)) ^ (b - 1) * (1 - v / (v + u ^ 2)) ^ (1 / 2 - 1 : ℝ))
    rw [e1, smul_eq_mul, neg_div, abs_neg, abs_of_pos (by positivity), show (1 / 2 - 1 : ℝ) = -(1 / 2) by norm_num, Real.rpow_neg (by positivity : (0 : ℝ) ≤ u ^ 2 / (v + u ^ 2)),
      ← Real.sqrt_eq_rpow, Real.sqrt_div (by positivity), Real.sqrt_sq hu.le, Real.div_rpow hv.le hq.le, Real.rpow_sub_one hv.ne', Real.rpow_sub_one hq.ne',
      Real.rpow_neg hq.le, Real.rpow_add hq, ← Real.sqrt_eq_rpow (v + u ^ 2)]
    have hs : Real.sqrt (v + u ^ 2) * Real.sqrt (v + u ^ 2) = v + u ^ 2 := Real.mul_self_sqrt hq.le
    have hs0 : 0 < Real.sqrt (v + u ^ 2) := Real.sqrt_pos.2 hq
    have hp : 0 < (v + u ^ 2) ^ b := by positivity
    generalize (v + u ^ 2) ^ b = p at *
    generalize Real.sqrt (v + u ^ 2) = s at *
    rw [← hs]
    field_simp
  · have h1 : HasDerivAt (fun u : ℝ => v + u ^ 2) (2 * u) u := by
      have := ((hasDerivAt_id u).pow 2).const_add v
      simpa using this
    have hq : v + u ^ 2 ≠ 0 := by positivity
    have := (hasDerivAt_const u v).div h1 hq
    refine HasDerivAt.hasDerivWithinAt (this.congr_deriv ?_)
    ring

/-- The parts of the antiderivative, for the middle. -/
theorem middle_deriv {v s : ℝ} (hv : 0 < v) (k : ℕ) (u : ℝ) :
    HasDerivAt (fun u : ℝ => u ^ (2 * k + 1) * (v + u ^ 2) ^ (-s))
      ((2 * k + 1) * (u ^ (2 * k) * (v + u ^ 2) ^ (-s)) - 2 * s * (u ^ (2 * (k + 1)) * (v + u ^ 2) ^ (-(s + 1)))) u := by
  have hq : 0 < v + u ^ 2 := by positivity
  have h1 : HasDerivAt (fun u : ℝ => v + u ^ 2) (2 * u) u := by
    have := ((hasDerivAt_id u).pow 2).const_add v
    simpa using this
  have h2 := h1.rpow_const (p := -s) (Or.inl hq.ne')
  have h3 := (hasDerivAt_pow (2 * k + 1) u).mul h2
  refine h3.congr_deriv ?_
  rw [show -s - 1 = -(s + 1) by ring, show 2 * (k + 1) = 2 * k + 1 + 1 by ring, Nat.add_sub_cancel, pow_succ u (2 * k + 1)]
  push_cast
  ring

theorem middle_continuous {v s : ℝ} (hv : 0 < v) (k : ℕ) : Continuous fun u : ℝ => u ^ k * (v + u ^ 2) ^ (-s) := by
  refine (continuous_pow k).mul (Continuous.rpow_const (by fun_prop) fun u => Or.inl ?_)
  positivity

theorem middle_step {v s t : ℝ} (hv : 0 < v) (k : ℕ) :
    (2 * k + 1) * (∫ u in (0 : ℝ)..t, u ^ (2 * k) * (v + u ^ 2) ^ (-s)) =
      t ^ (2 * k + 1) * (v + t ^ 2) ^ (-s) + 2 * s * ∫ u in (0 : ℝ)..t, u ^ (2 * (k + 1)) * (v + u ^ 2) ^ (-(s + 1)) := by
  have c1 : Continuous fun u : ℝ => (2 * k + 1 : ℝ) * (u ^ (2 * k) * (v + u ^ 2) ^ (-s)) := (middle_continuous hv (2 * k)).const_mul _
  have c2 : Continuous fun u : ℝ => 2 * s * (u ^ (2 * (k + 1)) * (v + u ^ 2) ^ (-(s + 1))) := (middle_continuous hv (2 * (k + 1))).const_mul _
  have := intervalIntegral.integral_eq_sub_of_hasDerivAt (a := 0) (b := t) (fun u _ => middle_deriv hv (s := s) k u) ((c1.sub c2).intervalIntegrable _ _)
  rw [intervalIntegral.integral_sub (c1.intervalIntegrable _ _) (c2.intervalIntegrable _ _), intervalIntegral.integral_const_mul,
    intervalIntegral.integral_const_mul] at this
  simp only [ne_eq, Nat.add_eq_zero_iff, one_ne_zero, and_false, not_false_eq_true, zero_pow, zero_mul, sub_zero] at this
  linarith

theorem middle_partial {v b t : ℝ} (hv : 0 < v) (hb : 0 < b) (N : ℕ) :
    (∫ u in (0 : ℝ)..t, (v + u ^ 2) ^ (-(b + 1 / 2))) =
      t * (v + t ^ 2) ^ (-(b + 1 / 2)) * (∑ n ∈ Finset.range N, hgCoeff (1 / 2 + b) 1 (1 / 2 + 1) n * (t ^ 2 / (v + t ^ 2)) ^ n) +
        (2 * N + 1) * hgCoeff (1 / 2 + b) 1 (1 / 2 + 1) N * ∫ u in (0 : ℝ)..t, u ^ (2 * N) * (v + u ^ 2) ^ (-(b + N + 1 / 2)) := by
  have hq : 0 < v + t ^ 2 := by positivity
  induction N with
  | zero => simp [hgCoeff]
  | succ N ih =>
    rw [ih, Finset.sum_range_succ, hgCoeff]
    have hN : (0 : ℝ) ≤ N := Nat.cast_nonneg N
    have hs := middle_step hv (s := b + N + 1 / 2) (t := t) N
    have e1 : b + (N : ℝ) + 1 / 2 + 1 = b + ((N + 1 : ℕ) : ℝ) + 1 / 2 := by push_cast; ring
    rw [e1] at hs
    have e2 : (v + t ^ 2) ^ (-(b + N + 1 / 2)) = (v + t ^ 2) ^ (-(b + 1 / 2)) * ((v + t ^ 2) ^ N)⁻¹ := by
      rw [show -(b + (N : ℝ) + 1 / 2) = -(b + 1 / 2) + -(N : ℝ) by ring, Real.rpow_add hq, Real.rpow_neg hq.le (N : ℝ), Real.rpow_natCast]
    rw [e2, pow_succ, pow_mul t 2 N] at hs
    generalize (∫ u in (0 : ℝ)..t, u ^ (2 * N) * (v + u ^ 2) ^ (-(b + (N : ℝ) + 1 / 2))) = I1 at *
    generalize (∫ u in (0 : ℝ)..t, u ^ (2 * (N + 1)) * (v + u ^ 2) ^ (-(b + ((N + 1 : ℕ) : ℝ) + 1 / 2))) = I2 at *
    have h3 : (2 * (N : ℝ) + 1) * hgCoeff (1 / 2 + b) 1 (1 / 2 + 1) N * I1 = hgCoeff (1 / 2 + b) 1 (1 / 2 + 1) N * ((2 * N + 1) * I1) := by ring
    rw [h3, hs, div_pow]
    push_cast
    generalize hgCoeff (1 / 2 + b) 1 (1 / 2 + 1) N = c
    generalize (v + t ^ 2) ^ (-(b + 1 / 2)) = q
    have hp : (v + t ^ 2) ^ N ≠ 0 := by positivity
    generalize (v + t ^ 2) ^ N = p at *
    generalize (t ^ 2) ^ N = z
    have e4 : 1 / 2 + 1 + (N : ℝ) ≠ 0 := by positivity
    have e5 : 1 + (N : ℝ) ≠ 0 := by positivity
    field_simp
    ring

theorem hgCoeff_half (b : ℝ) (n : ℕ) : (2 * n + 1) * hgCoeff (1 / 2 + b) 1 (1 / 2 + 1) n = hgCoeff (1 / 2 + b) 1 (1 / 2) n := by
  induction n with
  | zero => simp [hgCoeff]
  | succ n ih =>
    rw [hgCoeff, hgCoeff, ← ih]
    have hn : (0 : ℝ) ≤ n := Nat.cast_nonneg n
    push_cast
    generalize hgCoeff (1 / 2 + b) 1 (1 / 2 + 1) n = c
    have e4 : 1 / 2 + 1 + (n : ℝ) ≠ 0 := by positivity
    have e5 : 1 / 2 + (n : ℝ) ≠ 0 := by positivity
    have e6 : 1 + (n : ℝ) ≠ 0 := by positivity
    field_simp
    ring

theorem middle_series {v b t : ℝ} (hv : 0 < v) (hb : 0 < b) (ht : 0 ≤ t) :
    (∫ u in (0 : ℝ)..t, (v + u ^ 2) ^ (-(b + 1 / 2))) =
      t * (v + t ^ 2) ^ (-(b + 1 / 2)) * gaussO (1 / 2) b (t ^ 2 / (v + t ^ 2)) 0 := by
  have hq : 0 < v + t ^ 2 := by positivity
  set w := t ^ 2 / (v + t ^ 2) with hw
  have hw0 : 0 ≤ w := by positivity
  have hw1 : w < 1 := by
    rw [hw, div_lt_one hq]
    linarith
  have hsum : Tendsto (fun N => ∑ n ∈ Finset.range N, hgCoeff (1 / 2 + b) 1 (1 / 2 + 1) n * w ^ n) atTop (𝓝 (gaussO (1 / 2) b w 0)) := by
    have := (hg_summable (by positivity : 0 ≤ 1 / 2 + b) (by norm_num : (0 : ℝ) ≤ 1) (by norm_num : (0 : ℝ) < 1 / 2 + 1) hw0 hw1).hasSum.tendsto_sum_nat
    unfold gaussO
    simpa [hg] using this
  set J := ∫ u in (0 : ℝ)..t, (v + u ^ 2) ^ (-(b + 1 / 2)) with hJ
  have hrest : Tendsto (fun N : ℕ => (2 * N + 1) * hgCoeff (1 / 2 + b) 1 (1 / 2 + 1) N * ∫ u in (0 : ℝ)..t, u ^ (2 * N) * (v + u ^ 2) ^ (-(b + N + 1 / 2)))
      atTop (𝓝 0) := by
    have hlim : Tendsto (fun N : ℕ => hgCoeff (1 / 2 + b) 1 (1 / 2) N * w ^ N * J) atTop (𝓝 0) := by
      have := (hg_summable (by positivity : 0 ≤ 1 / 2 + b) (by norm_num : (0 : ℝ) ≤ 1) (by norm_num : (0 : ℝ) < 1 / 2) hw0 hw1).tendsto_atTop_zero
      simpa using this.mul_const J
    refine squeeze_zero (fun N => ?_) (fun N => ?_) hlim
    · have h1 : 0 ≤ ∫ u in (0 : ℝ)..t, u ^ (2 * N) * (v + u ^ 2) ^ (-(b + N + 1 / 2)) :=
        intervalIntegral.integral_nonneg ht fun u hu => by
          have : 0 < v + u ^ 2 := by positivity
          have := hu.1
          positivity
      have h2 := hgCoeff_nonneg (by positivity : 0 ≤ 1 / 2 + b) (by norm_num : (0 : ℝ) ≤ 1) (by norm_num : (0 : ℝ) < 1 / 2 + 1) N
      positivity
    · rw [hgCoeff_half, mul_assoc]
      refine mul_le_mul_of_nonneg_left ?_ (hgCoeff_nonneg (by positivity : 0 ≤ 1 / 2 + b) (by norm_num : (0 : ℝ) ≤ 1) (by norm_num : (0 : ℝ) < 1 / 2) N)
      rw [hJ, ← intervalIntegral.integral_const_mul]
      have c0 := middle_continuous hv (s := b + 1 / 2) 0
      simp only [pow_zero, one_mul] at c0
      refine intervalIntegral.integral_mono_on ht ((middle_continuous hv (s := b + N + 1 / 2) (2 * N)).intervalIntegrable _ _)
        ((c0.const_mul (w ^ N)).intervalIntegrable _ _) fun u hu => ?_
      have hqu : 0 < v + u ^ 2 := by positivity
      have hu0 := hu.1
      rw [show -(b + (N : ℝ) + 1 / 2) = -(N : ℝ) + -(b + 1 / 2) by ring, Real.rpow_add hqu, Real.rpow_neg hqu.le (N : ℝ), Real.rpow_natCast, ← mul_assoc]
      refine mul_le_mul_of_nonneg_right ?_ (by positivity)
      rw [pow_mul, ← div_eq_mul_inv, ← div_pow]
      refine pow_le_pow_left₀ (by positivity) ?_ N
      rw [hw, div_le_div_iff₀ hqu hq]
      have : u ^ 2 ≤ t ^ 2 := pow_le_pow_left₀ hu0 hu.2 2
      nlinarith
  have hall := (hsum.const_mul (t * (v + t ^ 2) ^ (-(b + 1 / 2)))).add hrest
  rw [add_zero] at hall
  refine tendsto_nhds_unique ?_ hall
  refine tendsto_const_nhds.congr fun N => ?_
  rw [hJ, middle_partial hv hb N]

theorem student_const {v : ℝ} (hv : 0 < v) (u : ℝ) : studentDensity v u =
    Real.Gamma (v / 2 + 1 / 2) / (Real.sqrt v * Real.Gamma (1 / 2) * Real.Gamma (v / 2)) * v ^ (v / 2 + 1 / 2) * (v + u ^ 2) ^ (-(v / 2 + 1 / 2)) := by
  unfold studentDensity
  rw [Real.sqrt_mul hv.le, Real.Gamma_one_half_eq, mul_assoc (Real.Gamma (v / 2 + 1 / 2) / _)]
  congr 1
  · congr 2
    ring
  · have : 1 + u ^ 2 / v = (v + u ^ 2) / v := by field_simp
    rw [this, show -(v + 1) / 2 = -(v / 2 + 1 / 2) by ring, Real.div_rpow (by positivity) hv.le, Real.rpow_neg hv.le (v / 2 + 1 / 2), div_inv_eq_mul,
      mul_comm]

theorem student_integrable {v : ℝ} (hv : 0 < v) : Integrable (studentDensity v) := by
  have := (kernel_integrable hv (by linarith : 1 / 2 < v / 2 + 1 / 2)).const_mul
    (Real.Gamma (v / 2 + 1 / 2) / (Real.sqrt v * Real.Gamma (1 / 2) * Real.Gamma (v / 2)) * v ^ (v / 2 + 1 / 2))
  exact this.congr (Eventually.of_forall fun u => (student_const hv u).symm)

/-- Half of the distribution is above zero. -/
theorem studentTail_zero {v : ℝ} (hv : 0 < v) : studentTail v 0 = 1 / 2 := by
  have hk := kernel_total hv (by positivity : 0 < v / 2)
  unfold studentTail
  rw [show (fun u => studentDensity v u) = _ from funext (student_const hv), integral_const_mul]
  have hg1 := Real.Gamma_pos_of_pos (by positivity : 0 < v / 2)
  have hg2 := Real.Gamma_pos_of_pos (by positivity : 0 < v / 2 + 1 / 2)
  have hgh := Real.Gamma_pos_of_pos (by norm_num : (0 : ℝ) < 1 / 2)
  have hp : 0 < v ^ (v / 2) := by positivity
  rw [Real.rpow_add hv, ← Real.sqrt_eq_rpow v]
  have hsq : 0 < Real.sqrt v := Real.sqrt_pos.2 hv
  have hJ : (∫ u in Ioi (0 : ℝ), (v + u ^ 2) ^ (-(v / 2 + 1 / 2))) = Real.Gamma (v / 2) * Real.Gamma (1 / 2) / Real.Gamma (v / 2 + 1 / 2) / (2 * v ^ (v / 2)) := by
    rw [← hk]
    field_simp
  rw [hJ]
  field_simp

/-- The distribution is symmetric. -/
theorem studentTail_neg {v : ℝ} (hv : 0 < v) (t : ℝ) : studentTail v (-t) = 1 - studentTail v t := by
  have hi := student_integrable hv
  have hall : ∀ t : ℝ, studentTail v t = 1 / 2 - ∫ u in (0 : ℝ)..t, studentDensity v u := by
    intro t
    have := intervalIntegral.integral_interval_add_Ioi (a := 0) (b := t) hi.integrableOn hi.integrableOn
    rw [← studentTail_zero hv]
    unfold studentTail
    linarith
  have hodd : (∫ u in (0 : ℝ)..(-t), studentDensity v u) = -∫ u in (0 : ℝ)..t, studentDensity v u := by
    have := intervalIntegral.integral_comp_neg (a := 0) (b := t) (studentDensity v)
    have hev : ∀ u, studentDensity v (-u) = studentDensity v u := by
      intro u
      unfold studentDensity
      rw [neg_pow_two]
    simp only [hev, neg_zero] at this
    rw [this, intervalIntegral.integral_symm]
  rw [hall, hall t, hodd]
  ring

/-- The tail by the series for the middle. -/
theorem studentTail_near {v t : ℝ} (hv : 0 < v) (ht : 0 ≤ t) :
    studentTail v t = (1 - (1 - v / (t ^ 2 + v)) ^ (1 / 2 : ℝ) * (1 - (1 - v / (t ^ 2 + v))) ^ (v / 2) /
      (1 / 2 * (Real.Gamma (1 / 2) * Real.Gamma (v / 2) / Real.Gamma (1 / 2 + v / 2))) *
        gaussO (1 / 2) (v / 2) (1 - v / (t ^ 2 + v)) 0) / 2 := by
  have hi := student_integrable hv
  have hsplit := intervalIntegral.integral_interval_add_Ioi (a := 0) (b := t) hi.integrableOn hi.integrableOn
  have h0 := studentTail_zero hv
  have hmid : (∫ u in (0 : ℝ)..t, studentDensity v u) = Real.Gamma (v / 2 + 1 / 2) / (Real.sqrt v * Real.Gamma (1 / 2) * Real.Gamma (v / 2)) *
      v ^ (v / 2 + 1 / 2) * (t * (v + t ^ 2) ^ (-(v / 2 + 1 / 2)) * gaussO (1 / 2) (v / 2) (t ^ 2 / (v + t ^ 2)) 0) := by
    rw [← middle_series hv (by positivity : 0 < v / 2) ht, ← intervalIntegral.integral_const_mul]
    simp only [student_const hv]
  unfold studentTail at h0 ⊢
  have hq : 0 < v + t ^ 2 := by positivity
  have hc : t ^ 2 + v = v + t ^ 2 := add_comm _ _
  have e0 : 1 - v / (v + t ^ 2) = t ^ 2 / (v + t ^ 2) := by
    field_simp
    ring
  have e1 : (1 - v / (v + t ^ 2)) ^ (1 / 2 : ℝ) * (1 - (1 - v / (v + t ^ 2))) ^ (v / 2) = v ^ (v / 2) * t * (v + t ^ 2) ^ (-(v / 2 + 1 / 2)) := by
    rw [sub_sub_cancel, e0, Real.div_rpow hv.le hq.le, Real.div_rpow (by positivity) hq.le, ← Real.sqrt_eq_rpow (t ^ 2), Real.sqrt_sq ht, Real.rpow_neg hq.le,
      Real.rpow_add hq]
    field_simp
  rw [hc, e1, e0, add_comm (1 / 2 : ℝ) (v / 2)]
  have : (∫ u in Ioi t, studentDensity v u) = 1 / 2 - ∫ u in (0 : ℝ)..t, studentDensity v u := by linarith
  rw [this, hmid, Real.rpow_add hv, ← Real.sqrt_eq_rpow v]
  have hsq : 0 < Real.sqrt v := Real.sqrt_pos.2 hv
  have hg1 := Real.Gamma_pos_of_pos (by positivity : 0 < v / 2)
  have hg2 := Real.Gamma_pos_of_pos (by positivity : 0 < v / 2 + 1 / 2)
  have hgh := Real.Gamma_pos_of_pos (by norm_num : (0 : ℝ) < 1 / 2)
  field_simp

/-- How large the series for the middle can be. -/
theorem middle_bound {b x : ℝ} (hb : 0 < b) (h0 : 0 ≤ x) (h1 : x < 1) : gaussO (1 / 2) b x 0 ≤ (1 - x) ^ (-(b + 1 / 2)) := by
  rcases h0.eq_or_lt with rfl | h0
  · have : gaussO (1 / 2) b 0 0 = 1 := by
      unfold gaussO
      rw [hg_eq (by positivity) (by norm_num) (by norm_num) le_rfl one_pos]
      simp
    rw [this]
    simp
  set t := Real.sqrt (x / (1 - x)) with ht
  have hx' : 0 < 1 - x := by linarith
  have htt : t ^ 2 = x / (1 - x) := Real.sq_sqrt (by positivity)
  have ht0 : 0 < t := Real.sqrt_pos.2 (by positivity)
  have hq : (1 : ℝ) + t ^ 2 = (1 - x)⁻¹ := by
    rw [htt]
    field_simp
    ring
  have hx2 : t ^ 2 / (1 + t ^ 2) = x := by
    rw [hq, htt]
    field_simp
  have := middle_series (one_pos) hb ht0.le
  rw [hx2] at this
  have hle : (∫ u in (0 : ℝ)..t, ((1 : ℝ) + u ^ 2) ^ (-(b + 1 / 2))) ≤ ∫ u in (0 : ℝ)..t, (1 : ℝ) := by
    have c0 := middle_continuous (one_pos : (0 : ℝ) < 1) (s := b + 1 / 2) 0
    simp only [pow_zero, one_mul] at c0
    refine intervalIntegral.integral_mono_on ht0.le (c0.intervalIntegrable _ _) (by simp) fun u hu => ?_
    exact Real.rpow_le_one_of_one_le_of_nonpos (by nlinarith [sq_nonneg u]) (by linarith)
  rw [this, hq] at hle
  simp only [intervalIntegral.integral_const, sub_zero, smul_eq_mul, mul_one] at hle
  rw [Real.inv_rpow hx'.le, Real.rpow_neg hx'.le, inv_inv] at hle
  rw [Real.rpow_neg hx'.le, ← one_div, le_div_iff₀ (by positivity)]
  have h3 : t * ((1 - x) ^ (b + 1 / 2) * gaussO (1 / 2) b x 0) ≤ t * 1 := by linarith
  have := le_of_mul_le_mul_left h3 ht0
  linarith

end CloudForest
