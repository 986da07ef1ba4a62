import Verif.Lemmas.BetaNear
import Verif.Props.Stats

/-!
# C163: the probability of the t-test is the tail of Student's distribution
-/

set_option linter.unusedSectionVars false

namespace CloudForest
open MeasureTheory Set

/-- The side that the code integrates for values of `t` that are not small. -/
theorem tailProb_far {v t : ℝ} (hv : 0 < v) (ht : 0 < t) (hfar : v ≤ 9 * t ^ 2) :
    ∃ p, tailProb realFns (.fin t) (.fin v) = .fin p ∧ p ≤ studentTail v t ∧ (1 - 1 / 10 ^ 10) * studentTail v t ≤ p := by
  have hq : 0 < t * t + v := by positivity
  set w := v / (t * t + v) with hw
  have hw0 : 0 ≤ w := by positivity
  have hw1 : w ≤ 9 / 10 := by
    rw [hw, div_le_div_iff₀ hq (by norm_num)]
    linarith
  obtain ⟨y, e1, y0, y1, y2⟩ := fraction_fifty (by positivity : 0 < v / 2) hw0 hw1
  have hB : 0 < Real.Gamma (v / 2) * Real.Gamma (1 / 2) / Real.Gamma (v / 2 + 1 / 2) := by
    have h1 := Real.Gamma_pos_of_pos (by positivity : 0 < v / 2)
    have h2 := Real.Gamma_pos_of_pos (by positivity : 0 < v / 2 + 1 / 2)
    have h3 := Real.Gamma_pos_of_pos (by norm_num : (0 : ℝ) < 1 / 2)
    positivity
  have htail := studentTail_eq hv ht
  rw [show t ^ 2 + v = t * t + v by ring, ← hw] at htail
  set B := Real.Gamma (v / 2) * Real.Gamma (1 / 2) / Real.Gamma (v / 2 + 1 / 2) with hBd
  have hreg : regIncBeta realFns (.fin w) (.fin (v / 2)) (.fin (1 / 2)) = .fin (w ^ (v / 2) * (1 - w) ^ (1 / 2 : ℝ) / (v / 2 * B * y)) := by
    have hd : v / 2 * B * y ≠ 0 := by positivity
    unfold regIncBeta
    rw [e1, XF.fin_sub]
    simp only [realFns, XF.fin_mul, ← hBd]
    rw [XF.fin_div _ hd]
  set C := w ^ (v / 2) * (1 - w) ^ (1 / 2 : ℝ) / (v / 2 * B) with hC
  have hC0 : 0 ≤ C := by
    have : 0 ≤ 1 - w := by linarith
    positivity
  refine ⟨C * y⁻¹ / 2, ?_, ?_, ?_⟩
  · unfold tailProb tailIntegral
    simp only [XF.fin_mul, XF.fin_add, XF.fin_div _ hq.ne', ← hw]
    rw [if_pos (show (.fin 0 : XF ℝ) < .fin t from ht), if_neg (show ¬ (.fin (9 / 10) : XF ℝ) < .fin w from not_lt.2 hw1),
      XF.fin_div _ (two_ne_zero : (2 : ℝ) ≠ 0), hreg, XF.fin_div _ (two_ne_zero : (2 : ℝ) ≠ 0)]
    congr 2
    rw [hC]
    field_simp
  · rw [htail]
    have := mul_le_mul_of_nonneg_left y1 hC0
    linarith
  · rw [htail]
    have := mul_le_mul_of_nonneg_left y2 hC0
    calc _ = C * ((1 - 1 / 10 ^ 10) * gaussO (v / 2) (1 / 2) w 0) / 2 := by ring
      _ ≤ _ := by linarith

/-- The side that the code integrates for small values of `t`. -/
theorem tailProb_middle {v t : ℝ} (hv : 0 < v) (hv1 : v ≤ 200) (ht : 0 ≤ t) (hnear : 9 * t ^ 2 < v) :
    ∃ I, tailIntegral realFns (.fin (t * t)) (.fin v) = .fin I ∧ |I / 2 - studentTail v t| ≤ 1 / 10 ^ 10 := by
  have hq : 0 < t * t + v := by positivity
  have htail := studentTail_near hv ht
  rw [show t ^ 2 + v = t * t + v by ring] at htail
  have hx0 : 0 ≤ 1 - v / (t * t + v) := by
    rw [sub_nonneg, div_le_one hq]
    nlinarith [mul_self_nonneg t]
  have hx1 : 1 - v / (t * t + v) < 1 / 10 := by
    have : 9 / 10 < v / (t * t + v) := by
      rw [div_lt_div_iff₀ (by norm_num) hq]
      linarith
    linarith
  have hlt : (.fin (9 / 10) : XF ℝ) < .fin (v / (t * t + v)) := show (9 / 10 : ℝ) < _ by linarith
  set x := 1 - v / (t * t + v) with hx
  obtain ⟨y, e1, y0, y1⟩ := fraction_near (by positivity : 0 < v / 2) (by linarith) hx0 hx1.le
  have hB : 0 < Real.Gamma (1 / 2) * Real.Gamma (v / 2) / Real.Gamma (1 / 2 + v / 2) := by
    have h1 := Real.Gamma_pos_of_pos (by positivity : 0 < v / 2)
    have h2 := Real.Gamma_pos_of_pos (by positivity : 0 < 1 / 2 + v / 2)
    have h3 := Real.Gamma_pos_of_pos (by norm_num : (0 : ℝ) < 1 / 2)
    positivity
  set B := Real.Gamma (1 / 2) * Real.Gamma (v / 2) / Real.Gamma (1 / 2 + v / 2) with hBd
  have hreg : regIncBeta realFns (.fin x) (.fin (1 / 2)) (.fin (v / 2)) = .fin (x ^ (1 / 2 : ℝ) * (1 - x) ^ (v / 2) / (1 / 2 * B * y)) := by
    have hd : 1 / 2 * B * y ≠ 0 := by positivity
    unfold regIncBeta
    rw [e1, XF.fin_sub]
    simp only [realFns, XF.fin_mul, ← hBd]
    rw [XF.fin_div _ hd]
  set C := x ^ (1 / 2 : ℝ) * (1 - x) ^ (v / 2) / (1 / 2 * B) with hC
  have hC0 : 0 ≤ C := by
    have : 0 ≤ 1 - x := by linarith
    positivity
  refine ⟨1 - C * y⁻¹, ?_, ?_⟩
  · unfold tailIntegral
    simp only [XF.fin_add, XF.fin_div _ hq.ne']
    rw [if_pos hlt, XF.fin_sub, ← hx, XF.fin_div _ (two_ne_zero : (2 : ℝ) ≠ 0), hreg, XF.fin_sub]
    congr 2
    rw [hC]
    field_simp
  · have hT0 : 0 ≤ studentTail v t := setIntegral_nonneg measurableSet_Ioi fun u _ => by
      rw [student_const hv]
      have h1 := Real.Gamma_pos_of_pos (by positivity : 0 < v / 2)
      have h2 := Real.Gamma_pos_of_pos (by positivity : 0 < v / 2 + 1 / 2)
      have h3 := Real.Gamma_pos_of_pos (by norm_num : (0 : ℝ) < 1 / 2)
      positivity
    rw [htail] at hT0 ⊢
    have hCY : C * gaussO (1 / 2) (v / 2) x 0 ≤ 1 := by linarith
    have e : (1 - C * y⁻¹) / 2 - (1 - C * gaussO (1 / 2) (v / 2) x 0) / 2 = -(C * (y⁻¹ - gaussO (1 / 2) (v / 2) x 0)) / 2 := by ring
    rw [e, abs_div, abs_neg, abs_mul, abs_of_nonneg hC0, abs_two]
    have h4 := mul_le_mul_of_nonneg_left y1 hC0
    have h5 : C * (1 / 10 ^ 10 * gaussO (1 / 2) (v / 2) x 0) = 1 / 10 ^ 10 * (C * gaussO (1 / 2) (v / 2) x 0) := by ring
    rw [h5] at h4
    linarith

theorem studentTail_le_one {v t : ℝ} (hv : 0 < v) : 0 ≤ studentTail v t ∧ studentTail v t ≤ 1 := by
  have h0 : ∀ t, 0 ≤ studentTail v t := fun t => setIntegral_nonneg measurableSet_Ioi fun u _ => by
    rw [student_const hv]
    have h1 := Real.Gamma_pos_of_pos (by positivity : 0 < v / 2)
    have h2 := Real.Gamma_pos_of_pos (by positivity : 0 < v / 2 + 1 / 2)
    have h3 := Real.Gamma_pos_of_pos (by norm_num : (0 : ℝ) < 1 / 2)
    positivity
  refine ⟨h0 t, ?_⟩
  have := studentTail_neg hv t
  linarith [h0 (-t)]

/-- For up to 200 degrees of freedom the probability is right to ten digits. -/
theorem tailProb_student {v : ℝ} (hv : 0 < v) (hv1 : v ≤ 200) (t : ℝ) :
    ∃ p, tailProb realFns (.fin t) (.fin v) = .fin p ∧ |p - studentTail v t| ≤ 1 / 10 ^ 10 := by
  have hpos : ∀ t, 0 < t → ∃ p, tailProb realFns (.fin t) (.fin v) = .fin p ∧ |p - studentTail v t| ≤ 1 / 10 ^ 10 := by
    intro t ht
    rcases le_or_gt v (9 * t ^ 2) with h | h
    · obtain ⟨p, e1, e2, e3⟩ := tailProb_far hv ht h
      refine ⟨p, e1, ?_⟩
      obtain ⟨k0, k1⟩ := studentTail_le_one hv (t := t)
      rw [abs_le]
      constructor <;> linarith
    · obtain ⟨I, e1, e2⟩ := tailProb_middle hv hv1 ht.le h
      refine ⟨I / 2, ?_, e2⟩
      unfold tailProb
      simp only [XF.fin_mul, e1]
      rw [if_pos (show (.fin 0 : XF ℝ) < .fin t from ht), XF.fin_div _ (two_ne_zero : (2 : ℝ) ≠ 0)]
  rcases lt_trichotomy t 0 with h | rfl | h
  · obtain ⟨p, e1, e2⟩ := hpos (-t) (by linarith)
    refine ⟨1 - p, ?_, ?_⟩
    · have := (tailProb_neg realFns (-t) v p (by linarith)).1 e1
      rwa [neg_neg] at this
    · rw [studentTail_neg hv] at e2
      rw [show 1 - p - studentTail v t = -(p - (1 - studentTail v t)) by ring, abs_neg]
      exact e2
  · obtain ⟨I, e1, e2⟩ := tailProb_middle hv hv1 le_rfl (by simpa using hv)
    refine ⟨1 - I / 2, ?_, ?_⟩
    · unfold tailProb
      simp only [XF.fin_mul, e1]
      rw [if_neg (show ¬ (.fin 0 : XF ℝ) < .fin 0 from lt_irrefl (0 : ℝ)), XF.fin_div _ (two_ne_zero : (2 : ℝ) ≠ 0), XF.fin_sub]
    · rw [studentTail_zero hv] at e2 ⊢
      rw [show 1 - I / 2 - 1 / 2 = -(I / 2 - 1 / 2) by ring, abs_neg]
      exact e2
  · exact hpos t h

/-- Welch's degrees of freedom are at most those of both samples. -/
theorem welchDf_bounds {A B : List ℝ} (hA : 2 ≤ A.length) (hB : 2 ≤ B.length) (hs : 0 < seSq A + seSq B) :
    0 < welchDf A B ∧ welchDf A B ≤ (A.length : ℝ) + B.length - 2 := by
  have hA' : (2 : ℝ) ≤ A.length := by exact_mod_cast hA
  have hB' : (2 : ℝ) ≤ B.length := by exact_mod_cast hB
  unfold welchDf
  generalize seSq A = a at *
  generalize seSq B = b at *
  generalize (A.length : ℝ) = n at *
  generalize (B.length : ℝ) = m at *
  have hn : 0 < n - 1 := by linarith
  have hm : 0 < m - 1 := by linarith
  have hd : 0 < a ^ 2 / (n - 1) + b ^ 2 / (m - 1) := by
    rcases eq_or_ne a 0 with rfl | ha
    · have : b ≠ 0 := by
        rintro rfl
        linarith
      positivity
    · have : 0 ≤ b ^ 2 / (m - 1) := by positivity
      have : 0 < a ^ 2 / (n - 1) := by positivity
      linarith
  refine ⟨by positivity, ?_⟩
  rw [div_le_iff₀ hd]
  have : (n + m - 2) * (a ^ 2 / (n - 1) + b ^ 2 / (m - 1)) - (a + b) ^ 2 =
      (a * (m - 1) - b * (n - 1)) ^ 2 / ((n - 1) * (m - 1)) := by
    field_simp
    ring
  have h2 : 0 ≤ (a * (m - 1) - b * (n - 1)) ^ 2 / ((n - 1) * (m - 1)) := by positivity
  linarith

/-- **C163.** The probability that the t-test reports is, to ten digits, the probability that a value of Student's distribution with
Welch's degrees of freedom is above Welch's t. Arithmetic, root, powers and the beta function are exact.

Missing from the full property: samples of more than 202 values together, see `c163_large_partial`; samples of one value or without variance,
see `c96_one_permutation` and `c96_constant_scores`; rounding, see `c163_double`. -/
theorem c163_student_partial (A B : List ℝ) (hA : 2 ≤ A.length) (hB : 2 ≤ B.length) (hAB : A.length + B.length ≤ 202) (hs : 0 < seSq A + seSq B) :
    ∃ p, (ttest realFns (A.map XF.fin) (B.map XF.fin)).p = .fin p ∧
      |p - studentTail (welchDf A B) ((sampleMean A - sampleMean B) / Real.sqrt (seSq A + seSq B))| ≤ 1 / 10 ^ 10 := by
  obtain ⟨h1, h2⟩ := welchDf_bounds hA hB hs
  have hAB' : (A.length : ℝ) + B.length ≤ 202 := by exact_mod_cast hAB
  rw [ttest_stats realFns A B hA hB (Real.sqrt (seSq A + seSq B)) rfl (Real.mul_self_sqrt hs.le) (Real.sqrt_pos.2 hs).ne']
  exact tailProb_student h1 (by linarith) _

/-- **C163** for samples of any size: if the first mean is larger, and the square of Welch's t at least a ninth of the degrees of freedom, then ten digits of
the probability are right however small it is, and it is not above the true one. -/
theorem c163_large_partial (A B : List ℝ) (hA : 2 ≤ A.length) (hB : 2 ≤ B.length) (hs : 0 < seSq A + seSq B) (hm : sampleMean B < sampleMean A)
    (ht : welchDf A B ≤ 9 * (sampleMean A - sampleMean B) ^ 2 / (seSq A + seSq B)) :
    ∃ p, (ttest realFns (A.map XF.fin) (B.map XF.fin)).p = .fin p ∧
      p ≤ studentTail (welchDf A B) ((sampleMean A - sampleMean B) / Real.sqrt (seSq A + seSq B)) ∧
      (1 - 1 / 10 ^ 10) * studentTail (welchDf A B) ((sampleMean A - sampleMean B) / Real.sqrt (seSq A + seSq B)) ≤ p := by
  obtain ⟨h1, h2⟩ := welchDf_bounds hA hB hs
  rw [ttest_stats realFns A B hA hB (Real.sqrt (seSq A + seSq B)) rfl (Real.mul_self_sqrt hs.le) (Real.sqrt_pos.2 hs).ne']
  refine tailProb_far h1 (div_pos (by linarith) (Real.sqrt_pos.2 hs)) ?_
  rw [div_pow, Real.sq_sqrt hs.le, ← mul_div_assoc]
  exact ht

/-- `studentTail` is what it is called: it falls from 1 to 0, half of it is above zero, and it is symmetric. -/
example {v : ℝ} (hv : 0 < v) : studentTail v 0 = 1 / 2 ∧ (∀ t, studentTail v (-t) = 1 - studentTail v t) ∧ Integrable (studentDensity v) ∧
    ∫ u, studentDensity v u = 1 := by
  refine ⟨studentTail_zero hv, studentTail_neg hv, student_integrable hv, ?_⟩
  have hi := student_integrable hv
  have h := intervalIntegral.integral_Iic_add_Ioi (b := (0 : ℝ)) hi.integrableOn hi.integrableOn
  have h2 : (∫ u in Iic (0 : ℝ), studentDensity v u) = studentTail v 0 := by
    have := integral_comp_neg_Ioi (0 : ℝ) (studentDensity v)
    rw [neg_zero] at this
    rw [← this]
    unfold studentTail
    congr 1
    ext u
    unfold studentDensity
    rw [neg_pow_two]
  rw [h2, show (∫ u in Ioi (0 : ℝ), studentDensity v u) = studentTail v 0 from rfl, studentTail_zero hv] at h
  linarith

/-- Importances of three permutations and those of the contrast: both theorems apply. -/
example : let A : List ℝ := [7, 10, 13]
    let B : List ℝ := [0, 3, 6]
    2 ≤ A.length ∧ 2 ≤ B.length ∧ A.length + B.length ≤ 202 ∧ 0 < seSq A + seSq B ∧ sampleMean B < sampleMean A ∧
      welchDf A B ≤ 9 * (sampleMean A - sampleMean B) ^ 2 / (seSq A + seSq B) := by
  refine ⟨by simp, by simp, by simp, ?_, ?_, ?_⟩ <;> norm_num [seSq, sampleVar, sampleMean, welchDf]

end CloudForest
