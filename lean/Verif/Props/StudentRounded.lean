import Verif.Props.Student
import Verif.Model.RoundedStats
import Verif.Lemmas.Rounding3

/-!
# C163 in double precision
-/

set_option linter.unusedSectionVars false

namespace CloudForest
open MeasureTheory Set

/-- 501 values about `c`, with variance 1. -/
def apart {K : Type} [Field K] (c : K) : List K := List.replicate 250 (1 + c) ++ List.replicate 250 (c - 1) ++ [c]

theorem apart_stats (c : ℝ) : sampleMean (apart c) = c ∧ seSq (apart c) = 1 / 501 ∧ (apart c).length = 501 := by
  have hl : (apart c).length = 501 := by
    simp only [apart, List.length_append, List.length_replicate, List.length_singleton]
  have hm : sampleMean (apart c) = c := by
    unfold sampleMean
    rw [hl]
    simp only [apart, List.sum_append, List.sum_replicate, List.sum_cons, List.sum_nil, nsmul_eq_mul]
    push_cast
    ring
  refine ⟨hm, ?_, hl⟩
  unfold seSq sampleVar
  rw [hm, hl]
  simp only [apart, List.map_append, List.map_replicate, List.sum_append, List.sum_replicate, List.map_cons, List.map_nil, List.sum_cons, List.sum_nil,
    nsmul_eq_mul]
  push_cast
  ring

/-- How small the tail is there. -/
theorem tail_thousand {t : ℝ} (ht : 0 < t) (ht2 : t ^ 2 = 40581 / 512) : studentTail 1000 t ≤ 1 / 10 ^ 12 := by
  have h1 := studentTail_near (by norm_num : (0 : ℝ) < 1000) ht.le
  have h2 := studentTail_eq (by norm_num : (0 : ℝ) < 1000) ht
  have h0 := (studentTail_le_one (by norm_num : (0 : ℝ) < 1000) (t := t)).1
  rw [ht2, show (1000 / (40581 / 512 + 1000) : ℝ) = 512000 / 552581 by norm_num, show (1 - 512000 / 552581 : ℝ) = 40581 / 552581 by norm_num] at h1 h2
  rw [show (1 - 40581 / 552581 : ℝ) = 512000 / 552581 by norm_num] at h1
  norm_num only at h1 h2
  set P : ℝ := (40581 / 552581) ^ (1 / 2 : ℝ) with hP
  set Q : ℝ := (512000 / 552581) ^ (500 : ℝ) with hQ
  have hP0 : 0 ≤ P := by positivity
  have hQ0 : 0 ≤ Q := by positivity
  have hB : 0 < Real.Gamma (1 / 2) * Real.Gamma 500 / Real.Gamma (1001 / 2) := by
    have h1 := Real.Gamma_pos_of_pos (by norm_num : (0 : ℝ) < 500)
    have h2 := Real.Gamma_pos_of_pos (by norm_num : (0 : ℝ) < 1001 / 2)
    have h3 := Real.Gamma_pos_of_pos (by norm_num : (0 : ℝ) < 1 / 2)
    positivity
  rw [mul_comm (Real.Gamma 500)] at h2
  clear_value P Q
  generalize Real.Gamma (1 / 2) * Real.Gamma 500 / Real.Gamma (1001 / 2) = B at *
  have hY : (10 : ℝ) ^ 10 ≤ gaussO (1 / 2) 500 (40581 / 552581) 0 := by
    unfold gaussO hg
    have hs := hg_summable (α := 1 / 2 + 500 + ((0 : ℕ) : ℝ)) (β := ((0 : ℕ) : ℝ) + 1) (γ := 1 / 2 + 2 * ((0 : ℕ) : ℝ) + 1) (x := 40581 / 552581)
      (by norm_num) (by norm_num) (by norm_num) (by norm_num) (by norm_num)
    refine le_trans ?_ (hs.le_tsum 16 fun n _ => mul_nonneg (hgCoeff_nonneg (by norm_num) (by norm_num) (by norm_num) n) (by positivity))
    norm_num [hgCoeff]
  have hG : gaussO 500 (1 / 2) (512000 / 552581) 0 ≤ 20 := by
    unfold gaussO hg
    have hs := hg_summable (α := 500 + 1 / 2 + ((0 : ℕ) : ℝ)) (β := ((0 : ℕ) : ℝ) + 1) (γ := 500 + 2 * ((0 : ℕ) : ℝ) + 1) (x := 512000 / 552581)
      (by norm_num) (by norm_num) (by norm_num) (by norm_num) (by norm_num)
    have hg := summable_geometric_of_lt_one (r := (512000 / 552581 : ℝ)) (by norm_num) (by norm_num)
    refine le_trans (hs.tsum_le_tsum (fun n => ?_) hg) ?_
    · refine mul_le_of_le_one_left (by positivity) ?_
      rw [Nat.cast_zero, zero_add, add_zero, mul_zero, add_zero]
      exact hgCoeff_le_one (by norm_num) n
    · rw [tsum_geometric_of_lt_one (by norm_num) (by norm_num)]
      norm_num
  generalize gaussO (1 / 2) 500 (40581 / 552581) 0 = Y at *
  generalize gaussO 500 (1 / 2) (512000 / 552581) 0 = G at *
  have hC : 0 ≤ P * Q / (1 / 2 * B) := by positivity
  have e : Q * P / (500 * B) = P * Q / (1 / 2 * B) / 1000 := by
    field_simp
    ring
  rw [e] at h2
  generalize P * Q / (1 / 2 * B) = C at *
  have h3 : C * 10 ^ 10 ≤ 1 := (mul_le_mul_of_nonneg_left hY hC).trans (by linarith)
  have h4 : C / 1000 * G ≤ C / 1000 * 20 := mul_le_mul_of_nonneg_left hG (by positivity)
  rw [h2]
  norm_num at h3 ⊢
  linarith

theorem rep64_zpow (e : ℤ) (h1 : -1074 ≤ e) (h2 : e ≤ 1023) : Rep64 (2 ^ e) := by
  refine ⟨1, e, by norm_num, h1, by push_cast; ring, ?_⟩
  rw [abs_of_pos (by positivity), ← zpow_natCast]
  exact zpow_lt_zpow_right₀ (by norm_num) (by push_cast; omega)

theorem rep64_neg {y : ℚ} (h : Rep64 y) : Rep64 (-y) := by
  obtain ⟨n, e, h1, h2, h3, h4⟩ := h
  exact ⟨-n, e, by rwa [abs_neg], h2, by rw [h3]; push_cast; ring, by rwa [abs_neg]⟩

/-- What the sum that the continued fraction ends in is rounded to: it is not positive. -/
theorem fraction_lost : XF.rounded F64.round (.fin 1 + XF.rounded F64.round (dOR F64.round (.fin 0) (.fin (661479770308143 / 9007199254740992)) (.fin (1 / 2)) (.fin 500) /
    contFractionR F64.round (.fin (661479770308143 / 9007199254740992)) (.fin (1 / 2)) (.fin 500) 50 (.fin 1))) = .fin (-1 / 2 ^ 52) := by
  decide +kernel

/-- **C163**, in double precision it is false of the code: the importances of 501 permutations are about 9/16 and those of the contrast about 0, both with variance
1. The probability is less than 10⁻¹², but `Ttest` gives at least 1/2, so that the feature is not selected at any level: the last sum of the continued
fraction is so small that rounding takes all of its digits, and its sign. The root is that of the machine, the double nearest to the root of the sum; of powers and the
beta function only the order of magnitude is used. -/
theorem c163_double (F : MathFns ℚ) (hsqrt : F.sqrt (.fin (2301240528157379 / 2 ^ 59)) = .fin (2276385949822597 / 2 ^ 55))
    (hpow : ∀ x y : ℚ, 0 ≤ x → x ≤ 1 → 0 ≤ y → ∃ z, F.pow (.fin x) (.fin y) = .fin z ∧ 0 ≤ z ∧ z ≤ 1)
    (hbeta : ∃ z, F.beta (.fin (1 / 2)) (.fin 500) = .fin z ∧ 1 / 100 ≤ z ∧ z ≤ 1) :
    (∃ p, (ttestR F64.round F ((apart (9 / 16)).map .fin) ((apart 0).map .fin)).p = .fin p ∧ 1 / 2 ≤ p) ∧
    (let A : List ℝ := apart (9 / 16)
     let B : List ℝ := apart 0
     studentTail (welchDf A B) ((sampleMean A - sampleMean B) / Real.sqrt (seSq A + seSq B)) ≤ 1 / 10 ^ 12) := by
  constructor
  · have hA : meanAndVarR F64.round ((apart (9 / 16)).map .fin) = (.fin (9 / 16), .fin 1, .fin 501) := by decide +kernel
    have hB : meanAndVarR F64.round ((apart 0).map .fin) = (.fin 0, .fin 1, .fin 501) := by decide +kernel
    unfold ttestR
    simp only [hA, hB]
    rw [show XF.rounded F64.round (XF.rounded F64.round (.fin 1 / .fin 501) + XF.rounded F64.round (.fin 1 / .fin 501)) =
      .fin (2301240528157379 / 2 ^ 59) by decide +kernel, hsqrt,
      show XF.rounded F64.round (XF.rounded F64.round (.fin (9 / 16) - .fin 0) / .fin (2276385949822597 / 2 ^ 55)) =
        .fin (5011828245971725 / 562949953421312) by decide +kernel,
      show XF.rounded F64.round (XF.rounded F64.round (.fin (2301240528157379 / 2 ^ 59) * .fin (2301240528157379 / 2 ^ 59)) /
        XF.rounded F64.round (XF.rounded F64.round (XF.rounded F64.round (XF.rounded F64.round (.fin 1 / .fin 501) * XF.rounded F64.round (.fin 1 / .fin 501)) /
          XF.rounded F64.round (.fin 501 - .fin 1)) + XF.rounded F64.round (XF.rounded F64.round (XF.rounded F64.round (.fin 1 / .fin 501) *
          XF.rounded F64.round (.fin 1 / .fin 501)) / XF.rounded F64.round (.fin 501 - .fin 1)))) = .fin 1000 by decide +kernel]
    unfold tailProbR tailIntegralR
    simp only
    rw [if_pos (show (.fin 0 : XF ℚ) < .fin (5011828245971725 / 562949953421312) by decide +kernel),
      if_pos (show F64.round (9 / 10) < XF.rounded F64.round (.fin 1000 / XF.rounded F64.round (XF.rounded F64.round
        (.fin (5011828245971725 / 562949953421312) * .fin (5011828245971725 / 562949953421312)) + .fin 1000)) by decide +kernel),
      show XF.rounded F64.round (.fin 1 - XF.rounded F64.round (.fin 1000 / XF.rounded F64.round (XF.rounded F64.round
        (.fin (5011828245971725 / 562949953421312) * .fin (5011828245971725 / 562949953421312)) + .fin 1000))) =
        .fin (661479770308143 / 9007199254740992) by decide +kernel,
      show XF.rounded F64.round (.fin 1000 / .fin 2) = .fin 500 by decide +kernel]
    unfold regIncBetaR
    simp only
    rw [fraction_lost, show XF.rounded F64.round (.fin 1 - .fin (661479770308143 / 9007199254740992)) = .fin (8345719484432849 / 9007199254740992) by decide +kernel]
    obtain ⟨P, p1, p2, p3⟩ := hpow (661479770308143 / 9007199254740992) (1 / 2) (by norm_num) (by norm_num) (by norm_num)
    obtain ⟨Q, q1, q2, q3⟩ := hpow (8345719484432849 / 9007199254740992) 500 (by norm_num) (by norm_num) (by norm_num)
    obtain ⟨b, b1, b2, b3⟩ := hbeta
    rw [p1, q1, b1, XF.fin_mul, XF.fin_mul]
    have r0 : Rep64 1 := by simpa using rep64_zpow 0 (by norm_num) (by norm_num)
    obtain ⟨n, n1, n2, n3⟩ := F64.rounds.between rep64_zero r0 (mul_nonneg p2 q2) (mul_le_one₀ p3 q2 q3)
    obtain ⟨h, h1, h2, h3⟩ := F64.rounds.between (rep64_zpow (-8) (by norm_num) (by norm_num)) r0 (x := 1 / 2 * b)
      (by norm_num; linarith) (by linarith)
    have hh : 0 < h := lt_of_lt_of_le (by positivity) h2
    obtain ⟨d, d1, d2, d3⟩ := F64.rounds.between (rep64_neg r0) (rep64_neg (rep64_zpow (-60) (by norm_num) (by norm_num))) (x := h * (-1 / 2 ^ 52))
      (by norm_num at h2 ⊢; linarith) (by norm_num at h2 ⊢; linarith)
    have hd : d < 0 := lt_of_le_of_lt d3 (by norm_num)
    have hq : -2 ^ (60 : ℤ) ≤ n / d := by
      rw [le_div_iff_of_neg hd]
      norm_num at d3 ⊢
      linarith
    obtain ⟨q, q1, q2, q3⟩ := F64.rounds.between (rep64_neg (rep64_zpow 60 (by norm_num) (by norm_num))) rep64_zero (x := n / d) hq
      (div_nonpos_of_nonneg_of_nonpos n2 hd.le)
    obtain ⟨u, u1, u2, u3⟩ := F64.rounds.between r0 (rep64_zpow 61 (by norm_num) (by norm_num)) (x := 1 - q)
      (by linarith) (by norm_num at q2 ⊢; linarith)
    obtain ⟨p, p1, p2, p3⟩ := F64.rounds.between (rep64_zpow (-1) (by norm_num) (by norm_num)) (rep64_zpow 61 (by norm_num) (by norm_num)) (x := u / 2)
      (by norm_num; linarith) (by norm_num at u3 ⊢; linarith)
    refine ⟨p, ?_, by norm_num at p2 ⊢; linarith⟩
    simp only [XF.rounded, n1, h1, XF.fin_mul, d1, XF.fin_div _ hd.ne, q1, XF.fin_sub, u1, XF.fin_div _ (two_ne_zero : (2 : ℚ) ≠ 0), p1]
  · intro A B
    obtain ⟨a1, a2, a3⟩ := apart_stats (9 / 16)
    obtain ⟨b1, b2, b3⟩ := apart_stats 0
    have hv : welchDf A B = 1000 := by
      unfold welchDf
      rw [a2, a3, b2, b3]
      norm_num
    rw [hv, a1, a2, b1, b2]
    refine tail_thousand (by positivity) ?_
    rw [div_pow, Real.sq_sqrt (by norm_num)]
    norm_num

/-- The root given there is the double nearest to the root. -/
example : ((2276385949822597 - 1 / 2 : ℚ) / 2 ^ 55) ^ 2 < 2301240528157379 / 2 ^ 59 ∧
    (2301240528157379 : ℚ) / 2 ^ 59 < ((2276385949822597 + 1 / 2) / 2 ^ 55) ^ 2 := by norm_num

/-- Functions of the right order of magnitude. -/
example : let F : MathFns ℚ := ⟨fun _ => .fin (2276385949822597 / 2 ^ 55), fun _ _ => .fin (1 / 10 ^ 16), fun _ _ => .fin (2 / 25)⟩
    F.sqrt (.fin (2301240528157379 / 2 ^ 59)) = .fin (2276385949822597 / 2 ^ 55) ∧
    (∀ x y : ℚ, 0 ≤ x → x ≤ 1 → 0 ≤ y → ∃ z, F.pow (.fin x) (.fin y) = .fin z ∧ 0 ≤ z ∧ z ≤ 1) ∧
    (∃ z, F.beta (.fin (1 / 2)) (.fin 500) = .fin z ∧ 1 / 100 ≤ z ∧ z ≤ 1) :=
  ⟨rfl, fun _ _ _ _ _ => ⟨_, rfl, by norm_num, by norm_num⟩, _, rfl, by norm_num, by norm_num⟩

end CloudForest
