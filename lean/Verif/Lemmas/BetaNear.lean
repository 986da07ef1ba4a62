import Verif.Lemmas.StudentNear

/-!
# The continued fraction for the middle of Student's distribution
-/

set_option linter.unusedSectionVars false

namespace CloudForest

section
variable {b x : ℝ} (hb : 0 < b) (hb1 : b ≤ 100) (h0 : 0 ≤ x) (h1 : x ≤ 1 / 10)
include hb hb1 h0 h1

/-- The even factors are small, if not at once then later. -/
theorem nearW (m : ℕ) : (m + 1) * ((m + 1) * (b - (m + 1)) * x / ((1 / 2 + 2 * m + 1) * (1 / 2 + 2 * m + 2))) ≤ 8 / 3 ∧
    -(2 / 75) ≤ (m + 1) * (b - (m + 1)) * x / ((1 / 2 + 2 * m + 1) * (1 / 2 + 2 * m + 2)) := by
  have hm : (0 : ℝ) ≤ m := Nat.cast_nonneg m
  have hD : (1 / 2 + 2 * (m : ℝ) + 1) * (1 / 2 + 2 * m + 2) ≥ 15 / 4 * (m + 1) ^ 2 := by nlinarith
  have hD0 : 0 < (1 / 2 + 2 * (m : ℝ) + 1) * (1 / 2 + 2 * m + 2) := by positivity
  have hbx : b * x ≤ 10 := by nlinarith
  constructor
  · rw [← mul_div_assoc, div_le_iff₀ hD0]
    have h2 : 0 ≤ (m + 1 : ℝ) * x := by positivity
    have h3 : (b - (m + 1)) * x ≤ 10 := by linarith
    have h4 := mul_le_mul_of_nonneg_left h3 (sq_nonneg (m + 1 : ℝ))
    nlinarith
  · rw [le_div_iff₀ hD0]
    have h2 : (m + 1 : ℝ) * (-(m + 1) * (1 / 10)) ≤ (m + 1) * ((b - (m + 1)) * x) := by
      refine mul_le_mul_of_nonneg_left ?_ (by positivity)
      have h5 : (m + 1 : ℝ) * x ≤ (m + 1) * (1 / 10) := mul_le_mul_of_nonneg_left h1 (by positivity)
      have h6 : 0 ≤ b * x := by positivity
      linarith
    nlinarith

theorem nearE (m : ℕ) : 2 / 5 ≤ gaussE (1 / 2) b x (m + 1) / gaussO (1 / 2) b x (m + 1) := by
  refine le_trans ?_ (gaussE_ratio (by norm_num) hb h0 (by linarith) (m + 1))
  have hm : (0 : ℝ) ≤ m := Nat.cast_nonneg m
  push_cast
  rw [div_le_div_iff₀ (by norm_num) (by positivity)]
  linarith

/-- One round. -/
theorem near_round (m : ℕ) (hm50 : m < 50) {c d : ℝ} (hd1 : d ≤ 1 / 10)
    (hd : |c - gaussO (1 / 2) b x (m + 1) / gaussE (1 / 2) b x (m + 2)| ≤ d * (gaussO (1 / 2) b x (m + 1) / gaussE (1 / 2) b x (m + 2))) :
    ∃ c', XF.fin 1 + dE (XF.ofNat (m + 1)) (.fin x) (.fin (1 / 2)) (.fin b) /
        (.fin 1 + dO (XF.ofNat (m + 1)) (.fin x) (.fin (1 / 2)) (.fin b) / .fin c) = .fin c' ∧
      |c' - gaussO (1 / 2) b x m / gaussE (1 / 2) b x (m + 1)| ≤
        d * (40 / (23 + 3 * m)) * (gaussO (1 / 2) b x m / gaussE (1 / 2) b x (m + 1)) := by
  have hx1 : x < 1 := by linarith
  have hm : (0 : ℝ) ≤ m := Nat.cast_nonneg m
  have ha : (0 : ℝ) < 1 / 2 := by norm_num
  have p1 := gaussO_pos ha hb h0 hx1 (m + 1)
  have p2 := gaussE_pos ha hb h0 hx1 (m + 2)
  have p3 := gaussE_pos ha hb h0 hx1 (m + 1)
  have p4 := gaussO_pos ha hb h0 hx1 m
  have eE := quotE_eq ha hb h0 hx1 (m + 1)
  have eO := quotO_eq ha hb h0 hx1 m
  have gE := nearE hb hb1 h0 h1 m
  obtain ⟨w1, w2⟩ := nearW hb hb1 h0 h1 m
  have hG : 0 < gaussO (1 / 2) b x (m + 1) / gaussE (1 / 2) b x (m + 2) := div_pos (by linarith) (by linarith)
  have hO : 0 < gaussO (1 / 2) b x m / gaussE (1 / 2) b x (m + 1) := div_pos (by linarith) (by linarith)
  rw [dO_real ha, dE_real ha]
  generalize gaussO (1 / 2) b x (m + 1) / gaussE (1 / 2) b x (m + 2) = G at *
  generalize gaussE (1 / 2) b x (m + 1) / gaussO (1 / 2) b x (m + 1) = E at *
  generalize gaussO (1 / 2) b x m / gaussE (1 / 2) b x (m + 1) = O at *
  generalize (m + 1) * (b - (m + 1)) * x / ((1 / 2 + 2 * m + 1) * (1 / 2 + 2 * m + 2)) = W at *
  have hD0 : 0 ≤ (1 / 2 + ((m + 1 : ℕ) : ℝ)) * (1 / 2 + b + ((m + 1 : ℕ) : ℝ)) * x /
    ((1 / 2 + 2 * ((m + 1 : ℕ) : ℝ)) * (1 / 2 + 2 * ((m + 1 : ℕ) : ℝ) + 1)) := by positivity
  generalize (1 / 2 + ((m + 1 : ℕ) : ℝ)) * (1 / 2 + b + ((m + 1 : ℕ) : ℝ)) * x /
    ((1 / 2 + 2 * ((m + 1 : ℕ) : ℝ)) * (1 / 2 + 2 * ((m + 1 : ℕ) : ℝ) + 1)) = D at *
  have hE : 0 < E := by linarith
  have hd0 : 0 ≤ d := nonneg_of_mul_nonneg_left ((abs_nonneg _).trans hd) hG
  have hdG : d * G ≤ 1 / 10 * G := mul_le_mul_of_nonneg_right hd1 hG.le
  have hc9 : 9 / 10 * G ≤ c := by linarith [(abs_le.1 hd).1]
  have hc0 : 0 < c := by linarith
  have hDG : D = (1 - E) * G := by
    rw [eE]
    field_simp
    ring
  have hE1 : 0 ≤ 1 - E := by
    rw [eE]
    have : 0 ≤ D / G := div_nonneg hD0 hG.le
    linarith
  have f1 : |(1 + -D / c) - E| ≤ 5 / 3 * d * E := by
    have e : (1 + -D / c) - E = (1 - E) * ((c - G) / c) := by
      rw [hDG]
      field_simp
      ring
    rw [e, abs_mul, abs_of_nonneg hE1, abs_div, abs_of_pos hc0]
    have h2 : |c - G| / c ≤ 10 / 9 * d := by
      rw [div_le_iff₀ hc0]
      nlinarith
    have h3 : (1 - E) * (|c - G| / c) ≤ (1 - E) * (10 / 9 * d) := mul_le_mul_of_nonneg_left h2 hE1
    have h4 : (1 - E) * (10 / 9 * d) ≤ 3 / 2 * E * (10 / 9 * d) := mul_le_mul_of_nonneg_right (by linarith) (by linarith)
    linarith
  have hdE : 5 / 3 * d * E ≤ 1 / 6 * E := mul_le_mul_of_nonneg_right (by linarith) hE.le
  have hE' : 5 / 6 * E ≤ 1 + -D / c := by linarith [(abs_le.1 f1).1]
  have hE'0 : 0 < 1 + -D / c := by linarith
  rw [XF.fin_div _ hc0.ne', XF.fin_add, XF.fin_div _ hE'0.ne', XF.fin_add]
  refine ⟨_, rfl, ?_⟩
  generalize 1 + -D / c = Z at *
  have hf : 0 < 40 / (23 + 3 * (m : ℝ)) := by positivity
  have hff : 40 / (23 + 3 * (m : ℝ)) * (23 + 3 * m) = 40 := by field_simp
  have hm49 : (m : ℝ) ≤ 49 := by
    have : m ≤ 49 := by omega
    exact_mod_cast this
  have hO' : O * E = E + W := by
    rw [eO]
    field_simp
  have key : 2 * |W| ≤ 40 / (23 + 3 * (m : ℝ)) * (O * E) := by
    rw [hO', div_mul_eq_mul_div, le_div_iff₀ (by positivity)]
    rcases le_total 0 W with hW | hW
    · rw [abs_of_nonneg hW]
      nlinarith
    · rw [abs_of_nonpos hW]
      nlinarith
  have e : (1 + W / Z) - O = W * ((E - Z) / (E * Z)) := by
    rw [eO]
    field_simp
    ring
  rw [e, abs_mul, abs_div, abs_of_pos (mul_pos hE hE'0), abs_sub_comm]
  have h5 : |Z - E| / (E * Z) ≤ 2 * d / E := by
    rw [div_le_div_iff₀ (mul_pos hE hE'0) hE]
    have h6 : |Z - E| * E ≤ 5 / 3 * d * E * E := mul_le_mul_of_nonneg_right f1 hE.le
    have h7 : 5 / 3 * d * E * E ≤ 2 * d * (E * Z) := by
      have : 2 * d * E * (5 / 6 * E) ≤ 2 * d * E * Z := mul_le_mul_of_nonneg_left hE' (by positivity)
      linarith
    exact h6.trans h7
  calc |W| * (|Z - E| / (E * Z)) ≤ |W| * (2 * d / E) := mul_le_mul_of_nonneg_left h5 (abs_nonneg _)
    _ = 2 * |W| * (d / E) := by ring
    _ ≤ 40 / (23 + 3 * (m : ℝ)) * (O * E) * (d / E) := mul_le_mul_of_nonneg_right key (by positivity)
    _ = _ := by field_simp

/-- How the error develops from round to round. -/
noncomputable def nearError : ℕ → ℝ → ℝ
  | 0, d => d
  | i + 1, d => nearError i (d * (40 / (23 + 3 * i)))

omit hb hb1 h0 h1 in
theorem nearError_mul (i : ℕ) (d : ℝ) : nearError i d = d * nearError i 1 := by
  induction i generalizing d with
  | zero => simp [nearError]
  | succ i ih =>
    rw [nearError, nearError, ih, ih (1 * _)]
    ring

/-- The product of the factors of the first rounds. -/
theorem near_fraction (i : ℕ) (hi : i ≤ 50) {c d : ℝ} (hd1 : d * (2 : ℝ) ^ (min (min i 6) (26 - i)) ≤ 1 / 10)
    (hd : |c - gaussO (1 / 2) b x i / gaussE (1 / 2) b x (i + 1)| ≤ d * (gaussO (1 / 2) b x i / gaussE (1 / 2) b x (i + 1))) :
    ∃ c', contFraction (.fin x) (.fin (1 / 2)) (.fin b) i (.fin c) = .fin c' ∧
      |c' - gaussO (1 / 2) b x 0 / gaussE (1 / 2) b x 1| ≤ nearError i d * (gaussO (1 / 2) b x 0 / gaussE (1 / 2) b x 1) := by
  induction i generalizing c d with
  | zero => exact ⟨c, rfl, hd⟩
  | succ i ih =>
    have hG : 0 < gaussO (1 / 2) b x (i + 1) / gaussE (1 / 2) b x (i + 2) :=
      div_pos (by linarith [gaussO_pos (by norm_num : (0 : ℝ) < 1 / 2) hb h0 (by linarith) (i + 1)])
        (by linarith [gaussE_pos (by norm_num : (0 : ℝ) < 1 / 2) hb h0 (by linarith) (i + 2)])
    have hd0 : 0 ≤ d := nonneg_of_mul_nonneg_left ((abs_nonneg _).trans hd) hG
    have hp1 : (1 : ℝ) ≤ 2 ^ (min (min (i + 1) 6) (26 - (i + 1))) := one_le_pow₀ (by norm_num)
    have hd' : d ≤ 1 / 10 := by nlinarith
    obtain ⟨c', e1, e2⟩ := near_round hb hb1 h0 h1 i (by omega) hd' hd
    have hin : (0 : ℝ) ≤ i := Nat.cast_nonneg i
    have hnext : d * (40 / (23 + 3 * i)) * (2 : ℝ) ^ (min (min i 6) (26 - i)) ≤ 1 / 10 := by
      refine le_trans ?_ hd1
      rw [mul_assoc]
      refine mul_le_mul_of_nonneg_left ?_ hd0
      have hle : ∀ {q : ℝ}, q ≤ 23 + 3 * i → 0 < q → 40 / (23 + 3 * (i : ℝ)) ≤ 40 / q := fun h hq =>
        div_le_div_of_nonneg_left (by norm_num) hq h
      rcases Nat.lt_or_ge i 6 with h | h
      · rw [show min (min (i + 1) 6) (26 - (i + 1)) = min (min i 6) (26 - i) + 1 by omega, pow_succ, mul_comm ((2 : ℝ) ^ _)]
        refine mul_le_mul_of_nonneg_right ((hle (q := 23) (by linarith) (by norm_num)).trans (by norm_num)) (by positivity)
      rcases Nat.lt_or_ge i 20 with h' | h'
      · have h6 : (6 : ℝ) ≤ i := by exact_mod_cast h
        rw [show min (min (i + 1) 6) (26 - (i + 1)) = min (min i 6) (26 - i) by omega]
        exact mul_le_of_le_one_left (by positivity) ((hle (q := 41) (by linarith) (by norm_num)).trans (by norm_num))
      · have h6 : (20 : ℝ) ≤ i := by exact_mod_cast h'
        have h7 : (2 : ℝ) ^ (min (min i 6) (26 - i)) ≤ 2 ^ (min (min (i + 1) 6) (26 - (i + 1)) + 1) :=
          pow_le_pow_right₀ (by norm_num) (by omega)
        rw [pow_succ] at h7
        have h8 : 40 / (23 + 3 * (i : ℝ)) ≤ 1 / 2 := (hle (q := 83) (by linarith) (by norm_num)).trans (by norm_num)
        have h9 : (0 : ℝ) < 2 ^ (min (min i 6) (26 - i)) := by positivity
        nlinarith
    obtain ⟨c'', k1, k2⟩ := ih (by omega) hnext e2
    refine ⟨c'', ?_, ?_⟩
    · rw [contFraction, e1]
      exact k1
    · rw [nearError]
      exact k2

end

theorem nearError_fifty : nearError 50 1 ≤ 1 / 10 ^ 16 := by
  simp only [nearError]
  norm_num

/-- The fraction that the code works out for the middle, and the series it stands for. -/
theorem fraction_near {b x : ℝ} (hb : 0 < b) (hb1 : b ≤ 100) (h0 : 0 ≤ x) (h1 : x ≤ 1 / 10) :
    ∃ y, (.fin 1 + dO (.fin 0) (.fin x) (.fin (1 / 2)) (.fin b) / contFraction (.fin x) (.fin (1 / 2)) (.fin b) 50 (.fin 1) : XF ℝ) = .fin y ∧
      0 < y ∧ |y⁻¹ - gaussO (1 / 2) b x 0| ≤ 1 / 10 ^ 10 * gaussO (1 / 2) b x 0 := by
  have hx1 : x < 1 := by linarith
  have ha : (0 : ℝ) < 1 / 2 := by norm_num
  have hstart : |1 - gaussO (1 / 2) b x 50 / gaussE (1 / 2) b x 51| ≤ 1 / 10 * (gaussO (1 / 2) b x 50 / gaussE (1 / 2) b x 51) := by
    obtain ⟨w1, w2⟩ := nearW hb hb1 h0 h1 50
    have gE := gaussE_ratio ha hb h0 hx1 51
    rw [quotO_eq ha hb h0 hx1 50]
    have gE : 51 / (1 / 2 + 2 * 51) ≤ gaussE (1 / 2) b x 51 / gaussO (1 / 2) b x 51 := by exact_mod_cast gE
    rw [show (50 : ℕ) + 1 = 51 from rfl]
    generalize gaussE (1 / 2) b x 51 / gaussO (1 / 2) b x 51 = E at *
    generalize (((50 : ℕ) : ℝ) + 1) * (b - (((50 : ℕ) : ℝ) + 1)) * x / ((1 / 2 + 2 * ((50 : ℕ) : ℝ) + 1) * (1 / 2 + 2 * ((50 : ℕ) : ℝ) + 2)) = W at *
    norm_num at w1 gE
    have hE : 0 < E := by linarith
    have e1 : 1 - (1 + W / E) = -W / E := by ring
    have e2 : 1 + W / E = (E + W) / E := by field_simp
    rw [e1, e2, abs_div, abs_neg, abs_of_pos hE, ← mul_div_assoc]
    refine div_le_div_of_nonneg_right ?_ hE.le
    rw [abs_le]
    constructor <;> linarith
  obtain ⟨c, e1, e2⟩ := near_fraction hb hb1 h0 h1 50 le_rfl (c := 1) (d := 1 / 10) (by norm_num) hstart
  have hq := quotE_eq ha hb h0 hx1 0
  rw [gaussE_zero ha hb h0 hx1] at hq
  have p0 := gaussO_pos ha hb h0 hx1 0
  have hG : 0 < gaussO (1 / 2) b x 0 / gaussE (1 / 2) b x 1 :=
    div_pos (by linarith) (by linarith [gaussE_pos ha hb h0 hx1 1])
  have hzero : (.fin 0 : XF ℝ) = XF.ofNat 0 := by simp [XF.ofNat]
  rw [nearError_mul] at e2
  have hYb : gaussO (1 / 2) b x 0 ≤ 10 ^ 5 := by
    refine (middle_bound hb h0 hx1).trans ?_
    calc (1 - x) ^ (-(b + 1 / 2)) ≤ (9 / 10 : ℝ) ^ (-(b + 1 / 2)) :=
          Real.rpow_le_rpow_of_nonpos (by norm_num) (by linarith) (by linarith)
      _ ≤ (9 / 10 : ℝ) ^ (-((101 : ℕ) : ℝ)) := Real.rpow_le_rpow_of_exponent_ge (by norm_num) (by norm_num) (by push_cast; linarith)
      _ ≤ 10 ^ 5 := by
        rw [Real.rpow_neg (by norm_num), Real.rpow_natCast]
        norm_num
  rw [e1, hzero, dO_real ha]
  rw [show (0 : ℕ) + 1 = 1 from rfl] at hq
  generalize gaussO (1 / 2) b x 0 / gaussE (1 / 2) b x 1 = G at *
  generalize gaussO (1 / 2) b x 0 = Y at *
  generalize (1 / 2 + ((0 : ℕ) : ℝ)) * (1 / 2 + b + ((0 : ℕ) : ℝ)) * x / ((1 / 2 + 2 * ((0 : ℕ) : ℝ)) * (1 / 2 + 2 * ((0 : ℕ) : ℝ) + 1)) = D at *
  have hn := nearError_fifty
  have e2 : |c - G| ≤ 1 / 10 ^ 17 * G := by
    refine e2.trans (mul_le_mul_of_nonneg_right ?_ hG.le)
    linarith
  have hc9 : 9 / 10 * G ≤ c := by linarith [(abs_le.1 e2).1]
  have hc0 : 0 < c := by linarith
  have hDG : D = (1 - 1 / Y) * G := by
    rw [hq]
    field_simp
    ring
  have hY1 : 0 ≤ 1 - 1 / Y := by
    rw [sub_nonneg, div_le_one (by linarith)]
    exact p0
  have hYp : 0 < 1 / Y := by positivity
  have f1 : |(1 + -D / c) - 1 / Y| ≤ 2 / 10 ^ 17 := by
    have e : (1 + -D / c) - 1 / Y = (1 - 1 / Y) * ((c - G) / c) := by
      rw [hDG]
      field_simp
      ring
    rw [e, abs_mul, abs_of_nonneg hY1, abs_div, abs_of_pos hc0]
    have h2 : |c - G| / c ≤ 2 / 10 ^ 17 := by
      rw [div_le_iff₀ hc0]
      linarith
    have h3 : 0 ≤ |c - G| / c := by positivity
    nlinarith
  have hge : 1 / 10 ^ 5 ≤ 1 / Y := one_div_le_one_div_of_le (by linarith) hYb
  have hpos : 9 / 10 * (1 / Y) ≤ 1 + -D / c := by linarith [(abs_le.1 f1).1]
  have hpos0 : 0 < 1 + -D / c := by linarith
  rw [XF.fin_div _ hc0.ne', XF.fin_add]
  refine ⟨_, rfl, hpos0, ?_⟩
  generalize 1 + -D / c = y at *
  have hY0 : 0 < Y := by linarith
  have e : y⁻¹ - Y = (1 / Y - y) * (Y / y) := by field_simp
  rw [e, abs_mul, abs_sub_comm, abs_of_pos (div_pos hY0 hpos0)]
  have h4 : |y - 1 / Y| ≤ 1 / 10 ^ 10 * y := by linarith
  calc |y - 1 / Y| * (Y / y) ≤ 1 / 10 ^ 10 * y * (Y / y) := mul_le_mul_of_nonneg_right h4 (by positivity)
    _ = _ := by field_simp

end CloudForest
