import Verif.Lemmas.Gauss
import Verif.Lemmas.Stats
import Mathlib.Analysis.SpecialFunctions.Pow.Real

/-!
# The continued fraction of the incomplete beta function
-/

set_option linter.unusedSectionVars false

namespace CloudForest

/-- The series whose quotients make the fraction, with even index. -/
noncomputable def gaussE (a b x : ℝ) (m : ℕ) : ℝ := hg (a + b + m) m (a + 2 * m) x

/-- The series whose quotients make the fraction, with odd index. -/
noncomputable def gaussO (a b x : ℝ) (m : ℕ) : ℝ := hg (a + b + m) (m + 1) (a + 2 * m + 1) x

theorem dO_real {a b x : ℝ} (ha : 0 < a) (m : ℕ) : dO (XF.ofNat m) (.fin x) (.fin a) (.fin b) =
    (.fin (-((a + m) * (a + b + m) * x / ((a + 2 * m) * (a + 2 * m + 1)))) : XF ℝ) := by
  have hd : (a + 2 * m) * (a + 2 * m + 1) ≠ 0 := by positivity
  simp only [dO, XF.ofNat, XF.fin_mul, XF.fin_add, XF.fin_div _ hd]
  congr 1
  ring

theorem dE_real {a b x : ℝ} (ha : 0 < a) (m : ℕ) : dE (XF.ofNat (m + 1)) (.fin x) (.fin a) (.fin b) =
    (.fin ((m + 1) * (b - (m + 1)) * x / ((a + 2 * m + 1) * (a + 2 * m + 2))) : XF ℝ) := by
  have e1 : a + 2 * ((m + 1 : ℕ) : ℝ) - 1 = a + 2 * m + 1 := by push_cast; ring
  have e2 : a + 2 * ((m + 1 : ℕ) : ℝ) = a + 2 * m + 2 := by push_cast; ring
  have hd : (a + 2 * ((m + 1 : ℕ) : ℝ) - 1) * (a + 2 * ((m + 1 : ℕ) : ℝ)) ≠ 0 := by
    rw [e1, e2]
    positivity
  simp only [dE, XF.ofNat, XF.fin_mul, XF.fin_add, XF.fin_sub, XF.fin_div _ hd]
  congr 1
  rw [e1, e2]
  push_cast
  rfl

section
variable {a b x : ℝ} (ha : 0 < a) (hb : 0 < b) (h0 : 0 ≤ x) (h1 : x < 1)
include ha hb h0 h1

theorem gaussE_pos (m : ℕ) : 1 ≤ gaussE a b x m := hg_ge_one (by positivity) (by positivity) (by positivity) h0 h1

theorem gaussO_pos (m : ℕ) : 1 ≤ gaussO a b x m := hg_ge_one (by positivity) (by positivity) (by positivity) h0 h1

theorem gaussE_zero : gaussE a b x 0 = 1 := by
  unfold gaussE
  simp only [Nat.cast_zero, add_zero, mul_zero]
  exact hg_zero (by positivity) ha h0 h1

theorem gaussE_eq (m : ℕ) : gaussE a b x m = gaussO a b x m -
    (a + m) * (a + b + m) * x / ((a + 2 * m) * (a + 2 * m + 1)) * gaussE a b x (m + 1) := by
  unfold gaussE gaussO
  rw [hg_contiguous (by positivity) (by positivity) (by positivity) h0 h1]
  congr 2
  · congr 2
    ring
  · push_cast
    congr 1 <;> ring

theorem gaussO_eq (m : ℕ) : gaussO a b x m = gaussE a b x (m + 1) +
    (m + 1) * (b - (m + 1)) * x / ((a + 2 * m + 1) * (a + 2 * m + 2)) * gaussO a b x (m + 1) := by
  unfold gaussE gaussO
  rw [hg_symm, hg_contiguous (by positivity) (by positivity) (by positivity) h0 h1, hg_symm, sub_eq_add_neg, ← neg_mul]
  congr 1
  · push_cast
    congr 1 <;> ring
  · rw [hg_symm]
    congr 1
    · rw [← neg_div]
      congr 1 <;> ring
    · push_cast
      congr 1 <;> ring

theorem gaussE_ratio (m : ℕ) : m / (a + 2 * m) ≤ gaussE a b x m / gaussO a b x m := by
  rw [le_div_iff₀ (lt_of_lt_of_le one_pos (gaussO_pos ha hb h0 h1 m))]
  exact hg_ratio (by positivity) (by positivity) (by positivity) (by
    have : (0 : ℝ) ≤ m := Nat.cast_nonneg m
    linarith) h0 h1

/-- The quotients satisfy the equations of the fraction. -/
theorem quotE_eq (m : ℕ) : gaussE a b x m / gaussO a b x m =
    1 - (a + m) * (a + b + m) * x / ((a + 2 * m) * (a + 2 * m + 1)) / (gaussO a b x m / gaussE a b x (m + 1)) := by
  have e1 := gaussO_pos ha hb h0 h1 m
  have e2 := gaussE_pos ha hb h0 h1 (m + 1)
  have e1' : gaussO a b x m ≠ 0 := by linarith
  have e2' : gaussE a b x (m + 1) ≠ 0 := by linarith
  rw [gaussE_eq ha hb h0 h1 m, sub_div, div_self e1', div_div_eq_mul_div]

theorem quotO_eq (m : ℕ) : gaussO a b x m / gaussE a b x (m + 1) =
    1 + (m + 1) * (b - (m + 1)) * x / ((a + 2 * m + 1) * (a + 2 * m + 2)) / (gaussE a b x (m + 1) / gaussO a b x (m + 1)) := by
  have e1 := gaussO_pos ha hb h0 h1 (m + 1)
  have e2 := gaussE_pos ha hb h0 h1 (m + 1)
  have e1' : gaussO a b x (m + 1) ≠ 0 := by linarith
  have e2' : gaussE a b x (m + 1) ≠ 0 := by linarith
  rw [gaussO_eq ha hb h0 h1 m, add_div, div_self e2', div_div_eq_mul_div]

end

/-! ## One half as second argument -/

theorem contraction {s x : ℝ} (hs0 : 0 ≤ s) (hs1 : s ≤ 1 / 2) (hx0 : 0 ≤ x) (hx1 : x ≤ 9 / 10) :
    0 < 1 - s * x - x * (1 - s) ^ 2 ∧ s * x * (x * (1 - s) ^ 2) ≤ 3 / 5 * ((1 - s * x) * (1 - s * x - x * (1 - s) ^ 2)) := by
  have hp : 0 ≤ s * (1 - s) := mul_nonneg hs0 (by linarith)
  have hq : s + (1 - s) ^ 2 = 1 - s * (1 - s) := by ring
  have hq0 : 0 ≤ 1 - s * (1 - s) := by nlinarith
  have e : 1 - s * x - x * (1 - s) ^ 2 = 1 - x * (1 - s * (1 - s)) := by ring
  have hx2 : x * (1 - s * (1 - s)) ≤ 9 / 10 * (1 - s * (1 - s)) := mul_le_mul_of_nonneg_right hx1 hq0
  have hsx : s * x ≤ 9 / 10 * s := by nlinarith
  have h2 : 0 ≤ 1 / 10 + 9 / 10 * (s * (1 - s)) := by linarith
  refine ⟨by rw [e]; nlinarith, ?_⟩
  rw [e]
  have hxx : x * x ≤ 81 / 100 := by nlinarith
  calc s * x * (x * (1 - s) ^ 2) = x * x * (s * (1 - s) ^ 2) := by ring
    _ ≤ 81 / 100 * (s * (1 - s) ^ 2) := mul_le_mul_of_nonneg_right hxx (by positivity)
    _ ≤ 3 / 5 * ((1 - 9 / 10 * s) * (1 / 10 + 9 / 10 * (s * (1 - s)))) := by
      nlinarith [mul_nonneg hs0 (sq_nonneg (s - 2 / 5)), mul_nonneg hs0 (sub_nonneg.2 hs1), sq_nonneg (s - 2 / 5), mul_nonneg (mul_nonneg hs0 hs0) (sub_nonneg.2 hs1)]
    _ ≤ _ := by
      refine mul_le_mul_of_nonneg_left ?_ (by norm_num)
      refine mul_le_mul ?_ ?_ h2 ?_ <;> nlinarith

section
variable {a x : ℝ} (ha : 0 < a) (h0 : 0 ≤ x) (h1 : x ≤ 9 / 10)
include ha h0 h1

/-- A lower bound for the quotients with odd index. -/
theorem quotO_ge (m : ℕ) : 1 - (m + 1 / 2) / (a + 2 * m + 1) * x ≤ gaussO a (1 / 2) x m / gaussE a (1 / 2) x (m + 1) := by
  have hx1 : x < 1 := by linarith
  have hm : (0 : ℝ) ≤ m := Nat.cast_nonneg m
  rw [quotO_eq ha (by norm_num) h0 hx1]
  have hr := gaussE_ratio ha (by norm_num : (0 : ℝ) < 1 / 2) h0 hx1 (m + 1)
  push_cast at hr
  have e2 : a + 2 * ((m : ℝ) + 1) = a + 2 * m + 2 := by ring
  rw [e2] at hr
  set q := gaussE a (1 / 2) x (m + 1) / gaussO a (1 / 2) x (m + 1)
  have hq : 0 < q := lt_of_lt_of_le (by positivity) hr
  rw [div_le_iff₀ (by positivity)] at hr
  have : (m + 1 / 2) / (a + 2 * m + 1) * x - (m + 1) * (m + 1 / 2) * x / ((a + 2 * m + 1) * (a + 2 * m + 2)) / q =
      (m + 1 / 2) * x / ((a + 2 * m + 1) * ((a + 2 * m + 2) * q)) * (q * (a + 2 * m + 2) - (m + 1)) := by
    field_simp
  have h2 : 0 ≤ (m + 1 / 2) * x / ((a + 2 * m + 1) * ((a + 2 * m + 2) * q)) * (q * (a + 2 * m + 2) - (m + 1)) :=
    mul_nonneg (by positivity) (by linarith)
  have h3 : (m + 1) * (1 / 2 - (m + 1)) * x / ((a + 2 * m + 1) * (a + 2 * m + 2)) / q =
      -((m + 1) * (m + 1 / 2) * x / ((a + 2 * m + 1) * (a + 2 * m + 2)) / q) := by
    rw [← neg_div, ← neg_div]
    congr 2
    ring
  rw [h3]
  linarith

/-- A lower bound for the quotients with even index, in terms of `m / (a + 2 m)`. -/
theorem quotE_ge (m : ℕ) : 1 - x * (1 - m / (a + 2 * m)) ^ 2 / (1 - m / (a + 2 * m) * x) ≤
    gaussE a (1 / 2) x m / gaussO a (1 / 2) x m := by
  have hx1 : x < 1 := by linarith
  have hm : (0 : ℝ) ≤ m := Nat.cast_nonneg m
  rw [quotE_eq ha (by norm_num) h0 hx1]
  have hr := quotO_ge ha h0 h1 m
  set q := gaussO a (1 / 2) x m / gaussE a (1 / 2) x (m + 1)
  set s : ℝ := m / (a + 2 * m) with hs
  set u : ℝ := (m + 1 / 2) / (a + 2 * m + 1) with hu
  have hu1 : u ≤ 1 := by
    rw [hu, div_le_one (by positivity)]
    linarith
  have hu0 : 0 ≤ u := by positivity
  have hsu : s ≤ u := by
    rw [hs, hu, div_le_div_iff₀ (by positivity) (by positivity)]
    nlinarith
  have hs0 : 0 ≤ s := by positivity
  have hux : u * x ≤ 9 / 10 := by nlinarith
  have hsx : s * x ≤ u * x := mul_le_mul_of_nonneg_right hsu h0
  have hq : 0 < q := by linarith
  have e : (a + m) * (a + 1 / 2 + m) * x / ((a + 2 * m) * (a + 2 * m + 1)) = (1 - s) * (1 - u) * x := by
    rw [hs, hu]
    field_simp
    ring
  rw [e]
  have h2 : (1 - s) * (1 - u) * x / q ≤ (1 - s) * (1 - u) * x / (1 - u * x) :=
    div_le_div_of_nonneg_left (mul_nonneg (mul_nonneg (by linarith) (by linarith)) h0) (by linarith) hr
  have h3 : (1 - s) * (1 - u) * x / (1 - u * x) ≤ x * (1 - s) ^ 2 / (1 - s * x) := by
    rw [div_le_div_iff₀ (by linarith) (by linarith)]
    have : (1 - u) * (1 - s * x) ≤ (1 - s) * (1 - u * x) := by nlinarith
    have h4 := mul_le_mul_of_nonneg_left this (mul_nonneg (by linarith : 0 ≤ 1 - s) h0)
    nlinarith
  linarith

/-- One round of the fraction: an approximation from above stays one, and becomes better. -/
theorem round_better (m : ℕ) {c d : ℝ} (hc : gaussO a (1 / 2) x (m + 1) / gaussE a (1 / 2) x (m + 2) ≤ c)
    (hd : c - gaussO a (1 / 2) x (m + 1) / gaussE a (1 / 2) x (m + 2) ≤ d * (gaussO a (1 / 2) x (m + 1) / gaussE a (1 / 2) x (m + 2))) :
    ∃ c', XF.fin 1 + dE (XF.ofNat (m + 1)) (.fin x) (.fin a) (.fin (1 / 2)) /
        (.fin 1 + dO (XF.ofNat (m + 1)) (.fin x) (.fin a) (.fin (1 / 2)) / .fin c) = .fin c' ∧
      gaussO a (1 / 2) x m / gaussE a (1 / 2) x (m + 1) ≤ c' ∧
      c' - gaussO a (1 / 2) x m / gaussE a (1 / 2) x (m + 1) ≤ 3 / 5 * d * (gaussO a (1 / 2) x m / gaussE a (1 / 2) x (m + 1)) := by
  have hx1 : x < 1 := by linarith
  have hm : (0 : ℝ) ≤ m := Nat.cast_nonneg m
  have hb : (0 : ℝ) < 1 / 2 := by norm_num
  have p1 := gaussO_pos ha hb h0 hx1 (m + 1)
  have p2 := gaussE_pos ha hb h0 hx1 (m + 2)
  have p3 := gaussE_pos ha hb h0 hx1 (m + 1)
  have p4 := gaussO_pos ha hb h0 hx1 m
  have eE := quotE_eq ha hb h0 hx1 (m + 1)
  have eO := quotO_eq ha hb h0 hx1 m
  have gE := quotE_ge ha h0 h1 (m + 1)
  have gO := quotO_ge ha h0 h1 m
  have hG : 0 < gaussO a (1 / 2) x (m + 1) / gaussE a (1 / 2) x (m + 2) := div_pos (by linarith) (by linarith)
  have hE : 0 < gaussE a (1 / 2) x (m + 1) / gaussO a (1 / 2) x (m + 1) := div_pos (by linarith) (by linarith)
  have hO : 0 < gaussO a (1 / 2) x m / gaussE a (1 / 2) x (m + 1) := div_pos (by linarith) (by linarith)
  rw [dO_real ha, dE_real ha]
  generalize gaussO a (1 / 2) x (m + 1) / gaussE a (1 / 2) x (m + 2) = G at *
  generalize gaussE a (1 / 2) x (m + 1) / gaussO a (1 / 2) x (m + 1) = E at *
  generalize gaussO a (1 / 2) x m / gaussE a (1 / 2) x (m + 1) = O at *
  have hc0 : 0 < c := lt_of_lt_of_le hG hc
  set s : ℝ := ((m + 1 : ℕ) : ℝ) / (a + 2 * ((m + 1 : ℕ) : ℝ)) with hs
  set u : ℝ := (m + 1 / 2) / (a + 2 * m + 1) with hu
  have hs0 : 0 ≤ s := by positivity
  have hs1 : s ≤ 1 / 2 := by
    rw [hs, div_le_div_iff₀ (by positivity) (by norm_num)]
    linarith
  have hus : u ≤ s := by
    rw [hu, hs, div_le_div_iff₀ (by positivity) (by positivity)]
    push_cast
    nlinarith
  have hu0 : 0 ≤ u := by positivity
  obtain ⟨k1, k2⟩ := contraction hs0 hs1 h0 h1
  have hsx : s * x ≤ 9 / 20 := by nlinarith
  have hux : u * x ≤ s * x := mul_le_mul_of_nonneg_right hus h0
  set D : ℝ := (a + ((m + 1 : ℕ) : ℝ)) * (a + 1 / 2 + ((m + 1 : ℕ) : ℝ)) * x / ((a + 2 * ((m + 1 : ℕ) : ℝ)) * (a + 2 * ((m + 1 : ℕ) : ℝ) + 1)) with hD
  have hD0 : 0 ≤ D := by positivity
  have e1 : (m + 1) * (1 / 2 - (m + 1)) * x / ((a + 2 * m + 1) * (a + 2 * m + 2)) = -(u * s * x) := by
    rw [hu, hs]
    push_cast
    have : a + 2 * ((m : ℝ) + 1) = a + 2 * m + 2 := by ring
    rw [this]
    field_simp
    ring
  rw [e1] at eO ⊢
  set W := u * s * x with hW
  have hW0 : 0 ≤ W := by positivity
  -- the approximation of the quotient with even index
  have hE1 : E ≤ 1 + -D / c := by
    rw [eE, neg_div, ← sub_eq_add_neg]
    exact sub_le_sub_left (div_le_div_of_nonneg_left hD0 hG hc) _
  have hE' : 0 < 1 + -D / c := lt_of_lt_of_le hE hE1
  rw [XF.fin_div _ hc0.ne', XF.fin_add, XF.fin_div _ hE'.ne', XF.fin_add]
  refine ⟨_, rfl, ?_, ?_⟩
  · rw [eO, neg_div, neg_div]
    have := div_le_div_of_nonneg_left hW0 hE hE1
    linarith
  · have hDG : D = (1 - E) * G := by
      rw [eE]
      field_simp
      ring
    have hWE : W = (1 - O) * E := by
      rw [eO]
      field_simp
      ring
    have hE1' : 0 ≤ 1 - E := by
      rw [eE]
      have : 0 ≤ D / G := div_nonneg hD0 hG.le
      linarith
    have hO1' : 0 ≤ 1 - O := by
      rw [eO, neg_div]
      have : 0 ≤ W / E := div_nonneg hW0 hE.le
      linarith
    have hd0 : 0 ≤ d := by
      have : 0 ≤ d * G := by linarith
      exact nonneg_of_mul_nonneg_left this hG
    -- error of the quotient with even index
    have f1 : (1 + -D / c) - E ≤ (1 - E) * d := by
      have : (1 + -D / c) - E = (1 - E) * (c - G) / c := by
        rw [hDG]
        field_simp
        ring
      rw [this, div_le_iff₀ hc0]
      have : (c - G) ≤ d * c := hd.trans (mul_le_mul_of_nonneg_left hc hd0)
      have := mul_le_mul_of_nonneg_left this hE1'
      linarith
    have f2 : (1 + -W / (1 + -D / c)) - O ≤ (1 - O) * ((1 - E) * d / E) := by
      have : (1 + -W / (1 + -D / c)) - O = (1 - O) * (((1 + -D / c) - E) / (1 + -D / c)) := by
        rw [hWE]
        generalize 1 + -D / c = Z at hE'
        field_simp
        ring
      rw [this]
      refine mul_le_mul_of_nonneg_left ?_ hO1'
      calc ((1 + -D / c) - E) / (1 + -D / c) ≤ ((1 + -D / c) - E) / E :=
            div_le_div_of_nonneg_left (by linarith) hE hE1
        _ ≤ _ := div_le_div_of_nonneg_right f1 hE.le
    refine f2.trans ?_
    -- the quotients are not too small
    have g1 : 1 - O ≤ s * x := by linarith
    have g2 : 1 - s * x ≤ O := by linarith
    have hsx1 : 0 < 1 - s * x := by linarith
    have g3 : (1 - E) * (1 - s * x) ≤ x * (1 - s) ^ 2 := by
      have : 1 - E ≤ x * (1 - s) ^ 2 / (1 - s * x) := by linarith
      rwa [le_div_iff₀ hsx1] at this
    have g4 : 1 - s * x - x * (1 - s) ^ 2 ≤ E * (1 - s * x) := by linarith [show (1 - E) * (1 - s * x) = 1 - s * x - E * (1 - s * x) by ring]
    have key : (1 - O) * (1 - E) ≤ 3 / 5 * O * E := by
      have a1 : (1 - O) * ((1 - E) * (1 - s * x)) ≤ s * x * (x * (1 - s) ^ 2) :=
        mul_le_mul g1 g3 (mul_nonneg hE1' hsx1.le) (by positivity)
      have a2 : (1 - s * x) * (1 - s * x - x * (1 - s) ^ 2) ≤ O * (E * (1 - s * x)) :=
        mul_le_mul g2 g4 k1.le hO.le
      have : (1 - O) * (1 - E) * (1 - s * x) ≤ 3 / 5 * O * E * (1 - s * x) := by
        have a3 := mul_le_mul_of_nonneg_left a2 (by norm_num : (0 : ℝ) ≤ 3 / 5)
        calc (1 - O) * (1 - E) * (1 - s * x) = (1 - O) * ((1 - E) * (1 - s * x)) := by ring
          _ ≤ 3 / 5 * (O * (E * (1 - s * x))) := a1.trans (k2.trans a3)
          _ = _ := by ring
      exact le_of_mul_le_mul_right this hsx1
    have : (1 - O) * ((1 - E) * d / E) = (1 - O) * (1 - E) * (d / E) := by ring
    rw [this]
    calc (1 - O) * (1 - E) * (d / E) ≤ 3 / 5 * O * E * (d / E) := mul_le_mul_of_nonneg_right key (by positivity)
      _ = 3 / 5 * d * O := by field_simp

/-- The fraction after some rounds. -/
theorem fraction_close : ∀ (i : ℕ) {c d : ℝ}, gaussO a (1 / 2) x i / gaussE a (1 / 2) x (i + 1) ≤ c →
    c - gaussO a (1 / 2) x i / gaussE a (1 / 2) x (i + 1) ≤ d * (gaussO a (1 / 2) x i / gaussE a (1 / 2) x (i + 1)) →
    ∃ c', contFraction (.fin x) (.fin a) (.fin (1 / 2)) i (.fin c) = .fin c' ∧ gaussO a (1 / 2) x 0 / gaussE a (1 / 2) x 1 ≤ c' ∧
      c' - gaussO a (1 / 2) x 0 / gaussE a (1 / 2) x 1 ≤ (3 / 5) ^ i * d * (gaussO a (1 / 2) x 0 / gaussE a (1 / 2) x 1) := by
  intro i
  induction i with
  | zero => exact fun {c d} hc hd => ⟨c, rfl, hc, by simpa using hd⟩
  | succ i ih =>
    intro c d hc hd
    obtain ⟨c', e1, e2, e3⟩ := round_better ha h0 h1 i hc hd
    obtain ⟨c'', k1, k2, k3⟩ := ih e2 e3
    refine ⟨c'', ?_, k2, ?_⟩
    · rw [contFraction, e1]
      exact k1
    · calc _ ≤ _ := k3
        _ = _ := by rw [pow_succ]; ring

/-- The fraction that the code works out, and the series it stands for. -/
theorem fraction_fifty : ∃ y, (.fin 1 + dO (.fin 0) (.fin x) (.fin a) (.fin (1 / 2)) /
      contFraction (.fin x) (.fin a) (.fin (1 / 2)) 50 (.fin 1) : XF ℝ) = .fin y ∧ 0 < y ∧
    y⁻¹ ≤ gaussO a (1 / 2) x 0 ∧ (1 - 1 / 10 ^ 10) * gaussO a (1 / 2) x 0 ≤ y⁻¹ := by
  have hx1 : x < 1 := by linarith
  have hb : (0 : ℝ) < 1 / 2 := by norm_num
  have hO50 : gaussO a (1 / 2) x 50 / gaussE a (1 / 2) x 51 ≤ 1 ∧ 1 / 2 ≤ gaussO a (1 / 2) x 50 / gaussE a (1 / 2) x 51 := by
    constructor
    · rw [quotO_eq ha hb h0 hx1 50]
      have p1 := gaussO_pos ha hb h0 hx1 51
      have p2 := gaussE_pos ha hb h0 hx1 51
      have : (((50 : ℕ) : ℝ) + 1) * (1 / 2 - (((50 : ℕ) : ℝ) + 1)) * x / ((a + 2 * ((50 : ℕ) : ℝ) + 1) * (a + 2 * ((50 : ℕ) : ℝ) + 2)) /
          (gaussE a (1 / 2) x (50 + 1) / gaussO a (1 / 2) x (50 + 1)) ≤ 0 := by
        refine div_nonpos_of_nonpos_of_nonneg (div_nonpos_of_nonpos_of_nonneg ?_ (by positivity)) (div_nonneg (by linarith) (by linarith))
        push_cast
        nlinarith
      linarith
    · refine le_trans ?_ (quotO_ge ha h0 h1 50)
      have : (((50 : ℕ) : ℝ) + 1 / 2) / (a + 2 * ((50 : ℕ) : ℝ) + 1) ≤ 1 / 2 := by
        rw [div_le_div_iff₀ (by positivity) (by norm_num)]
        push_cast
        linarith
      have h3 : 0 ≤ (((50 : ℕ) : ℝ) + 1 / 2) / (a + 2 * ((50 : ℕ) : ℝ) + 1) := by positivity
      nlinarith
  obtain ⟨c, e1, e2, e3⟩ := fraction_close ha h0 h1 50 (c := 1) (d := 1) hO50.1 (by linarith [hO50.2])
  have hq := quotE_eq ha hb h0 hx1 0
  have hg := quotE_ge ha h0 h1 0
  rw [gaussE_zero ha hb h0 hx1] at hq hg
  simp only [Nat.cast_zero, zero_div, sub_zero, one_pow, mul_one, zero_mul, div_one] at hg
  have p0 := gaussO_pos ha hb h0 hx1 0
  have hG : 0 < gaussO a (1 / 2) x 0 / gaussE a (1 / 2) x 1 :=
    div_pos (by linarith) (by linarith [gaussE_pos ha hb h0 hx1 1])
  have hzero : (.fin 0 : XF ℝ) = XF.ofNat 0 := by simp [XF.ofNat]
  rw [e1, hzero, dO_real ha]
  rw [show (0 : ℕ) + 1 = 1 from rfl] at hq
  generalize gaussO a (1 / 2) x 0 / gaussE a (1 / 2) x 1 = G at *
  generalize gaussO a (1 / 2) x 0 = Y at *
  generalize (a + ((0 : ℕ) : ℝ)) * (a + 1 / 2 + ((0 : ℕ) : ℝ)) * x / ((a + 2 * ((0 : ℕ) : ℝ)) * (a + 2 * ((0 : ℕ) : ℝ) + 1)) = D at *
  have hc0 : 0 < c := lt_of_lt_of_le hG e2
  have hY : 0 < 1 / Y := by positivity
  have hDG : D = (1 - 1 / Y) * G := by
    rw [hq]
    field_simp
    ring
  have hD0 : 0 ≤ D := by
    rw [hDG]
    refine mul_nonneg ?_ hG.le
    rw [sub_nonneg, div_le_one (by linarith)]
    exact p0
  have hle : 1 / Y ≤ 1 + -D / c := by
    rw [hq, neg_div, ← sub_eq_add_neg]
    exact sub_le_sub_left (div_le_div_of_nonneg_left hD0 hG e2) _
  have hpos : 0 < 1 + -D / c := lt_of_lt_of_le hY hle
  rw [XF.fin_div _ hc0.ne', XF.fin_add]
  refine ⟨_, rfl, hpos, ?_, ?_⟩
  · rw [inv_le_comm₀ hpos (by linarith), ← one_div]
    exact hle
  · have hge : 1 / 10 ≤ 1 / Y := by linarith
    have hY10 : Y ≤ 10 := by
      rw [div_le_div_iff₀ (by norm_num) (by linarith)] at hge
      linarith
    have herr : (1 + -D / c) - 1 / Y ≤ (1 - 1 / Y) * (3 / 5) ^ 50 := by
      have : (1 + -D / c) - 1 / Y = (1 - 1 / Y) * ((c - G) / c) := by
        rw [hDG]
        field_simp
        ring
      rw [this]
      refine mul_le_mul_of_nonneg_left ?_ (by rw [sub_nonneg, div_le_one (by linarith)]; exact p0)
      rw [div_le_iff₀ hc0]
      have : (3 / 5 : ℝ) ^ 50 * 1 * G ≤ (3 / 5) ^ 50 * c := by
        rw [mul_one]
        exact mul_le_mul_of_nonneg_left e2 (by positivity)
      linarith
    rw [← one_div, le_div_iff₀ hpos]
    have hfin : (1 - 1 / Y) * (3 / 5 : ℝ) ^ 50 * Y ≤ 1 / 10 ^ 10 := by
      have : (1 - 1 / Y) * (3 / 5 : ℝ) ^ 50 * Y = (3 / 5) ^ 50 * (Y - 1) := by field_simp
      rw [this]
      have h3 : (3 / 5 : ℝ) ^ 50 * 9 ≤ 1 / 10 ^ 10 := by norm_num
      have h4 : (3 / 5 : ℝ) ^ 50 * (Y - 1) ≤ (3 / 5) ^ 50 * 9 := mul_le_mul_of_nonneg_left (by linarith) (by positivity)
      linarith
    have hYz : Y * (1 + -D / c) ≤ 1 + 1 / 10 ^ 10 := by
      have := mul_le_mul_of_nonneg_right herr (by linarith : 0 ≤ Y)
      have h5 : (1 + -D / c - 1 / Y) * Y = Y * (1 + -D / c) - 1 := by field_simp
      linarith
    calc (1 - 1 / 10 ^ 10) * Y * (1 + -D / c) = (1 - 1 / 10 ^ 10) * (Y * (1 + -D / c)) := by ring
      _ ≤ (1 - 1 / 10 ^ 10) * (1 + 1 / 10 ^ 10) := mul_le_mul_of_nonneg_left hYz (by norm_num)
      _ ≤ 1 := by norm_num

end

end CloudForest
