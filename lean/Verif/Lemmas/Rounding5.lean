import Verif.Lemmas.RoundedGini

/-!
# Rounding is monotone, and powers of two pass through it
-/

set_option linter.unusedSectionVars false

namespace CloudForest
variable {K : Type} [Field K] [LinearOrder K] [IsStrictOrderedRing K]

theorem RoundsTo.mono {rep : K → Prop} {r : K → XF K} (h : RoundsTo rep r) {x x' y y' : K} (hx : x ≤ x') (e : r x = .fin y)
    (e' : r x' = .fin y') : y ≤ y' := by
  by_contra hlt
  push Not at hlt
  rcases hx.eq_or_lt with rfl | hx
  · rw [e] at e'
    cases e'
    exact lt_irrefl _ hlt
  · obtain ⟨r1, n1⟩ := h.fin x y e
    obtain ⟨r2, n2⟩ := h.fin x' y' e'
    have a := n1 y' r2
    have b := n2 y r1
    rcases le_total x y with h1 | h1
    · rw [abs_of_nonneg (by linarith)] at a
      rcases le_total x y' with h2 | h2
      · rw [abs_of_nonneg (by linarith)] at a
        linarith
      · rw [abs_of_nonpos (by linarith)] at a
        rcases le_total x' y with h3 | h3
        · rw [abs_of_nonpos (by linarith), abs_of_nonneg (by linarith)] at b
          linarith
        · rw [abs_of_nonpos (by linarith), abs_of_nonpos (by linarith)] at b
          linarith
    · rw [abs_of_nonpos (by linarith), abs_of_nonpos (by linarith)] at b
      linarith

theorem exponent_unique {x : ℚ} {e : ℤ} (h1 : (2 : ℚ) ^ e ≤ x) (h2 : x < 2 ^ (e + 1)) : F64.exponent x = e := by
  have hx : 0 < x := lt_of_lt_of_le (zpow_pos (by norm_num) _) h1
  obtain ⟨a, b⟩ := exponent_spec hx
  have c1 := (zpow_lt_zpow_iff_right₀ (by norm_num : (1 : ℚ) < 2)).1 (lt_of_le_of_lt a h2)
  have c2 := (zpow_lt_zpow_iff_right₀ (by norm_num : (1 : ℚ) < 2)).1 (lt_of_le_of_lt h1 b)
  omega

/-- Division by a power of two loses nothing, unless the result is very small. -/
theorem nearest_scale {x : ℚ} {k : Nat} (hx : 1 / 2 ^ 1022 ≤ |x| / 2 ^ k) : F64.nearest (x / 2 ^ k) = F64.nearest x / 2 ^ k := by
  have h2k : (0 : ℚ) < 2 ^ k := by positivity
  have hpos : (0 : ℚ) < |x| / 2 ^ k := lt_of_lt_of_le (by positivity) hx
  have hx0 : 0 < |x| := by
    rcases (abs_nonneg x).eq_or_lt with h | h
    · rw [← h] at hpos
      simp at hpos
    · exact h
  have hne : x ≠ 0 := abs_pos.1 hx0
  have hne' : x / 2 ^ k ≠ 0 := div_ne_zero hne h2k.ne'
  obtain ⟨a, b⟩ := exponent_spec hx0
  obtain ⟨e, he⟩ : ∃ e, e = F64.exponent |x| := ⟨_, rfl⟩
  rw [← he] at a b
  have habs : |x / 2 ^ k| = |x| / 2 ^ k := by rw [abs_div, abs_of_pos h2k]
  have hexp : F64.exponent (|x| / 2 ^ k) = e - k := by
    apply exponent_unique
    · rw [zpow_sub₀ (by norm_num), zpow_natCast]
      exact div_le_div_of_nonneg_right a h2k.le
    · rw [show e - (k : ℤ) + 1 = (e + 1) - k by ring, zpow_sub₀ (by norm_num), zpow_natCast]
      exact div_lt_div_of_pos_right b h2k
  have hlow : -1022 ≤ e - k := by
    obtain ⟨a', b'⟩ := exponent_spec hpos
    rw [hexp] at b'
    have h3 : (2 : ℚ) ^ (-1022 : ℤ) < 2 ^ (e - k + 1) := by
      refine lt_of_le_of_lt ?_ b'
      rw [zpow_neg, ← one_div]
      exact_mod_cast hx
    have := (zpow_lt_zpow_iff_right₀ (by norm_num : (1 : ℚ) < 2)).1 h3
    omega
  unfold F64.nearest
  rw [if_neg hne, if_neg hne', habs, hexp, ← he]
  simp only
  rw [max_eq_left (by omega), max_eq_left (by omega)]
  have e1 : (2 : ℚ) ^ (e - k - 52) = 2 ^ (e - 52) / 2 ^ k := by
    rw [show e - (k : ℤ) - 52 = (e - 52) - k by ring, zpow_sub₀ (by norm_num), zpow_natCast]
  have h2e : (2 : ℚ) ^ (e - 52) ≠ 0 := (zpow_pos (by norm_num) _).ne'
  rw [e1, show x / 2 ^ k / (2 ^ (e - 52) / 2 ^ k) = x / 2 ^ (e - 52) by field_simp]
  ring

/-- A multiple of a power of two is rounded to one. -/
theorem nearest_multiple {x : ℚ} {k : Nat} {m : ℤ} (hx : x = m / 2 ^ k) : ∃ m' : ℤ, F64.nearest x = m' / 2 ^ k := by
  unfold F64.nearest
  by_cases h0 : x = 0
  · exact ⟨0, by rw [if_pos h0]; simp⟩
  rw [if_neg h0]
  simp only
  obtain ⟨e, he⟩ : ∃ e, e = max (F64.exponent |x| - 52) (-1074) := ⟨_, rfl⟩
  rw [← he]
  have h2k : (2 : ℚ) ^ k ≠ 0 := by positivity
  by_cases hek : -(k : ℤ) ≤ e
  · obtain ⟨j, hj⟩ : ∃ j : Nat, e = j - k := ⟨(e + k).toNat, by omega⟩
    refine ⟨roundEven (x / 2 ^ e) * 2 ^ j, ?_⟩
    rw [hj, zpow_sub₀ (by norm_num), zpow_natCast, zpow_natCast]
    push_cast
    ring
  · refine ⟨m, ?_⟩
    have hint : x / 2 ^ e = ((m * 2 ^ (-(k : ℤ) - e).toNat : ℤ) : ℚ) := by
      obtain ⟨j, hj⟩ : ∃ j : Nat, -(k : ℤ) - e = j := ⟨(-(k : ℤ) - e).toNat, by omega⟩
      rw [show e = -(k : ℤ) - j by omega, zpow_sub₀ (by norm_num), zpow_neg, zpow_natCast, zpow_natCast, hx]
      have : (-(k : ℤ) - (-(k : ℤ) - j)).toNat = j := by omega
      rw [this]
      push_cast
      field_simp
    have hr : (roundEven (x / 2 ^ e) : ℚ) = x / 2 ^ e := by
      have := roundEven_near (x / 2 ^ e) (m * 2 ^ (-(k : ℤ) - e).toNat)
      rw [← hint, sub_self, abs_zero] at this
      exact sub_eq_zero.1 (abs_eq_zero.1 (le_antisymm this (abs_nonneg _)))
    rw [hr, div_mul_cancel₀ _ (zpow_pos (by norm_num) _).ne', hx]

/-- Doubles of some size are multiples of a power of two. -/
theorem Rep64.coarse {a : ℚ} (h : Rep64 a) {k : Nat} (hk : 1 / 2 ^ k ≤ |a|) : ∃ m : ℤ, a = m / 2 ^ (k + 53) := by
  obtain ⟨n, e, hn, -, rfl, -⟩ := h
  have h1 : (1 : ℚ) / 2 ^ k ≤ 2 ^ 53 * 2 ^ e := by
    refine hk.trans ?_
    rw [abs_mul, abs_of_pos (zpow_pos (by norm_num : (0 : ℚ) < 2) e)]
    exact mul_le_mul_of_nonneg_right (by exact_mod_cast hn) (zpow_pos (by norm_num) _).le
  have h2 : (2 : ℚ) ^ (-(k : ℤ)) ≤ 2 ^ (53 + e) := by
    rw [zpow_neg, ← one_div, zpow_natCast, zpow_add₀ (by norm_num)]
    exact_mod_cast h1
  have h3 := (zpow_le_zpow_iff_right₀ (by norm_num : (1 : ℚ) < 2)).1 h2
  obtain ⟨j, hj⟩ : ∃ j : Nat, e = j - ((k + 53 : Nat) : ℤ) := ⟨(e + (k + 53 : Nat)).toNat, by push_cast; omega⟩
  refine ⟨n * 2 ^ j, ?_⟩
  rw [hj, zpow_sub₀ (by norm_num), zpow_natCast, zpow_natCast]
  push_cast
  ring

end CloudForest
