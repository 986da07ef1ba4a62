import Verif.Spec.Rounding
import Verif.Lemmas.Impurity
import Mathlib.Tactic.Linarith
import Mathlib.Tactic.Ring
import Mathlib.Tactic.Positivity
import Mathlib.Tactic.NormNum
import Mathlib.Algebra.Order.Field.Power

/-! # Lemmas about rounding -/

set_option linter.unusedSectionVars false

namespace CloudForest
variable {K : Type} [Field K] [LinearOrder K] [IsStrictOrderedRing K]

theorem RoundsTo.le {rep : K → Prop} {r : K → XF K} (h : RoundsTo rep r) {x z : K} (hz : rep z) (hx : x ≤ z) :
    r x ≤ .fin z := by
  cases e : r x with
  | nan => exact absurd e (h.nan x)
  | pinf => exact absurd (h.pinf x e z hz) (not_lt.2 hx)
  | ninf => trivial
  | fin y =>
    rw [XF.fin_le]
    by_contra hy
    have := (h.fin x y e).2 z hz
    rw [abs_of_nonneg (by linarith), abs_of_nonneg (by linarith)] at this
    linarith

theorem RoundsTo.ge {rep : K → Prop} {r : K → XF K} (h : RoundsTo rep r) {x z : K} (hz : rep z) (hx : z ≤ x) :
    XF.fin z ≤ r x := by
  cases e : r x with
  | nan => exact absurd e (h.nan x)
  | pinf => trivial
  | ninf => exact absurd (h.ninf x e z hz) (not_lt.2 hx)
  | fin y =>
    rw [XF.fin_le]
    by_contra hy
    have := (h.fin x y e).2 z hz
    rw [abs_of_nonpos (by linarith), abs_of_nonpos (by linarith)] at this
    linarith

theorem RoundsTo.between {rep : K → Prop} {r : K → XF K} (h : RoundsTo rep r) {x a b : K} (ha : rep a) (hb : rep b)
    (hax : a ≤ x) (hxb : x ≤ b) : ∃ y, r x = .fin y ∧ a ≤ y ∧ y ≤ b := by
  have h1 := h.ge ha hax
  have h2 := h.le hb hxb
  cases e : r x with
  | nan => exact absurd e (h.nan x)
  | pinf => rw [e] at h2; exact absurd h2 id
  | ninf => rw [e] at h1; exact absurd h1 id
  | fin y =>
    rw [e, XF.fin_le] at h1 h2
    exact ⟨y, rfl, h1, h2⟩

theorem RoundsTo.self {rep : K → Prop} {r : K → XF K} (h : RoundsTo rep r) {x : K} (hx : rep x) : r x = .fin x := by
  obtain ⟨y, e, h1, h2⟩ := h.between hx hx le_rfl le_rfl
  rw [e, le_antisymm h2 h1]

/-- A threshold lies between the two values, or on one of them. -/
theorem midpoint_between {rep : K → Prop} {r : K → XF K} (h : RoundsTo rep r) {a b : K} (ha : rep a) (hb : rep b)
    (ha2 : rep (2 * a)) (hb2 : rep (2 * b)) (hab : a ≤ b) :
    ∃ t, XF.midpoint r (.fin a) (.fin b) = .fin t ∧ a ≤ t ∧ t ≤ b := by
  obtain ⟨s, e, h1, h2⟩ := h.between ha2 hb2 (x := a + b) (by linarith) (by linarith)
  obtain ⟨t, e', h3, h4⟩ := h.between ha hb (x := s / 2) (by linarith) (by linarith)
  refine ⟨t, ?_, h3, h4⟩
  unfold XF.midpoint
  rw [XF.fin_add]
  simp only [XF.rounded, e]
  rw [XF.fin_div _ (by norm_num)]
  exact e'

/-! ## Double precision -/

theorem roundEven_near (y : ℚ) (m : ℤ) : |(roundEven y : ℚ) - y| ≤ |(m : ℚ) - y| := by
  have h1 : ((⌊y⌋ : ℤ) : ℚ) ≤ y := Int.floor_le y
  have h2 : y < (⌊y⌋ : ℤ) + 1 := Int.lt_floor_add_one y
  have hm : (m : ℚ) ≤ (⌊y⌋ : ℤ) ∨ ((⌊y⌋ : ℤ) : ℚ) + 1 ≤ m := by
    rcases le_or_gt m ⌊y⌋ with h | h
    · exact .inl (by exact_mod_cast h)
    · exact .inr (by exact_mod_cast h)
  have hlow : ∀ d : ℚ, d = ((⌊y⌋ : ℤ) : ℚ) → y - d ≤ 1 / 2 → |d - y| ≤ |(m : ℚ) - y| := by
    intro d hd hle
    subst hd
    rw [abs_of_nonpos (by linarith)]
    rcases hm with h | h
    · rw [abs_of_nonpos (by linarith)]; linarith
    · rw [abs_of_nonneg (by linarith)]; linarith
  have hhigh : ∀ d : ℚ, d = ((⌊y⌋ : ℤ) : ℚ) + 1 → 1 / 2 ≤ y - (⌊y⌋ : ℤ) → |d - y| ≤ |(m : ℚ) - y| := by
    intro d hd hle
    subst hd
    rw [abs_of_nonneg (by linarith)]
    rcases hm with h | h
    · rw [abs_of_nonpos (by linarith)]; linarith
    · rw [abs_of_nonneg (by linarith)]; linarith
  unfold roundEven
  simp only
  split_ifs with h3 h4 h5
  · exact hlow _ rfl h3.le
  · exact hhigh _ (by push_cast; rfl) h4.le
  · exact hlow _ rfl (not_lt.1 h4)
  · exact hhigh _ (by push_cast; rfl) (not_lt.1 h3)

theorem exponent_spec {x : ℚ} (hx : 0 < x) : (2 : ℚ) ^ F64.exponent x ≤ x ∧ x < 2 ^ (F64.exponent x + 1) := by
  have hn : 0 < x.num := Rat.num_pos.2 hx
  have hn' : x.num.natAbs ≠ 0 := by omega
  have hd' : x.den ≠ 0 := x.den_nz
  have hnum : (x.num : ℚ) = (x.num.natAbs : ℚ) := by
    rw [← Int.cast_natCast, Int.natAbs_of_nonneg hn.le]
  have hxe : x = (x.num.natAbs : ℚ) / x.den := by
    rw [← hnum]; exact (Rat.num_div_den x).symm
  set p := Nat.log2 x.num.natAbs with hp
  set q := Nat.log2 x.den with hq
  have hp1 : (2 : ℚ) ^ p ≤ x.num.natAbs := by exact_mod_cast Nat.log2_self_le hn'
  have hp2 : (x.num.natAbs : ℚ) < 2 ^ (p + 1) := by exact_mod_cast Nat.lt_log2_self
  have hq1 : (2 : ℚ) ^ q ≤ x.den := by exact_mod_cast Nat.log2_self_le hd'
  have hq2 : (x.den : ℚ) < 2 ^ (q + 1) := by exact_mod_cast Nat.lt_log2_self
  have hden : (0 : ℚ) < x.den := by exact_mod_cast Nat.pos_of_ne_zero hd'
  have hup : x < 2 ^ ((p : ℤ) - q + 1) := by
    rw [hxe, div_lt_iff₀ hden]
    calc (x.num.natAbs : ℚ) < 2 ^ (p + 1) := hp2
      _ = 2 ^ ((p : ℤ) - q + 1) * 2 ^ q := by
        rw [← zpow_natCast, ← zpow_natCast, ← zpow_add₀ (by norm_num)]
        congr 1; push_cast; ring
      _ ≤ 2 ^ ((p : ℤ) - q + 1) * x.den := by
        apply mul_le_mul_of_nonneg_left hq1; positivity
  have hlow : (2 : ℚ) ^ ((p : ℤ) - q - 1) ≤ x := by
    rw [hxe, le_div_iff₀ hden]
    calc (2 : ℚ) ^ ((p : ℤ) - q - 1) * x.den ≤ 2 ^ ((p : ℤ) - q - 1) * 2 ^ (q + 1) := by
          apply mul_le_mul_of_nonneg_left hq2.le; positivity
      _ = 2 ^ p := by
        rw [← zpow_natCast (2 : ℚ) p, ← zpow_natCast, ← zpow_add₀ (by norm_num)]
        congr 1; push_cast; ring
      _ ≤ _ := hp1
  unfold F64.exponent
  simp only [← hp, ← hq]
  split_ifs with h
  · exact ⟨h, hup⟩
  · refine ⟨hlow, ?_⟩
    rw [sub_add_cancel]
    exact not_le.1 h

/-- The numbers of double precision, and all larger ones of as many bits. -/
def Big64 (y : ℚ) : Prop := ∃ n e : ℤ, |n| ≤ 2 ^ 53 ∧ -1074 ≤ e ∧ y = n * 2 ^ e

theorem nearest_spec (x : ℚ) : Big64 (F64.nearest x) ∧ ∀ z, Big64 z → |F64.nearest x - x| ≤ |z - x| := by
  unfold F64.nearest
  split_ifs with h0
  · subst h0
    exact ⟨⟨0, 0, by norm_num, by norm_num, by norm_num⟩, fun z _ => by simp⟩
  have hpos : 0 < |x| := abs_pos.2 h0
  obtain ⟨he1, he2⟩ := exponent_spec hpos
  set e0 := F64.exponent |x| with he0
  set e := max (e0 - 52) (-1074) with he
  have hu : (0 : ℚ) < 2 ^ e := by positivity
  -- multiples of the last place
  have hmul : ∀ m : ℤ, |(roundEven (x / 2 ^ e) : ℚ) * 2 ^ e - x| ≤ |(m : ℚ) * 2 ^ e - x| := by
    intro m
    have h := roundEven_near (x / 2 ^ e) m
    have h1 : ∀ k : ℚ, k * 2 ^ e - x = (k - x / 2 ^ e) * 2 ^ e := by
      intro k; field_simp
    rw [h1, h1, abs_mul, abs_mul, abs_of_pos hu]
    exact mul_le_mul_of_nonneg_right h hu.le
  have hbound : |x| ≤ 2 ^ 53 * 2 ^ e := by
    rw [← zpow_natCast (2 : ℚ) 53, ← zpow_add₀ (by norm_num)]
    refine he2.le.trans (zpow_le_zpow_right₀ (by norm_num) ?_)
    have := le_max_left (e0 - 52) (-1074)
    push_cast; omega
  have hrange : |roundEven (x / 2 ^ e)| ≤ 2 ^ 53 := by
    have h1 : |x / 2 ^ e| ≤ 2 ^ 53 := by
      rw [abs_div, abs_of_pos hu, div_le_iff₀ hu]; exact hbound
    rw [abs_le] at h1 ⊢
    constructor
    · by_contra hlt
      have hlt' : (roundEven (x / 2 ^ e) : ℚ) ≤ -2 ^ 53 - 1 := by
        have : roundEven (x / 2 ^ e) ≤ -2 ^ 53 - 1 := by omega
        exact_mod_cast this
      have := roundEven_near (x / 2 ^ e) (-2 ^ 53)
      push_cast at this
      rw [abs_of_nonpos (by linarith), abs_of_nonpos (by linarith)] at this
      linarith
    · by_contra hlt
      have hlt' : (2 : ℚ) ^ 53 + 1 ≤ (roundEven (x / 2 ^ e) : ℚ) := by
        have : 2 ^ 53 + 1 ≤ roundEven (x / 2 ^ e) := by omega
        exact_mod_cast this
      have := roundEven_near (x / 2 ^ e) (2 ^ 53)
      push_cast at this
      rw [abs_of_nonneg (by linarith), abs_of_nonneg (by linarith)] at this
      linarith
  refine ⟨⟨_, e, hrange, le_max_right _ _, rfl⟩, ?_⟩
  rintro z ⟨m, f, hm, hf, rfl⟩
  by_cases hfe : e ≤ f
  · -- a multiple of the last place
    have : (m : ℚ) * 2 ^ f = ((m * 2 ^ (f - e).toNat : ℤ) : ℚ) * 2 ^ e := by
      push_cast
      rw [mul_assoc, ← zpow_natCast (2 : ℚ), ← zpow_add₀ (by norm_num), Int.toNat_of_nonneg (by omega)]
      congr 2; ring
    rw [this]
    exact hmul _
  · -- smaller than the power of two below
    have hee : e = e0 - 52 := by
      rcases max_choice (e0 - 52) (-1074) with h | h
      · exact h
      · rw [← he] at h; omega
    have hB : (2 : ℚ) ^ e0 = ((2 ^ 52 : ℤ) : ℚ) * 2 ^ e := by
      rw [Int.cast_pow, Int.cast_ofNat, ← zpow_natCast (2 : ℚ) 52, ← zpow_add₀ (by norm_num), hee]
      congr 1; push_cast; ring
    have hz : |(m : ℚ) * 2 ^ f| ≤ 2 ^ e0 := by
      rw [abs_mul, abs_of_pos (show (0 : ℚ) < 2 ^ f by positivity)]
      calc |(m : ℚ)| * 2 ^ f ≤ 2 ^ 53 * 2 ^ f := by
            apply mul_le_mul_of_nonneg_right _ (by positivity)
            have : ((|m| : ℤ) : ℚ) ≤ ((2 ^ 53 : ℤ) : ℚ) := by exact_mod_cast hm
            push_cast at this
            exact this
        _ = 2 ^ ((53 : ℤ) + f) := by rw [zpow_add₀ (by norm_num)]; norm_num
        _ ≤ 2 ^ e0 := zpow_le_zpow_right₀ (by norm_num) (by omega)
    rcases lt_or_gt_of_ne h0 with hneg | hp
    · rw [abs_of_neg hneg] at he1
      have h1 := hmul (-2 ^ 52)
      have h2 : ((-2 ^ 52 : ℤ) : ℚ) * 2 ^ e = -2 ^ e0 := by rw [hB]; push_cast; ring
      rw [h2] at h1
      refine h1.trans ?_
      have := (abs_le.1 hz).1
      rw [abs_of_nonneg (by linarith), abs_of_nonneg (by linarith)]
      linarith
    · rw [abs_of_pos hp] at he1
      have h1 := hmul (2 ^ 52)
      rw [← hB] at h1
      refine h1.trans ?_
      have := (abs_le.1 hz).2
      rw [abs_of_nonpos (by linarith), abs_of_nonpos (by linarith)]
      linarith

/-- Go's `float64` rounds to nearest. -/
theorem F64.rounds : RoundsTo Rep64 F64.round := by
  have hbig : ∀ {z}, Rep64 z → Big64 z := fun ⟨n, e, h1, h2, h3, _⟩ => ⟨n, e, h1, h2, h3⟩
  have hlt : ∀ {z}, Rep64 z → |z| < 2 ^ 1024 := fun ⟨n, e, _, _, _, h4⟩ => h4
  constructor
  · intro x y h
    unfold F64.round at h
    simp only at h
    split_ifs at h with h1 h2
    cases h
    obtain ⟨⟨n, e, h3, h4, h5⟩, h6⟩ := nearest_spec x
    refine ⟨⟨n, e, h3, h4, h5, ?_⟩, fun z hz => h6 z (hbig hz)⟩
    rw [abs_lt]
    exact ⟨not_le.1 h2, not_le.1 h1⟩
  · intro x h z hz
    unfold F64.round at h
    simp only at h
    split_ifs at h with h1 h2
    have h3 := (nearest_spec x).2 z (hbig hz)
    have h4 := (abs_lt.1 (hlt hz)).2
    by_contra hx
    rw [abs_of_nonneg (show 0 ≤ z - x by linarith), abs_of_nonneg (by linarith)] at h3
    linarith
  · intro x h z hz
    unfold F64.round at h
    simp only at h
    split_ifs at h with h1 h2
    have h3 := (nearest_spec x).2 z (hbig hz)
    have h4 := (abs_lt.1 (hlt hz)).1
    by_contra hx
    rw [abs_of_nonpos (show z - x ≤ 0 by linarith), abs_of_nonpos (by linarith)] at h3
    linarith
  · intro x h
    unfold F64.round at h
    simp only at h
    split_ifs at h

end CloudForest
