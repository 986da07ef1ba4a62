import Verif.Model.Options
import Mathlib.Algebra.Order.Archimedean.Basic
import Mathlib.Data.Rat.Floor
import Verif.Props.Sf

/-!
# C44: options that are numbers or fractions
-/

set_option linter.unusedSectionVars false

namespace CloudForest
variable {K : Type} [Field K] [LinearOrder K] [IsStrictOrderedRing K]

theorem digitOf_digit {c : Char} (h : c.isDigit = true) : digitOf c = some (c.toNat - 48) ∧ c.toNat - 48 < 10 := by
  rw [Char.isDigit, Bool.and_eq_true, decide_eq_true_iff, decide_eq_true_iff] at h
  have h1 : 48 ≤ c.toNat := h.1
  have h2 : c.toNat ≤ 57 := h.2
  unfold digitOf
  rw [if_pos ⟨h.1, h.2⟩]
  exact ⟨rfl, by omega⟩

theorem digitsIn_ten (s : Text) (h : ∀ c ∈ s, c.isDigit = true) (acc : Nat) :
    digitsIn 10 acc s = some (Nat.ofDigitChars 10 s acc) := by
  induction s generalizing acc with
  | nil => rfl
  | cons c s ih =>
    obtain ⟨h1, h2⟩ := digitOf_digit (h c (by simp))
    rw [digitsIn, h1]
    simp only
    rw [if_pos h2, ih fun d hd => h d (by simp [hd]), Nat.ofDigitChars_cons]
    congr 2
    show acc * 10 + (c.toNat - 48) = 10 * acc + (c.toNat - 48)
    omega

/-- A plain decimal number: digits, of which the first is not zero unless it is the only one. -/
def PlainDecimal (s : Text) : Prop := s ≠ [] ∧ (∀ c ∈ s, c.isDigit = true) ∧ (s.head? = some '0' → s = ['0'])

theorem parseUint0_plain {s : Text} (h : PlainDecimal s) : parseUint0 s = some (Nat.ofDigitChars 10 s 0) := by
  obtain ⟨h1, h2, h3⟩ := h
  unfold parseUint0
  split
  · exact absurd rfl h1
  · rename_i x c s
    have := h3 rfl
    simp at this
  · rename_i s hs
    have := h3 rfl
    injection this with _ e
    subst e
    rfl
  · exact digitsIn_ten s h2 0

/-- **C44**, integers: a plain decimal number of 63 bits is returned, with its sign. Partial: a leading zero is
not allowed, see `c44_octal`. -/
theorem c44_integer_partial [FloorRing K] (nt : NumText K) (s : Text) (total : Int) (h : PlainDecimal s)
    (hb : Nat.ofDigitChars 10 s 0 < 2 ^ 63) :
    parseAsIntOrFraction nt s total = some (Nat.ofDigitChars 10 s 0 : Int) ∧
      parseAsIntOrFraction nt ('-' :: s) total = some (-(Nat.ofDigitChars 10 s 0 : Int)) := by
  have hdot : '.' ∉ s := fun hm => absurd (h.2.1 _ hm) (by decide)
  constructor
  · unfold parseAsIntOrFraction
    rw [if_neg h.1, if_neg hdot]
    have : parseInt0 s = some (Nat.ofDigitChars 10 s 0 : Int) := by
      unfold parseInt0
      split
      · exact absurd (h.2.1 '+' (by simp)) (by decide)
      · exact absurd (h.2.1 '-' (by simp)) (by decide)
      · rw [parseUint0_plain h]
        simp only [Option.bind_eq_bind, Option.bind_some]
        rw [if_pos hb]
    rw [this]
  · unfold parseAsIntOrFraction
    rw [if_neg (by simp), if_neg (by simp [hdot])]
    have : parseInt0 ('-' :: s) = some (-(Nat.ofDigitChars 10 s 0 : Int)) := by
      unfold parseInt0
      simp only [parseUint0_plain h, Option.bind_eq_bind, Option.bind_some]
      rw [if_pos (by omega)]
    rw [this]

instance (s : Text) : Decidable (PlainDecimal s) := by unfold PlainDecimal; infer_instance

/-- Every number that is printed is plain. -/
theorem plainDecimal_fmtNat (n : Nat) : PlainDecimal (fmtNat n) := by
  refine ⟨Nat.toDigits_ne_nil, fun c hc => Nat.isDigit_of_mem_toDigits (by decide) (by decide) hc, ?_⟩
  intro h0
  unfold fmtNat at h0 ⊢
  by_cases hn : n < 10
  · have : n = 0 ∨ n = 1 ∨ n = 2 ∨ n = 3 ∨ n = 4 ∨ n = 5 ∨ n = 6 ∨ n = 7 ∨ n = 8 ∨ n = 9 := by omega
    rcases this with rfl | rfl | rfl | rfl | rfl | rfl | rfl | rfl | rfl | rfl <;> revert h0 <;> decide
  · exfalso
    have key : ∀ n : Nat, 0 < n → (Nat.toDigits 10 n).head? ≠ some '0' := by
      intro n
      induction n using Nat.strongRecOn with
      | _ n ih =>
        intro hpos
        by_cases hlt : n < 10
        · have : n = 1 ∨ n = 2 ∨ n = 3 ∨ n = 4 ∨ n = 5 ∨ n = 6 ∨ n = 7 ∨ n = 8 ∨ n = 9 := by omega
          rcases this with rfl | rfl | rfl | rfl | rfl | rfl | rfl | rfl | rfl <;> decide
        · rw [Nat.toDigits_of_base_le (by decide) (by omega), List.head?_append_of_ne_nil _ Nat.toDigits_ne_nil]
          exact ih (n / 10) (by omega) (by omega)
    exact key n (by omega) h0

example : PlainDecimal "120".toList ∧ Nat.ofDigitChars 10 "120".toList 0 < 2 ^ 63 ∧
    parseAsIntOrFraction exNums "120".toList 7 = some 120 ∧ parseAsIntOrFraction exNums "-120".toList 7 = some (-120) :=
  ⟨by decide +kernel, by decide +kernel, by decide +kernel, by decide +kernel⟩

/-- **C44**, range: an explicit plus sign changes nothing; a number that does not fit an `int` is an error
and gives zero. The least `int` fits. -/
theorem c44_range [FloorRing K] (nt : NumText K) (s : Text) (total : Int) (h : PlainDecimal s) :
    parseAsIntOrFraction nt s total =
        some (if Nat.ofDigitChars 10 s 0 < 2 ^ 63 then (Nat.ofDigitChars 10 s 0 : Int) else 0) ∧
      parseAsIntOrFraction nt ('+' :: s) total =
        some (if Nat.ofDigitChars 10 s 0 < 2 ^ 63 then (Nat.ofDigitChars 10 s 0 : Int) else 0) ∧
      parseAsIntOrFraction nt ('-' :: s) total =
        some (if Nat.ofDigitChars 10 s 0 ≤ 2 ^ 63 then -(Nat.ofDigitChars 10 s 0 : Int) else 0) := by
  have hdot : '.' ∉ s := fun hm => absurd (h.2.1 _ hm) (by decide)
  refine ⟨?_, ?_, ?_⟩
  · unfold parseAsIntOrFraction
    rw [if_neg h.1, if_neg hdot]
    have : parseInt0 s = if Nat.ofDigitChars 10 s 0 < 2 ^ 63 then some (Nat.ofDigitChars 10 s 0 : Int) else none := by
      unfold parseInt0
      split
      · exact absurd (h.2.1 '+' (by simp)) (by decide)
      · exact absurd (h.2.1 '-' (by simp)) (by decide)
      · rw [parseUint0_plain h]
        rfl
    rw [this]
    by_cases hb : Nat.ofDigitChars 10 s 0 < 2 ^ 63
    · simp only [if_pos hb]
    · simp only [if_neg hb]
  · unfold parseAsIntOrFraction
    rw [if_neg (by simp), if_neg (by simp [hdot])]
    unfold parseInt0
    simp only [parseUint0_plain h, Option.bind_eq_bind, Option.bind_some]
    by_cases hb : Nat.ofDigitChars 10 s 0 < 2 ^ 63
    · simp only [if_pos hb]
    · simp only [if_neg hb]
  · unfold parseAsIntOrFraction
    rw [if_neg (by simp), if_neg (by simp [hdot])]
    unfold parseInt0
    simp only [parseUint0_plain h, Option.bind_eq_bind, Option.bind_some]
    by_cases hb : Nat.ofDigitChars 10 s 0 ≤ 2 ^ 63
    · simp only [if_pos hb]
    · simp only [if_neg hb]

example : PlainDecimal "9223372036854775808".toList ∧
    parseAsIntOrFraction exNums "+9223372036854775807".toList 7 = some 9223372036854775807 ∧
    parseAsIntOrFraction exNums "+9223372036854775808".toList 7 = some 0 ∧
    parseAsIntOrFraction exNums "-9223372036854775808".toList 7 = some (-9223372036854775808) :=
  ⟨by decide +kernel, by decide +kernel, by decide +kernel, by decide +kernel⟩

/-- **C44** fails for numbers with leading zeros: they are read as octal, or as zero if that fails. -/
theorem c44_octal (nt : NumText ℚ) (total : Int) : parseAsIntOrFraction nt "010".toList total = some 8 ∧
    parseAsIntOrFraction nt "0100".toList total = some 64 ∧ parseAsIntOrFraction nt "09".toList total = some 0 :=
  ⟨rfl, rfl, rfl⟩

/-- **C44**, fractions: with a decimal point the result is the least integer that is not below fraction times
total; for a fraction from zero to one it lies between zero and the total. -/
theorem c44_fraction [FloorRing K] (nt : NumText K) (s : Text) (total : Int) (x : K) (hs : '.' ∈ s)
    (hx : nt.parse s = some (.fin x)) :
    ∃ n : Int, parseAsIntOrFraction nt s total = some n ∧ x * total ≤ (n : K) ∧
      (∀ m : Int, x * total ≤ (m : K) → n ≤ m) ∧ (0 ≤ x → x ≤ 1 → 0 ≤ total → 0 ≤ n ∧ n ≤ total) := by
  refine ⟨⌈x * (total : K)⌉, ?_, Int.le_ceil _, fun m hm => Int.ceil_le.2 hm, ?_⟩
  · unfold parseAsIntOrFraction
    rw [if_neg (List.ne_nil_of_mem hs), if_pos hs, hx]
  · intro h0 h1 ht
    have htK : (0 : K) ≤ (total : K) := Int.cast_nonneg ht
    refine ⟨Int.ceil_nonneg (mul_nonneg h0 htK), Int.ceil_le.2 ?_⟩
    calc x * (total : K) ≤ 1 * (total : K) := mul_le_mul_of_nonneg_right h1 htK
      _ = total := one_mul _

example : '.' ∈ "0.5".toList ∧ exNums.parse "0.5".toList = some (.fin (1/2)) ∧
    parseAsIntOrFraction exNums "0.5".toList 7 = some 4 :=
  ⟨by decide +kernel, by decide +kernel, by decide +kernel⟩

/-- **C44**: nothing, and what cannot be parsed, counts as zero. -/
theorem c44_error [FloorRing K] (nt : NumText K) (s : Text) (total : Int)
    (h : s = [] ∨ '.' ∈ s ∧ nt.parse s = none ∨ '.' ∉ s ∧ parseInt0 s = none) :
    parseAsIntOrFraction nt s total = some 0 := by
  unfold parseAsIntOrFraction
  rcases h with rfl | ⟨h1, h2⟩ | ⟨h1, h2⟩
  · rfl
  · rw [if_neg (List.ne_nil_of_mem h1), if_pos h1, h2]
  · by_cases hs : s = []
    · rw [if_pos hs]
    · rw [if_neg hs, if_neg h1, h2]

example : parseAsIntOrFraction exNums "sqrt".toList 7 = some 0 ∧ parseAsIntOrFraction exNums "0.x".toList 7 = some 0 :=
  ⟨by decide +kernel, by decide +kernel⟩

end CloudForest
