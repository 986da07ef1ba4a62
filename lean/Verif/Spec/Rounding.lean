import Verif.Model.Rounding
import Verif.Spec.Search

/-!
# Rounded numbers
-/

namespace CloudForest
variable {K : Type} [Field K] [LinearOrder K] [IsStrictOrderedRing K]

/-- `r` rounds to the nearest of the numbers `rep`, or to an infinity if the number is beyond them. -/
structure RoundsTo (rep : K → Prop) (r : K → XF K) : Prop where
  fin : ∀ x y, r x = .fin y → rep y ∧ ∀ z, rep z → |y - x| ≤ |z - x|
  pinf : ∀ x, r x = .pinf → ∀ z, rep z → z < x
  ninf : ∀ x, r x = .ninf → ∀ z, rep z → x < z
  nan : ∀ x, r x ≠ .nan

/-- The numbers of double precision (IEEE 754 binary64). -/
def Rep64 (y : ℚ) : Prop := ∃ n e : ℤ, |n| ≤ 2 ^ 53 ∧ -1074 ≤ e ∧ y = n * 2 ^ e ∧ |y| < 2 ^ 1024

/-- No two values that differ are taken for equal by the search. -/
def NumFeature.NoRoundedTies (f : NumFeature K) (r : K → XF K) (cut : XF K) (cs : List Nat) : Prop :=
  ∀ c ∈ cs, ∀ d ∈ cs, f.value c < f.value d → ¬ XF.fin (f.value d) ≤ XF.plusCut r (.fin (f.value c)) cut

/-- The values of the listed cases are multiples of 2⁻ᵏ less than 2⁵²⁻ᵏ. -/
def NumFeature.OnGrid (f : NumFeature ℚ) (k : Nat) (cs : List Nat) : Prop :=
  ∀ c ∈ cs, ∃ n : ℤ, |n| < 2 ^ 52 ∧ f.numData[c]? = some (.fin (n / 2 ^ k))

end CloudForest
