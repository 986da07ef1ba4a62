import Verif.Spec.Rounding
import Verif.Model.RoundedTarget

/-!
# Sums in rounded arithmetic
-/

namespace CloudForest

/-- The values of the listed cases are numbers of double precision. -/
def NumFeature.Doubles (f : NumFeature ℚ) (cs : List Nat) : Prop :=
  ∀ c ∈ cs, ∃ x, f.numData[c]? = some (.fin x) ∧ Rep64 x

/-- The values of the listed cases are whole numbers over 2ᵏ, and the number of cases times the sum of the squares of
those whole numbers is at most 2⁵³. -/
def NumFeature.SmallNumbers (f : NumFeature ℚ) (k : Nat) (cs : List Nat) : Prop :=
  ∃ n : Nat → ℤ, (∀ c ∈ cs, f.numData[c]? = some (.fin (n c / 2 ^ k))) ∧
    cs.length * (cs.map fun c => n c ^ 2).sum ≤ 2 ^ 53

/-- The values of the listed cases are whole numbers over 2ᵏ, the whole numbers between `-A` and `A`. -/
def NumFeature.WholeOver (f : NumFeature ℚ) (k A : Nat) (cs : List Nat) : Prop :=
  ∀ c ∈ cs, ∃ m : ℤ, f.numData[c]? = some (.fin (m / 2 ^ k)) ∧ |m| ≤ A

/-- The search through a list of cases, judged by a rounded target: at the first cut `i` the impurity is computed anew,
at every later one from the sums of the one before and the cases between the two. -/
def NumFeature.scan (r : ℚ → XF ℚ) (f : NumFeature ℚ) (cs : List Nat) : Nat → List Nat → XF ℚ × Allocs ℚ →
    Option (XF ℚ × Allocs ℚ)
  | _, [], s => some s
  | i, j :: js, s =>
    match f.updateSImpR r s.2 (cs.take j) (cs.drop j) none ((cs.take j).drop i) with
    | none => none
    | some s => f.scan r cs j js s

end CloudForest
