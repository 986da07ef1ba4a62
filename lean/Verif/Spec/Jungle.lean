import Verif.Spec.Target
import Verif.Model.Jungle

/-!
# What a jungle is to be
-/

namespace CloudForest
variable {K : Type} [Field K] [LinearOrder K] [IsStrictOrderedRing K]

/-- The target's impurity is finite and no division into two non-empty sides increases it. -/
def TargetLaws.NeverWorse {T : Target K} {cases : List Nat} (L : TargetLaws T cases) : Prop :=
  ∀ l r, l ≠ [] → r ≠ [] → (∀ c ∈ l ++ r, c ∈ cases) →
    ∃ x y : K, L.S l r = .fin x ∧ L.I (l ++ r) = .fin y ∧ x ≤ y

/-- The addresses a node holds. -/
def JNode.kids (n : JNode K) : List Nat := n.left.toList ++ n.right.toList ++ n.missing.toList

/-- How many times nodes point to an address. -/
def pointersTo (A : List (JNode K)) (i : Nat) : Nat := (A.flatMap JNode.kids).count i

end CloudForest
