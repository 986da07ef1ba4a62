import Verif.Model.Feature

/-!
# Training error
-/

namespace CloudForest
variable {K : Type} [Field K] [LinearOrder K] [IsStrictOrderedRing K]

/-- The sum of squared errors of predictions `p` for `n` cases with targets `y`. -/
def squaredError (n : Nat) (y p : Nat → K) : K := ((List.range n).map fun i => (y i - p i) ^ 2).sum

end CloudForest
