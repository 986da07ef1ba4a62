import Verif.Spec.Target

/-!
# Squared errors and squared differences
-/

namespace CloudForest
variable {K : Type} [Field K] [LinearOrder K] [IsStrictOrderedRing K]

/-- The squared differences of all (ordered) pairs of the listed cases, added up. -/
def NumFeature.pairSquares (f : NumFeature K) (cs : List Nat) : K :=
  (cs.map fun c => (cs.map fun d => (f.value c - f.value d) ^ 2).sum).sum

/-- The squared error of predicting for either side its mean. -/
def NumFeature.squaredError (f : NumFeature K) (l r : List Nat) : K := f.sse l + f.sse r

end CloudForest
