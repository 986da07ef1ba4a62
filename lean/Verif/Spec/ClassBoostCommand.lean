import Verif.Spec.BoostCommand
import Verif.Spec.ClassBoost

/-!
# What a forest that boosts two classes should answer
-/

namespace CloudForest
variable {K : Type} [Field K] [LinearOrder K] [IsStrictOrderedRing K]

/-- The probability for log odds `x`. For `T` the hyperbolic tangent this is the logistic function. -/
def probabilityOf (T : K → K) (x : K) : K := (1 + T (x / 2)) / 2

/-- Newton's step for the likelihood of labels `y` where the probabilities are `p`. -/
def newtonStep (y p : Nat → K) (S : List Nat) : K :=
  (S.map fun d => y d - p d).sum / (S.map fun d => p d * (1 - p d)).sum

end CloudForest
