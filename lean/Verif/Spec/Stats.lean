import Verif.Model.Stats
import Mathlib.Algebra.BigOperators.Group.List.Basic

/-!
# Sample statistics
-/

namespace CloudForest
variable {K : Type} [Field K] [LinearOrder K] [IsStrictOrderedRing K]

/-- The mean of a sample. -/
def sampleMean (xs : List K) : K := xs.sum / xs.length

/-- The unbiased sample variance. -/
def sampleVar (xs : List K) : K :=
  (xs.map fun x => (x - sampleMean xs) ^ 2).sum / ((xs.length : K) - 1)

/-- The squared standard error of a sample's mean. -/
def seSq (xs : List K) : K := sampleVar xs / xs.length

/-- Welch's degrees of freedom. -/
def welchDf (A B : List K) : K :=
  (seSq A + seSq B) ^ 2 / (seSq A ^ 2 / ((A.length : K) - 1) + seSq B ^ 2 / ((B.length : K) - 1))

end CloudForest
