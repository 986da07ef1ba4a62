import Verif.Spec.Boost
import Mathlib.Analysis.SpecialFunctions.Trigonometric.DerivHyp
import Mathlib.Analysis.SpecialFunctions.Log.Deriv

/-!
# Gradient boosting for two classes: labels, probabilities, log likelihood
-/

namespace CloudForest
variable {K : Type} [Field K] [LinearOrder K] [IsStrictOrderedRing K]

/-- The labels of the first `n` cases of a class feature, none of which is missing. -/
def CatFeature.Labels (f : CatFeature) (n : Nat) (lab : Nat → String) : Prop :=
  ∀ i < n, f.missing[i]? = some false ∧ ∃ k, f.catData[i]? = some k ∧ f.cm.back[k]? = some (lab i)

/-- One for the positive class, zero for the others. -/
def hot (pos : String) (lab : Nat → String) (i : Nat) : K := if lab i = pos then 1 else 0

/-- The number of cases of the positive class. -/
def hotCount (pos : String) (lab : Nat → String) (n : Nat) : Nat := (List.range n).countP fun i => lab i = pos

/-- The hyperbolic tangent as `math.Tanh` has it. -/
noncomputable def realTanh : XF ℝ → XF ℝ
  | .nan => .nan
  | .pinf => .fin 1
  | .ninf => .fin (-1)
  | .fin x => .fin (Real.tanh x)

/-- The logistic function. -/
noncomputable def logistic (x : ℝ) : ℝ := 1 / (1 + Real.exp (-x))

/-- The logarithm of the likelihood of the labels `y` of some cases, if case `c` is positive with probability
`logistic (v c)`. -/
noncomputable def logLik (y v : Nat → ℝ) (cases : List Nat) : ℝ :=
  (cases.map fun c => y c * Real.log (logistic (v c)) + (1 - y c) * Real.log (1 - logistic (v c))).sum

end CloudForest
