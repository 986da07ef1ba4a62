import Verif.Model.Targets
import Verif.Spec.Target
import Verif.Spec.Values
import Verif.Spec.Search
import Mathlib.Analysis.SpecialFunctions.Log.Basic
import Mathlib.Analysis.SpecialFunctions.Sqrt

/-!
# What the other targets measure and predict
-/

namespace CloudForest
variable {K : Type} [Field K] [LinearOrder K] [IsStrictOrderedRing K]

/-- Shannon entropy (natural logarithm) of the class fractions; the logarithm of zero is zero here, so absent classes
contribute nothing. -/
noncomputable def CatFeature.entropy (f : CatFeature) (n : Nat) (cases : List Nat) : ℝ :=
  -((List.range n).map fun k => (f.catCount cases k : ℝ) / cases.length *
    Real.log ((f.catCount cases k : ℝ) / cases.length)).sum

/-- The natural logarithm with Go's values at the infinities, zero and negative numbers (`math.Log`). -/
noncomputable def realLog : XF ℝ → XF ℝ
  | .nan => .nan
  | .pinf => .pinf
  | .ninf => .nan
  | .fin x => if 0 < x then .fin (Real.log x) else if x = 0 then .ninf else .nan

/-- The weight of the listed cases of category `k` if cases of category `k` weigh `w k`. -/
def CatFeature.weightOf (f : CatFeature) (w : Nat → K) (cases : List Nat) (k : Nat) : K :=
  ((cases.filter fun c => f.catData[c]? == some k).map fun _ => w k).sum

/-- The total cost of predicting `p` for the listed cases if misclassifying a case of category `k` costs `w k`. -/
def CatFeature.costOf (f : CatFeature) (w : Nat → K) (cases : List Nat) (p : Nat) : K :=
  (cases.map fun c => if f.cat c = p then 0 else w (f.cat c)).sum

/-- The weighted Gini impurity by its definition: one minus the sum of squared fractions of the weight. -/
def CatFeature.weightedGini (f : CatFeature) (n : Nat) (w : Nat → K) (cases : List Nat) : K :=
  1 - ((List.range n).map fun k => (f.weightOf w cases k / (cases.map fun c => w (f.cat c)).sum) ^ 2).sum

end CloudForest
