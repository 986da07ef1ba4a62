import Verif.Spec.Commands
import Verif.Model.CostCommand

/-!
# What misclassification costs, by the names of classes
-/

namespace CloudForest
variable {K : Type} [Field K] [LinearOrder K] [IsStrictOrderedRing K]

/-- What it costs to predict `p` for the listed cases, if to misclassify a case of class `s` costs `cost s`. -/
def CatFeature.costByName (f : CatFeature) (cost : String → K) (cases : List Nat) (p : String) : K :=
  (cases.map fun c => match f.getStr c with
    | some s => if s = p then 0 else cost s
    | none => 0).sum

/-- `p` is a class of the target, and to predict it for the listed cases costs least. -/
def CatFeature.Cheapest (f : CatFeature) (cost : String → K) (cases : List Nat) (p : String) : Prop :=
  p ∈ f.cm.back ∧ ∀ q, f.costByName cost cases p ≤ f.costByName cost cases q

/-- The options that the user gives: `-cost` and `-rfweights` with numbers that are not negative, where a class that is not listed
counts nothing; `-NP` with a class of the data and a positive constraint, by which its cases count more. -/
inductive Weighing.Asks (f : CatFeature) : Weighing K → (String → K) → Prop
  | cost (given : String → Option K) (h : ∀ s x, given s = some x → 0 ≤ x) :
      Weighing.Asks f (.cost fun s => (given s).map .fin) fun s => (given s).getD 0
  | weights (given : String → Option K) (h : ∀ s x, given s = some x → 0 ≤ x) :
      Weighing.Asks f (.weights fun s => (given s).map .fin) fun s => (given s).getD 0
  | np (pos : String) (alpha : K) (kappa : XF K) (hpos : pos ∈ f.cm.back) (ha : 0 < alpha) :
      Weighing.Asks f (.np pos (.fin alpha) kappa) fun s => if s = pos then 1 / alpha else 1

end CloudForest
