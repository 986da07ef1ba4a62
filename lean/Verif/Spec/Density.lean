import Verif.Spec.Regression
import Verif.Model.Density
import Mathlib.Data.Finset.Card
import Mathlib.Data.Finset.Lattice.Basic
import Mathlib.Data.Finset.Range

/-!
# Density: how far values spread
-/

namespace CloudForest
variable {K : Type} [Field K] [LinearOrder K] [IsStrictOrderedRing K]

/-- The categories of some cases. -/
def CatFeature.catsOf (f : CatFeature) (cases : List Nat) : Finset Nat :=
  (cases.map fun c => (f.catData[c]?).getD 0).toFinset

/-- The number of different categories among the known cases. -/
def CatFeature.distinct (f : CatFeature) (cases : List Nat) : Nat := (f.catsOf (knownOf f.missing cases)).card

/-- Whether a feature is categorical. -/
def Feature.isCat : Feature K → Bool
  | .cat _ => true
  | .num _ => false

/-- The number of different known categories of a categorical feature, one for a numerical one. -/
def Feature.spread (cases : List Nat) : Feature K → Nat
  | .cat f => f.distinct cases
  | .num _ => 1

/-- The cases are cases of the feature, and their known values are numbers or categories. -/
def Feature.Fits (cases : List Nat) : Feature K → Prop
  | .cat f => (∀ c ∈ cases, c < f.missing.length) ∧ f.InRange f.cm.nCats (knownOf f.missing cases)
  | .num f => (∀ c ∈ cases, c < f.missing.length) ∧ f.Finite (knownOf f.missing cases)

end CloudForest
