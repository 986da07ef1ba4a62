import Verif.Spec.Density
import Verif.Model.Search

/-!
# Density estimating trees, as in "Density Estimating Trees" by Ram and Gray
-/

set_option linter.unusedSectionVars false

namespace CloudForest
variable {K : Type} [Field K] [LinearOrder K] [IsStrictOrderedRing K]

/-- The number of cells of a node: the product of the numbers of different categories. -/
def cellsOf (features : List (Feature K)) (cases : List Nat) : Nat := (features.map fun f => f.spread cases).prod

/-- The loss of a leaf that holds `cases` of `n`: − |t|² / (n² V). -/
def detLoss (features : List (Feature K)) (n : Nat) (cases : List Nat) : K :=
  -((cases.length : K) ^ 2 / ((n : K) ^ 2 * (cellsOf features cases : K)))

/-- How much a division lowers the loss: the loss of the node less that of its children. -/
def detGain (features : List (Feature K)) (n : Nat) (cases l r : List Nat) : K :=
  detLoss features n cases - detLoss features n l - detLoss features n r

/-- The density estimated for a leaf: its share of the cases per cell. -/
def detDensity (features : List (Feature K)) (n : Nat) (cases : List Nat) : K :=
  (cases.length : K) / ((n : K) * (cellsOf features cases : K))

/-- All features are categorical, and each is known for some case. -/
structure Celled (features : List (Feature K)) (cases : List Nat) : Prop where
  fits : ∀ f ∈ features, f.Fits cases
  cat : ∀ f ∈ features, f.isCat = true
  known : ∀ f ∈ features, 0 < f.spread cases

/-- What the code takes for the gain of a division: the impurity of the node less the split impurity, as the searches
compare it. -/
def densityGain (features : List (Feature K)) (n : Nat) (cases l r : List Nat) (m : Option (List Nat)) (a : Allocs K) :
    Option (XF K) := do
  let (p, a) ← (densityTarget features n).impurity a cases
  let (s, _) ← (densityTarget features n).splitImpurity a l r m
  some (gain p s)

end CloudForest
