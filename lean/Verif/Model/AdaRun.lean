import Verif.Model.Boost
import Verif.Model.Tree

/-!
# A run of adaptive boosting
-/

namespace CloudForest
variable {K : Type} [Field K] [LinearOrder K] [IsStrictOrderedRing K]

/-- The loop over trees with an adaptive boosting target (forrest.go:56-67, growforest/growforest.go:679-692): each tree divides
the cases, and `AdaBoostTarget.Boost` (adaboosttarget.go:115-159) returns its weight. The trees are given; how they depend on
the weights of the cases is left open. The programs never get so far (see C107): `AdaBoostTarget.Boost` takes one
argument fewer than `BoostingTarget` asks for, so this is what a caller of the library writes. -/
def adaRun (el : ExpLog K) (f : CatFeature) (fm : FeatureMatrix K) : List (XF K) → List (Tree K) → Option (List (Tree K))
  | _, [] => some []
  | ws, t :: ts => do
    let (leaves, _) ← t.partition fm
    let (ws, weight) ← adaBoost el f ws leaves
    let ts ← adaRun el f fm ws ts
    some ({ t with weight := weight } :: ts)

end CloudForest
