import Verif.Model.AdaCost

/-!
# Costs and weights by name (regrettarget.go, dentropytarget.go, wrftarget.go, growforest.go)
-/

namespace CloudForest
variable {K : Type} [Field K] [LinearOrder K] [IsStrictOrderedRing K]

/-- `NewRegretTarget` and `NewDEntropyTarget` followed by `SetCosts` (regrettarget.go:23-34, dentropytarget.go:22-33, as
called at growforest.go:442-464): the costs. Simplified: the map read from JSON is a function from names. -/
def newCosts (f : CatFeature) (given : String → Option (XF K)) : Option (List (XF K)) :=
  setCosts f given (List.replicate f.cm.nCats (.fin 0))

/-- `NewWRFTarget` (wrftarget.go:14-22, as called at growforest.go:476-485): the weights. Simplified like `newCosts`. -/
def newWeights (f : CatFeature) (given : String → Option (XF K)) : Option (List (XF K)) :=
  (List.range f.cm.nCats).mapM fun i => do
    let s ← f.cm.back[i]?
    some ((given s).getD (.fin 0))

end CloudForest
