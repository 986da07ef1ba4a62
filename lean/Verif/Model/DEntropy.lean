import Verif.Model.AdaCost

/-!
# Predictions with disutilities (dentropytarget.go:85-114)
-/

namespace CloudForest
variable {K : Type} [Field K] [LinearOrder K] [IsStrictOrderedRing K]

/-- The number that `DEntropyTarget.FindPredicted` prints, and the feature afterwards, which `CatToNum` may have given
another category (dentropytarget.go:85-114; `weightedvoted` is true). -/
def dEntropyPredict (costs : List (XF K)) (f : CatFeature) (cases : List Nat) : Option (XF K × CatFeature) :=
  let t := f.cm.catToNum "True"
  (cases.foldlM (fun (acc : XF K × XF K) i => do
    let ti ← f.catData[i]?
    let cost ← costs[ti]?
    some (if ti = t.1 then acc.1 + cost else acc.1, acc.2 + cost)) (.fin 0, .fin 0)).map fun (acc : XF K × XF K) =>
  (acc.1 / acc.2, { f with cm := t.2 })

end CloudForest
