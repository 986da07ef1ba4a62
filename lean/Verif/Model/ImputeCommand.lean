import Verif.Model.Commands
import Verif.Model.Setup

/-!
# growforest with -impute (growforest.go:94-95, 317-320)
-/

namespace CloudForest
variable {K : Type} [Field K] [LinearOrder K] [IsStrictOrderedRing K]

/-- growforest with `-impute` (growforest.go:216-219, 239-482, 516-754): as `growCommand`, but after features are chosen and `mTry` is
inferred, missing values are filled in, those of the target too. -/
def growImputedCommand [FloorRing K] (nt : NumText K) (log : XF K → XF K) (ord : Splitter K → List String) (a : GrowArgs) (draws : Nat)
    (order : List Nat → List Nat) (text : Text) (own global : Nat → Rng) (pick : Nat → Nat) : Option Text := do
  let fm ← parseAFM nt text
  let (targeti, b) ← chooseFeatures fm a.blacklist a.target a.block a.incl
  let mTry ← inferMTry nt a.mTry (b.nFeatures fm).toNat
  let fm ← fm.imputeMissing nt
  let cans := candidates fm targeti b.marks
  let target ← fm.data[targeti]?
  let trees ← match target with
    | .cat f => do
      let how ← a.bagging f
      let leafSize ← inferLeafSize nt a.leafSize false f.cm.nCats (nKnown f.missing)
      let nSamples ← inferNSamples nt a.nSamples (nKnown f.missing)
      let r := a.classRun log fm f how mTry.toNat leafSize.toNat nSamples.toNat draws order
      r.runCores r.grower a.nCores (nKnown f.missing) f.cm.nCats cans own global pick
    | .num f => do
      if a.balance then none
      let leafSize ← inferLeafSize nt a.leafSize false 0 (nKnown f.missing)
      let nSamples ← inferNSamples nt a.nSamples (nKnown f.missing)
      let r := a.numRun nt fm f mTry.toNat leafSize.toNat nSamples.toNat draws order
      r.runCores r.grower a.nCores (nKnown f.missing) 0 cans own global pick
  growforestFile nt ord a.progress a.target none (trees.map (·.1))

end CloudForest
