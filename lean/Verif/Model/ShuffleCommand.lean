import Verif.Model.Commands
import Verif.Model.Setup

/-!
# growforest with -permute and -shuffleRE (growforest.go:85-92, 322-339)
-/

namespace CloudForest
variable {K : Type} [Field K] [LinearOrder K] [IsStrictOrderedRing K]

/-- growforest with `-permute` or `-shuffleRE` (growforest.go:216-219, 239-482, 516-754): as `growCommand`, but after features are chosen and
`mTry` is inferred, values of the target or of other features are moved. `shuf` are the random numbers of that; the regular expression is
a test of names. -/
def growShuffledCommand [FloorRing K] (nt : NumText K) (log : XF K → XF K) (ord : Splitter K → List String) (a : GrowArgs)
    (permute : Bool) (re : Option (String → Bool)) (draws : Nat) (order : List Nat → List Nat) (text : Text) (shuf : Rng)
    (own global : Nat → Rng) (pick : Nat → Nat) : Option Text := do
  let fm ← parseAFM nt text
  let (targeti, b) ← chooseFeatures fm a.blacklist a.target a.block a.incl
  let mTry ← inferMTry nt a.mTry (b.nFeatures fm).toNat
  let (fm, _) ← prepare nt fm targeti false permute re shuf
  let cans := candidates fm targeti b.marks
  let target ← fm.data[targeti]?
  let trees ← match target with
    | .cat f => do
      let how ← a.bagging f
      let leafSize ← inferLeafSize nt a.leafSize false f.cm.nCats (nKnown f.missing)
      let nSamples ← inferNSamples nt a.nSamples (nKnown f.missing)
      let r := a.classRun log fm f how mTry.toNat leafSize.toNat nSamples.toNat draws order
      r.runCores r.grower a.nCores (nKnown f.missing) f.cm.nCats cans own global pick
    | .num f => do
      if a.balance then none
      let leafSize ← inferLeafSize nt a.leafSize false 0 (nKnown f.missing)
      let nSamples ← inferNSamples nt a.nSamples (nKnown f.missing)
      let r := a.numRun nt fm f mTry.toNat leafSize.toNat nSamples.toNat draws order
      r.runCores r.grower a.nCores (nKnown f.missing) 0 cans own global pick
  growforestFile nt ord a.progress a.target none (trees.map (·.1))

end CloudForest
