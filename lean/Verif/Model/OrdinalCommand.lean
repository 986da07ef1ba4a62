import Verif.Model.Commands

/-!
# growforest with -ordinal (growforest.go:169-170, 420-423)
-/

namespace CloudForest
variable {K : Type} [Field K] [LinearOrder K] [IsStrictOrderedRing K]

/-- What a run on an ordinal target is made of (growforest.go:341-423, 664-668; ordinaltarget.go): as `numRun`, with another target. Contrasts are
copies of the numerical feature inside (ordinaltarget.go:12-16, splitallocations.go:69). -/
def GrowArgs.ordinalRun (a : GrowArgs) (trunc : XF K → Int) (nt : NumText K) (fm : FeatureMatrix K) (f : NumFeature K) (od : Ordinal K)
    (mTry leafSize nSamples draws : Nat) (order : List Nat → List Nat) : RunSetup K (NumFeature K) :=
  { a.numRun nt fm f mTry leafSize nSamples draws order with
    T := ordinalTarget trunc od
    findPredicted := fun cs => (od.findPredicted trunc nt cs).getD "" }

/-- growforest with `-ordinal` and a numerical target (growforest.go:216-219, 239-482, 516-754), as `growCommand`; a target of classes is left
out (the option has no effect on it). `trunc` is Go's conversion of a float64 to an int. Simplified: without `-l1`. -/
def growOrdinalCommand [FloorRing K] (trunc : XF K → Int) (nt : NumText K) (ord : Splitter K → List String) (a : GrowArgs) (draws : Nat)
    (order : List Nat → List Nat) (text : Text) (own global : Nat → Rng) (pick : Nat → Nat) : Option Text := do
  let fm ← parseAFM nt text
  let (targeti, b) ← chooseFeatures fm a.blacklist a.target a.block a.incl
  let mTry ← inferMTry nt a.mTry (b.nFeatures fm).toNat
  let cans := candidates fm targeti b.marks
  let target ← fm.data[targeti]?
  let trees ← match target with
    | .cat _ => none
    | .num f => do
      if a.balance then none
      let leafSize ← inferLeafSize nt a.leafSize false 0 (nKnown f.missing)
      let nSamples ← inferNSamples nt a.nSamples (nKnown f.missing)
      let od ← newOrdinal trunc f
      let r := a.ordinalRun trunc nt fm f od mTry.toNat leafSize.toNat nSamples.toNat draws order
      r.runCores r.grower a.nCores (nKnown f.missing) 0 cans own global pick
  growforestFile nt ord a.progress a.target none (trees.map (·.1))

end CloudForest
