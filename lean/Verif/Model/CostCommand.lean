import Verif.Model.Commands
import Verif.Model.CostNames

/-!
# growforest with costs or weights of classes (growforest.go:31-39, 115-125, 438-454, 476-485)
-/

namespace CloudForest
variable {K : Type} [Field K] [LinearOrder K] [IsStrictOrderedRing K]

/-- The options that weigh classes (growforest.go:31-39, 115-125): `-cost` and `-rfweights` with numbers by name, `-NP` with the constrained
class, the constraint and its weight. Simplified: the map read from JSON is a function from names; one of the options at a time. -/
inductive Weighing (K : Type) where
  | cost (given : String → Option (XF K))
  | weights (given : String → Option (XF K))
  | np (pos : String) (alpha kappa : XF K)

/-- The impurity and the prediction of the target made for the option (growforest.go:438-454, 476-485; regrettarget.go:23-136,
wrftarget.go:14-123, NPtarget.go:40-151). Simplified: the class constrained by `-NP` is one of the data. -/
def Weighing.parts (w : Weighing K) (f : CatFeature) : Option ((Nat → List Int → XF K) × (List Nat → Option Nat)) :=
  match w with
  | .cost given => (newCosts f given).map fun xs => (regretFromCounts xs, regretPredict xs f)
  | .weights given => (newWeights f given).map fun xs => (wrfFromCounts xs, wrfPredict xs f)
  | .np pos alpha kappa => (f.cm.map pos).map fun posi => (npFromCounts posi alpha kappa, npPredict posi alpha f)

/-- What a run on weighed classes is made of (growforest.go:341-400, 435-489, 511, 664-668): as `classRun`, with another target. -/
def GrowArgs.weighedRun (a : GrowArgs) (log : XF K → XF K) (fm : FeatureMatrix K) (f : CatFeature) (how : Bagging)
    (mTry leafSize nSamples draws : Nat) (order : List Nat → List Nat) (imp : Nat → List Int → XF K)
    (predict : List Nat → Option Nat) : RunSetup K CatFeature :=
  { a.classRun log fm f how mTry leafSize nSamples draws order with
    T := countTarget f imp
    findPredicted := fun cs => ((predict cs).bind (f.cm.back[·]?)).getD "" }

/-- growforest with one of these options (growforest.go:216-219, 239-482, 516-754), as `growCommand`. For a numerical target they
are without effect (growforest.go:404-433). -/
def growWeighedCommand [FloorRing K] (nt : NumText K) (log : XF K → XF K) (ord : Splitter K → List String) (a : GrowArgs) (w : Weighing K)
    (draws : Nat) (order : List Nat → List Nat) (text : Text) (own global : Nat → Rng) (pick : Nat → Nat) : Option Text := do
  let fm ← parseAFM nt text
  let (targeti, b) ← chooseFeatures fm a.blacklist a.target a.block a.incl
  let mTry ← inferMTry nt a.mTry (b.nFeatures fm).toNat
  let cans := candidates fm targeti b.marks
  let target ← fm.data[targeti]?
  let trees ← match target with
    | .cat f => do
      let how ← a.bagging f
      let leafSize ← inferLeafSize nt a.leafSize false f.cm.nCats (nKnown f.missing)
      let nSamples ← inferNSamples nt a.nSamples (nKnown f.missing)
      let (imp, predict) ← w.parts f
      let r := a.weighedRun log fm f how mTry.toNat leafSize.toNat nSamples.toNat draws order imp predict
      r.runCores r.grower a.nCores (nKnown f.missing) f.cm.nCats cans own global pick
    | .num f => do
      if a.balance then none
      let leafSize ← inferLeafSize nt a.leafSize false 0 (nKnown f.missing)
      let nSamples ← inferNSamples nt a.nSamples (nKnown f.missing)
      let r := a.numRun nt fm f mTry.toNat leafSize.toNat nSamples.toNat draws order
      r.runCores r.grower a.nCores (nKnown f.missing) 0 cans own global pick
  growforestFile nt ord a.progress a.target none (trees.map (·.1))

end CloudForest
