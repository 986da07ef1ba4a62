import Verif.Model.Cores
import Verif.Model.Targets
import Verif.Model.Regression
import Verif.Model.Driver
import Verif.Model.Setup
import Verif.Model.Apply
import Verif.Model.TreeFile

/-!
# growforest and applyforest as commands: from texts to texts
(growforest.go:43-742, applyforest.go:33-105)
-/

namespace CloudForest
variable {K : Type} [Field K] [LinearOrder K] [IsStrictOrderedRing K]

/-- The options of growforest that are kept here (growforest.go:43-184). Simplified: of the other impurities only `-entropy` and
`-l1`, no boosting, no `-splitmissing`, no changes to the data, no `-balanceby`. `block` and `incl` are the regular expressions as
tests. -/
structure GrowArgs where
  target : String
  blacklist : List String := []
  block : Option (String → Bool) := none
  incl : Option (String → Bool) := none
  mTry : Text := ['0']
  leafSize : Text := ['0']
  nSamples : Text := ['0']
  nTrees : Nat := 100
  nCores : Nat := 1
  maxDepth : Int := 0
  force : Bool := false
  vet : Bool := false
  evaloob : Bool := false
  extra : Bool := false
  entropy : Bool := false
  l1 : Bool := false
  oob : Bool := false
  progress : Bool := false
  dotest : Bool := false
  balance : Bool := false
  nobag : Bool := false

/-- How cases are chosen for a target with classes (growforest.go:344-347, 623-649): the sampler is made even if `-nobag` leaves it
unused. -/
def GrowArgs.bagging (a : GrowArgs) (f : CatFeature) : Option Bagging := do
  let how ← if a.balance then (newBalancedSampler f).map .balanced else some .plain
  some (if a.nobag then .nobag else how)

/-- What a run on classes is made of (growforest.go:341-400, 435-437, 487-489, 511, 664-668). Simplified: `FindPredicted` does not panic,
which it does only on categories that do not exist. -/
def GrowArgs.classRun (a : GrowArgs) (log : XF K → XF K) (fm : FeatureMatrix K) (f : CatFeature) (how : Bagging)
    (mTry leafSize nSamples draws : Nat) (order : List Nat → List Nat) : RunSetup K CatFeature where
  fm := fm
  T := countTarget f (if a.entropy then entropyFromCounts log else giniFromCounts)
  C := catContrast f
  o := ⟨mTry, leafSize, a.force, a.vet, a.evaloob, a.extra⟩
  findPredicted cs := (f.findPredicted cs).getD ""
  maxDepth := a.maxDepth
  splitmissing := false
  oob := a.oob || a.progress
  dotest := a.dotest
  how := how
  target := a.target
  missing := f.missing
  nSamples := nSamples
  nTrees := a.nTrees
  draws := draws
  order := order

/-- The same for a numerical target (growforest.go:341-422, 664-668). -/
def GrowArgs.numRun (a : GrowArgs) (nt : NumText K) (fm : FeatureMatrix K) (f : NumFeature K) (mTry leafSize nSamples draws : Nat)
    (order : List Nat → List Nat) : RunSetup K (NumFeature K) where
  fm := fm
  T := if a.l1 then l1Target f else sseTarget f
  C := numContrast f
  o := ⟨mTry, leafSize, a.force, a.vet, a.evaloob, a.extra⟩
  findPredicted cs := (f.findPredicted nt cs).getD ""
  maxDepth := a.maxDepth
  splitmissing := false
  oob := a.oob || a.progress
  dotest := a.dotest
  how := if a.nobag then .nobag else .plain
  target := a.target
  missing := f.missing
  nSamples := nSamples
  nTrees := a.nTrees
  draws := draws
  order := order

/-- growforest (growforest.go:216-219, 239-482, 516-754): the text of the data, the text of the forest. `own w` and `global w` are
the random numbers that worker `w` sees, `pick` says which worker records next; plain bagging may draw `draws` times for a tree.
`-balance` panics on a numerical target (346). -/
def growCommand [FloorRing K] (nt : NumText K) (log : XF K → XF K) (ord : Splitter K → List String) (a : GrowArgs) (draws : Nat)
    (order : List Nat → List Nat) (text : Text) (own global : Nat → Rng) (pick : Nat → Nat) : Option Text := do
  let fm ← parseAFM nt text
  let (targeti, b) ← chooseFeatures fm a.blacklist a.target a.block a.incl
  let mTry ← inferMTry nt a.mTry (b.nFeatures fm).toNat
  let cans := candidates fm targeti b.marks
  let target ← fm.data[targeti]?
  let trees ← match target with
    | .cat f => do
      let how ← a.bagging f
      let leafSize ← inferLeafSize nt a.leafSize false f.cm.nCats (nKnown f.missing)
      let nSamples ← inferNSamples nt a.nSamples (nKnown f.missing)
      let r := a.classRun log fm f how mTry.toNat leafSize.toNat nSamples.toNat draws order
      r.runCores r.grower a.nCores (nKnown f.missing) f.cm.nCats cans own global pick
    | .num f => do
      if a.balance then none
      let leafSize ← inferLeafSize nt a.leafSize false 0 (nKnown f.missing)
      let nSamples ← inferNSamples nt a.nSamples (nKnown f.missing)
      let r := a.numRun nt fm f mTry.toNat leafSize.toNat nSamples.toNat draws order
      r.runCores r.grower a.nCores (nKnown f.missing) 0 cans own global pick
  growforestFile nt ord a.progress a.target none (trees.map (·.1))

/-- applyforest up to the counting of votes (applyforest.go:33-73): the forest it read and the ballot box. -/
def applyCommand (nt : NumText K) (o : ApplyOptions) (forestText dataText : Text) : Option (Forest K × Box K) := do
  let fm ← parseAFM nt dataText
  let read ← readForest nt forestText
  let forest ← read.forest
  match read.err with
  | .ok => do
    let bb ← applyForest nt o forest fm
    some (forest, bb)
  | _ => none

end CloudForest
