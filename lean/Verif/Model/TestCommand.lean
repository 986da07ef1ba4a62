import Verif.Model.Commands
import Verif.Model.Oob

/-!
# growforest with -test or -selftest, from the data file on (growforest/growforest.go)
-/

namespace CloudForest
variable {K : Type} [Field K] [LinearOrder K] [IsStrictOrderedRing K]

/-- The tree objects in which the recorded trees are, in the order of `RunSetup.turns` (growforest.go:603, 713-742). Worker `w` begins with the object
`(w, 0)`. With `-test` a worker takes a new object after recording while `treesStarted < nTrees-1` (716), and grows on while
`treesStarted < nTrees` (726). -/
def treeObjects (nTrees : Nat) : Nat → Nat → (Nat → Nat) → List (Nat × Nat) → List (Nat × Nat)
  | _, _, _, [] => []
  | 0, _, _, _ :: _ => []
  | left + 1, started, pick, w :: ws =>
    let i := pick 0 % (w :: ws).length
    let x := (w :: ws).getD i w
    let next := if started + 1 < nTrees then (x.1, x.2 + 1) else x
    x :: if started < nTrees then treeObjects nTrees left (started + 1) (fun k => pick (k + 1)) ((w :: ws).set i next)
      else treeObjects nTrees left started (fun k => pick (k + 1)) ((w :: ws).eraseIdx i)

/-- The trees kept for the test (growforest.go:714). What is kept are pointers, so that in the end each is the last tree grown in its object. -/
def keptTrees {α : Type} (objects : List (Nat × Nat)) (trees : List α) : List α :=
  objects.filterMap fun x => (((objects.zip trees).filter fun y => y.1 == x).getLast?).map (·.2)

/-- The ballot box after the trees have voted on the training data `fm`, if `test` is `none`, or on those of the test file, which must have the target
(growforest.go:889-925). Codes of splits are taken off the trees for a test file (907-911, tree.go:65-73). -/
def testBox (nt : NumText K) (fm : FeatureMatrix K) (target : String) (test : Option Text) (nCats : Nat) (kept : List (Tree K)) :
    Option (Box K) := do
  let (fm2, kept) ← match test with
    | none => some (fm, kept)
    | some text2 => do
      let fm2 ← parseAFM nt text2
      let _ ← fm2.map target
      some (fm2, kept.map fun t => { t with root := t.root.stripCodes })
  let first ← fm2.data[0]?
  testVotes nt fm2 (oobBox nCats first.length) kept

/-- growforest with `-selftest`, where `test` is `none`, or `-test` (growforest.go:194-197, 216-219, 239-482, 516-754, 889-925): the text of the forest and the
ballot box into which the kept trees vote. As `growCommand`. -/
def growTestCommand [FloorRing K] (nt : NumText K) (log : XF K → XF K) (ord : Splitter K → List String) (args : GrowArgs) (draws : Nat)
    (order : List Nat → List Nat) (text : Text) (test : Option Text) (own global : Nat → Rng) (pick : Nat → Nat) : Option (Text × Box K) := do
  let a := { args with dotest := true }
  let fm ← parseAFM nt text
  let (targeti, b) ← chooseFeatures fm a.blacklist a.target a.block a.incl
  let mTry ← inferMTry nt a.mTry (b.nFeatures fm).toNat
  let cans := candidates fm targeti b.marks
  let target ← fm.data[targeti]?
  let (trees, nCats) ← match target with
    | .cat f => do
      let how ← a.bagging f
      let leafSize ← inferLeafSize nt a.leafSize false f.cm.nCats (nKnown f.missing)
      let nSamples ← inferNSamples nt a.nSamples (nKnown f.missing)
      let r := a.classRun log fm f how mTry.toNat leafSize.toNat nSamples.toNat draws order
      let trees ← r.runCores r.grower a.nCores (nKnown f.missing) f.cm.nCats cans own global pick
      some (trees, f.cm.nCats)
    | .num f => do
      if a.balance then none
      let leafSize ← inferLeafSize nt a.leafSize false 0 (nKnown f.missing)
      let nSamples ← inferNSamples nt a.nSamples (nKnown f.missing)
      let r := a.numRun nt fm f mTry.toNat leafSize.toNat nSamples.toNat draws order
      let trees ← r.runCores r.grower a.nCores (nKnown f.missing) 0 cans own global pick
      some (trees, 0)
  let file ← growforestFile nt ord a.progress a.target none (trees.map (·.1))
  let objects := treeObjects a.nTrees (max a.nCores a.nTrees) a.nCores pick ((List.range a.nCores).map fun w => (w, 0))
  let bb ← testBox nt fm a.target test nCats (keptTrees objects (trees.map (·.1)))
  some (file, bb)

/-- The error that growforest prints for the test data, `text` (growforest.go:904, 925), given what `Tally` returned for each case. -/
def printedTestError (nt : NumText K) (target : String) (text : Text) (bb : Box K) (counted : Nat → Option String) : Option (XF K) := do
  let fm ← parseAFM nt text
  let i ← fm.map target
  let f ← fm.data[i]?
  bb.error counted f

end CloudForest
