import Verif.Model.Commands
import Verif.Model.Oob

/-!
# growforest with -oob and -oobpreds, from the data file on (growforest/growforest.go)
-/

namespace CloudForest
variable {K : Type} [Field K] [LinearOrder K] [IsStrictOrderedRing K]

/-- growforest with `-oob` (growforest.go:216-219, 239-482, 516-754): the text of the forest and the ballot box into which each tree votes before
it is written (651-662, 694-703). As `growCommand`; the box has a place for each case (393-403). `seen` is the order in which the trees vote, which
with several workers need not be that of the file. Simplified: a tree votes on all of its cases before another does. -/
def growOobCommand [FloorRing K] (nt : NumText K) (log : XF K → XF K) (ord : Splitter K → List String) (a : GrowArgs) (draws : Nat)
    (order : List Nat → List Nat) (text : Text) (own global : Nat → Rng) (pick : Nat → Nat)
    (seen : List (Tree K × List Nat) → List (Tree K × List Nat)) : Option (Text × Box K) := do
  let fm ← parseAFM nt text
  let (targeti, b) ← chooseFeatures fm a.blacklist a.target a.block a.incl
  let mTry ← inferMTry nt a.mTry (b.nFeatures fm).toNat
  let cans := candidates fm targeti b.marks
  let target ← fm.data[targeti]?
  let (trees, nCats) ← match target with
    | .cat f => do
      let how ← a.bagging f
      let leafSize ← inferLeafSize nt a.leafSize false f.cm.nCats (nKnown f.missing)
      let nSamples ← inferNSamples nt a.nSamples (nKnown f.missing)
      let r := a.classRun log fm f how mTry.toNat leafSize.toNat nSamples.toNat draws order
      let trees ← r.runCores r.grower a.nCores (nKnown f.missing) f.cm.nCats cans own global pick
      some (trees, f.cm.nCats)
    | .num f => do
      if a.balance then none
      let leafSize ← inferLeafSize nt a.leafSize false 0 (nKnown f.missing)
      let nSamples ← inferNSamples nt a.nSamples (nKnown f.missing)
      let r := a.numRun nt fm f mTry.toNat leafSize.toNat nSamples.toNat draws order
      let trees ← r.runCores r.grower a.nCores (nKnown f.missing) 0 cans own global pick
      some (trees, 0)
  let cases ← fm.allCases
  let bb ← oobVotes nt fm cases.length (oobBox nCats cases.length) (seen trees)
  let file ← growforestFile nt ord a.progress a.target none (trees.map (·.1))
  some (file, bb)

/-- What growforest prints and writes of the box (growforest.go:848-860): the error, and a line for each case of its label, the
prediction and the actual value. `counted` are the predictions counted for the error, `shown` those written: Go goes over the classes of a
case in another order each time. -/
def oobReport (nt : NumText K) (target : String) (text : Text) (bb : Box K) (counted shown : Nat → Option String) :
    Option (XF K × List (String × String × String)) := do
  let fm ← parseAFM nt text
  let i ← fm.map target
  let f ← fm.data[i]?
  let err ← bb.error counted f
  let lines ← (List.range f.length).mapM fun i => do
    let l ← fm.caseLabels[i]?
    let result ← shown i
    let actual ← f.getStr nt i
    some (l, result, actual)
  some (err, lines)

end CloudForest
