import Verif.Model.Ace

/-!
# growforest with `-importance` (growforest/growforest.go:516-754, 862-887)

The forest file and the importance file of one run. One worker; `-ace` and boosting left out.
-/

namespace CloudForest
variable {K : Type} [Field K] [LinearOrder K] [IsStrictOrderedRing K] {τ : Type}

/-- One tree (growforest.go:613-680) as `RunSetup.tree`, with importances and minimal depths. The scratch space is as in `RunSetup.noter`. -/
def RunSetup.notedTree (r : RunSetup K τ) (s : WorkerState K) (sc : Scores K) :
    Option ((Tree K × List Nat) × WorkerState K × Scores K) := do
  let (bag, rng) ← drawBag r.how r.missing r.nSamples r.draws s.cases s.rng
  let oob ← r.oobNow s.st.oob bag
  let (root, st, b) ← growNoting r.noter r.fm (bag.length + 1) s.root { s.st with oob := oob } bag 0 0
    ⟨some sc.imp, some (List.replicate r.fm.data.length 0)⟩
  let imp ← b.importance
  let du ← b.depthUsed
  some ((⟨root, r.target, .fin (-1)⟩, bag), ⟨root, r.order bag, st, rng⟩, ⟨imp, countDepths du sc.mmd⟩)

/-- The trees from tree number `started` on (growforest.go:620-742) as `RunSetup.trees`, with what is noted. -/
def RunSetup.notedTrees (r : RunSetup K τ) : Nat → Nat → WorkerState K → Scores K → Option (List (Tree K × List Nat) × Scores K)
  | 0, _, _, sc => some ([], sc)
  | left + 1, started, s, sc => do
    let (t, s, sc) ← r.notedTree s sc
    let s := if r.dotest && started + 1 < r.nTrees then { s with root := .fresh } else s
    let (ts, sc) ← r.notedTrees left (started + 1) s sc
    some (t :: ts, sc)

/-- The run (growforest.go:558-564, 579-742 with one core) as `RunSetup.run`, with what is noted, at first nothing. -/
def RunSetup.notedRun (r : RunSetup K τ) (nNonMissing nCats : Nat) (cans : List Nat) (own global : Rng) :
    Option (List (Tree K × List Nat) × Scores K) := do
  let s ← r.start nNonMissing nCats cans own global
  r.notedTrees (max 1 r.nTrees) 1 s (.new r.fm.data.length)

/-- The importance file (growforest.go:878-887): a line per feature of the data, with its name. Its text is `importanceText`. -/
def importanceFile (fm : FeatureMatrix K) (nTrees : Nat) (sc : Scores K) : Option (List (String × ImpLine K)) :=
  (List.range sc.imp.length).mapM fun i => do
    let f ← fm.data[i]?
    let ln ← sc.line nTrees i
    some (f.name, ln)

/-- The text of the importance file (growforest.go:883): a line per feature, tabs between its fields. -/
def importanceText (nt : NumText K) (lines : List (String × ImpLine K)) : Text :=
  (lines.map fun ln => joinC '\t' [ln.1.toList, nt.fmt ln.2.perUse, nt.fmt ln.2.uses, nt.fmt ln.2.perTree, nt.fmt ln.2.perTreeUsed,
    nt.fmt ln.2.treesUsed, nt.fmt ln.2.meanMinDepth] ++ ['\n']).flatten

/-- growforest with `-importance` (growforest.go:216-219, 239-482, 516-754, 862-887): the text of the data, the text of the forest and the lines of the
importance file. Simplified: the number of cores is one. -/
def importanceCommand [FloorRing K] (nt : NumText K) (log : XF K → XF K) (ord : Splitter K → List String) (a : GrowArgs) (draws : Nat)
    (order : List Nat → List Nat) (text : Text) (own global : Rng) : Option (Text × List (String × ImpLine K)) := do
  let fm ← parseAFM nt text
  let (targeti, b) ← chooseFeatures fm a.blacklist a.target a.block a.incl
  let mTry ← inferMTry nt a.mTry (b.nFeatures fm).toNat
  let cans := candidates fm targeti b.marks
  let target ← fm.data[targeti]?
  let res ← match target with
    | .cat f => do
      let how ← a.bagging f
      let leafSize ← inferLeafSize nt a.leafSize false f.cm.nCats (nKnown f.missing)
      let nSamples ← inferNSamples nt a.nSamples (nKnown f.missing)
      let r := a.classRun log fm f how mTry.toNat leafSize.toNat nSamples.toNat draws order
      r.notedRun (nKnown f.missing) f.cm.nCats cans own global
    | .num f => do
      if a.balance then none
      let leafSize ← inferLeafSize nt a.leafSize false 0 (nKnown f.missing)
      let nSamples ← inferNSamples nt a.nSamples (nKnown f.missing)
      let r := a.numRun nt fm f mTry.toNat leafSize.toNat nSamples.toNat draws order
      r.notedRun (nKnown f.missing) 0 cans own global
  let file ← growforestFile nt ord a.progress a.target none (res.1.map (·.1))
  let lines ← importanceFile fm a.nTrees res.2
  some (file, lines)

end CloudForest
