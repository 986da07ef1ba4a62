import Verif.Model.Commands
import Verif.Model.Books
import Verif.Model.Stats
import Verif.Model.Shuffle

/-!
# growforest with `-ace` (growforest/growforest.go:529-556, 577-830, 871-877)

Artificial contrasts with ensembles: forests are grown from the features and shuffled copies of them, the contrasts. The importance of a feature in these
forests is compared with that of its contrast, and a last forest is grown from the features that are significantly more important.
One worker; boosting left out.
-/

namespace CloudForest
variable {K : Type} [Field K] [LinearOrder K] [IsStrictOrderedRing K] {τ : Type}

/-- How trees are grown when importances are noted (growforest.go:664-668). Simplified: the scratch space is large enough, as it is unless `-vet` and
`-evaloob` are both given (C118). -/
def RunSetup.noter (r : RunSetup K τ) : NotingGrower K (SplitState K) :=
  treeNoter r.fm r.T r.C r.o r.findPredicted r.maxDepth r.splitmissing

/-- One tree (growforest.go:620-668) as `RunSetup.tree`, with importances. The minimal depths are
noted (as with `-importance`, 613-617) and not kept: the importance file of a run with `-ace` does not have them. -/
def RunSetup.scoredTree (r : RunSetup K τ) (s : WorkerState K) (imp : List (RunningMean K)) :
    Option ((Tree K × List Nat) × WorkerState K × List (RunningMean K)) := do
  let (bag, rng) ← drawBag r.how r.missing r.nSamples r.draws s.cases s.rng
  let oob ← r.oobNow s.st.oob bag
  let (root, st, b) ← growNoting r.noter r.fm (bag.length + 1) s.root { s.st with oob := oob } bag 0 0
    ⟨some imp, some (List.replicate r.fm.data.length 0)⟩
  let imp ← b.importance
  some ((⟨root, r.target, .fin (-1)⟩, bag), ⟨root, r.order bag, st, rng⟩, imp)

/-- The trees of a forest (growforest.go:620-742) as `RunSetup.trees`, with importances; new tree objects are taken only in the last forest, `anew`
(713-721). -/
def RunSetup.scoredTrees (r : RunSetup K τ) (anew : Bool) : Nat → Nat → WorkerState K → List (RunningMean K) →
    Option (List (Tree K × List Nat) × List (RunningMean K))
  | 0, _, _, imp => some ([], imp)
  | left + 1, started, s, imp => do
    let (t, s, imp) ← r.scoredTree s imp
    let s := if anew && r.dotest && started + 1 < r.nTrees then { s with root := .fresh } else s
    let (ts, imp) ← r.scoredTrees anew left (started + 1) s imp
    some (t :: ts, imp)

/-- One of the first forests, grown from the matrix `fm` of features and contrasts: its trees, and the importance of each feature per tree
(growforest.go:577-754, 788-795). -/
def RunSetup.aceForest (r : RunSetup K τ) (fm : FeatureMatrix K) (cans : List Nat) (nNonMissing nCats : Nat) (anew : Bool) (own global : Rng) :
    Option (List (Tree K × List Nat) × List (XF K)) := do
  let r := { r with fm := fm }
  let s ← r.start nNonMissing nCats cans own global
  let (ts, imp) ← r.scoredTrees anew (max 1 r.nTrees) 1 s (List.replicate fm.data.length .new)
  some (ts, imp.map fun m => m.mean * m.count / XF.ofNat r.nTrees)

/-- Shuffling the contrasts again (growforest.go:797-802), those that are candidates. -/
def reshuffle (firstace : Nat) (marks : List Bool) (fm : FeatureMatrix K) (rng : Rng) : Option (FeatureMatrix K × Rng) :=
  (List.range fm.data.length).foldlM (fun (s : FeatureMatrix K × Rng) i =>
    if firstace ≤ i ∧ marks[i]? = some false then do
      let f ← s.1.data[i]?
      let (g, rng) ← f.shuffle s.2
      some ({ s.1 with data := s.1.data.set i g }, rng)
    else some s) (fm, rng)

/-- The first forests (growforest.go:577-806), `left` of them from number `k` on, and the matrix after them. With `last` the last of them is the last of
all, since there is no cutoff. -/
def RunSetup.aceForests (r : RunSetup K τ) (targeti firstace : Nat) (marks : List Bool) (nNonMissing nCats : Nat) (last : Bool) (own global shuf : Nat → Rng) :
    Nat → Nat → FeatureMatrix K → Option (List (List (Tree K × List Nat) × List (XF K)) × FeatureMatrix K)
  | 0, _, fm => some ([], fm)
  | left + 1, k, fm => do
    let x ← r.aceForest fm (candidates fm targeti marks) nNonMissing nCats (last && left == 0) (own k) (global k)
    let (fm, _) ← reshuffle firstace marks fm (shuf (k + 1))
    let (xs, fm) ← r.aceForests targeti firstace marks nNonMissing nCats last own global shuf left (k + 1) fm
    some (x :: xs, fm)

/-- The outcome of the t-test for feature `i` (growforest.go:812, 873): `p` and the mean of its importances. `scores` are the columns of `aceImps`. -/
def aceTest (F : MathFns K) (firstace : Nat) (scores : List (List (XF K))) (i : Nat) : Option (XF K × XF K) := do
  let A ← scores.mapM (·[i]?)
  let B ← scores.mapM (·[i + firstace]?)
  some ((ttest F A B).p, (ttest F A B).am)

/-- What a run with `-ace` ends with: the trees that are written, and for each feature `p` and mean importance, as in the importance file
(growforest.go:700-705, 871-877). -/
structure AceResult (K : Type) where
  trees : List (Tree K × List Nat)
  tests : List (XF K × XF K)

/-- A run with `-ace` (growforest.go:529-556, 577-830, 871-877): `shuf k` are the random numbers of the shuffling before forest `k`. With a cutoff, a last
forest of the significant features; else the last of the first forests is written. -/
def RunSetup.aceRun [FloorRing K] (nt : NumText K) (F : MathFns K) (r : RunSetup K τ) (mTry : Text) (targeti : Nat) (marks : List Bool)
    (nNonMissing nCats ace : Nat) (cutoff : XF K) (own global shuf : Nat → Rng) : Option (AceResult K) := do
  let (fm, firstace, marks, _) ← aceSetup r.fm targeti marks (shuf 0)
  let (forests, fm) ← r.aceForests targeti firstace marks nNonMissing nCats (!decide (.fin 0 < cutoff)) own global shuf ace 0 fm
  let tests ← (List.range firstace).mapM (aceTest F firstace (forests.map (·.2)))
  if .fin 0 < cutoff then do
    let kept := aceFilter firstace targeti cutoff (fun i => tests[i]?.getD (.nan, .nan)) marks
    let m ← inferMTry nt mTry kept.2
    let r := { r with fm := fm, o := { r.o with mTry := m.toNat } }
    let ts ← r.run r.grower nNonMissing nCats (candidates fm targeti kept.1) (own ace) (global ace)
    some ⟨ts, tests⟩
  else do
    let x ← forests.getLast?
    some ⟨x.1, tests⟩

/-- A line of the importance file of a run with `-ace` (growforest.go:871-877): target, feature, `p`, mean. -/
structure AceLine (K : Type) where
  target : String
  feature : String
  p : XF K
  mean : XF K

/-- growforest with `-ace` (growforest.go:216-219, 239-482, 516-556, 577-830, 871-877): the text of the data, the text of the forest and the lines of the
importance file. Simplified: `ace` is positive, the cutoff not negative (with a negative one the last forest is not scored, 784), and the number of cores
one. -/
def aceCommand [FloorRing K] (nt : NumText K) (log : XF K → XF K) (F : MathFns K) (ord : Splitter K → List String) (a : GrowArgs) (ace : Nat)
    (cutoff : XF K) (draws : Nat) (order : List Nat → List Nat) (text : Text) (own global shuf : Nat → Rng) : Option (Text × List (AceLine K)) := do
  let fm ← parseAFM nt text
  let (targeti, b) ← chooseFeatures fm a.blacklist a.target a.block a.incl
  let mTry ← inferMTry nt a.mTry (b.nFeatures fm).toNat
  let target ← fm.data[targeti]?
  let res ← match target with
    | .cat f => do
      let how ← a.bagging f
      let leafSize ← inferLeafSize nt a.leafSize false f.cm.nCats (nKnown f.missing)
      let nSamples ← inferNSamples nt a.nSamples (nKnown f.missing)
      let r := a.classRun log fm f how mTry.toNat leafSize.toNat nSamples.toNat draws order
      r.aceRun nt F a.mTry targeti b.marks (nKnown f.missing) f.cm.nCats ace cutoff own global shuf
    | .num f => do
      if a.balance then none
      let leafSize ← inferLeafSize nt a.leafSize false 0 (nKnown f.missing)
      let nSamples ← inferNSamples nt a.nSamples (nKnown f.missing)
      let r := a.numRun nt fm f mTry.toNat leafSize.toNat nSamples.toNat draws order
      r.aceRun nt F a.mTry targeti b.marks (nKnown f.missing) 0 ace cutoff own global shuf
  let file ← growforestFile nt ord a.progress a.target none (res.trees.map (·.1))
  some (file, List.zipWith (fun f x => ⟨a.target, f.name, x.1, x.2⟩) fm.data res.tests)

end CloudForest
