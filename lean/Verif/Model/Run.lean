import Verif.Model.Scratch
import Verif.Model.Oob
import Verif.Model.TreeFile

/-!
# A run of growforest with one worker (growforest/growforest.go:579-754)

Sampling, growing in the worker's scratch space, and the reuse of its tree object. Left out, as elsewhere: boosting,
artificial contrasts, importances, output other than the trees.
-/

namespace CloudForest
variable {K : Type} [Field K] [LinearOrder K] [IsStrictOrderedRing K]

/-- How the cases of a tree are chosen (growforest.go:344-353, 605-611, 623-649): drawn with replacement, from each class alike
(`-balance`), from each class of another feature and then from each class alike (`-balanceby`), or without bagging
(`-nobag`). -/
inductive Bagging where
  | plain
  | balanced (buckets : List (List Nat))
  | secondary (s : SecondarySampler)
  | nobag

/-- The cases of the next tree (growforest.go:621-649). `missing` says for each case whether its target is missing, `cases` are those
of the worker, `fuel` bounds the draws of plain bagging. -/
def drawBag (how : Bagging) (missing : List Bool) (nSamples fuel : Nat) (cases : List Nat) (rng : Rng) :
    Option (List Nat × Rng) :=
  match how with
  | .plain => bagLoop (missing[·]?) missing.length nSamples fuel [] rng
  | .balanced b => balancedSample b nSamples rng
  | .secondary s => s.sample nSamples rng
  | .nobag => nobagTree (missing[·]?) missing.length nSamples cases rng

/-- What does not change during a run (growforest.go:43-210, 341-400): the data, the target and the options. Simplified: all
features have the same number of cases. `order` is
how growing a tree leaves the worker's cases, of which only the order changes. -/
structure RunSetup (K : Type) (τ : Type) where
  fm : FeatureMatrix K
  T : Target K
  C : Contrast K τ
  o : SplitOpts
  findPredicted : List Nat → String
  maxDepth : Int
  splitmissing : Bool
  oob : Bool
  dotest : Bool
  how : Bagging
  target : String
  missing : List Bool
  nSamples : Nat
  nTrees : Nat
  draws : Nat
  order : List Nat → List Nat

/-- What a worker keeps from tree to tree (growforest.go:593-619): its tree object, its cases, the state of the
searches, and the global random stream. -/
structure WorkerState (K : Type) where
  root : Node K
  cases : List Nat
  st : SplitState K
  rng : Rng

/-- The out-of-bag cases of the next tree (growforest.go:651-662): those of the tree before if they are not asked for,
and at first there are none. -/
def RunSetup.oobNow {τ : Type} (r : RunSetup K τ) (before bag : List Nat) : Option (List Nat) :=
  if r.oob || r.o.evaloob then oobCases r.missing.length bag else some before

/-- How trees are grown (growforest.go:664-668): the scratch space is made for `nSamples` cases (619). -/
def RunSetup.grower {τ : Type} (r : RunSetup K τ) : Grower K (SplitState K) :=
  treeGrowerIn r.nSamples r.fm r.T r.C r.o r.findPredicted r.maxDepth r.splitmissing

/-- One tree, grown by `g` (growforest.go:620-668): the tree and its bag. -/
def RunSetup.tree {τ : Type} (r : RunSetup K τ) (g : Grower K (SplitState K)) (s : WorkerState K) : Option ((Tree K × List Nat) × WorkerState K) := do
  let (bag, rng) ← drawBag r.how r.missing r.nSamples r.draws s.cases s.rng
  let oob ← r.oobNow s.st.oob bag
  let (root, st) ← grow g r.fm (bag.length + 1) s.root { s.st with oob := oob } bag 0 0
  some ((⟨root, r.target, .fin (-1)⟩, bag), ⟨root, r.order bag, st, rng⟩)

/-- The trees from tree number `started` on (growforest.go:620-742), `left` of them: with `-test` a tree object is kept
and a new one taken while `treesStarted < nTrees-1` (713-721), otherwise the object is used again. -/
def RunSetup.trees {τ : Type} (r : RunSetup K τ) (g : Grower K (SplitState K)) :
    Nat → Nat → WorkerState K → Option (List (Tree K × List Nat))
  | 0, _, _ => some []
  | left + 1, started, s => do
    let (t, s) ← r.tree g s
    let s := if r.dotest && started + 1 < r.nTrees then { s with root := .fresh } else s
    let rest ← r.trees g left (started + 1) s
    some (t :: rest)

/-- The worker at the start (growforest.go:591-619): a new tree, the cases with known target among the first
`nNonMissing` if there is no bagging, the candidate features `cans`, and scratch space for a target with `nCats`
categories. -/
def RunSetup.start {τ : Type} (r : RunSetup K τ) (nNonMissing nCats : Nat) (cans : List Nat) (own global : Rng) :
    Option (WorkerState K) := do
  let cases ← match r.how with
    | .nobag => nobagCases (r.missing[·]?) nNonMissing
    | _ => some []
  some ⟨.fresh, cases, ⟨newAllocs nCats, own, cans, []⟩, global⟩

/-- The run: at least one tree is grown (growforest.go:579-742 with one core). -/
def RunSetup.run {τ : Type} (r : RunSetup K τ) (g : Grower K (SplitState K)) (nNonMissing nCats : Nat) (cans : List Nat) (own global : Rng) :
    Option (List (Tree K × List Nat)) := do
  let s ← r.start nNonMissing nCats cans own global
  r.trees g (max 1 r.nTrees) 1 s

end CloudForest
