import Verif.Model.Splitter
import Verif.Model.Ballot

/-!
# Importance scores and minimal depths
(tree.go:96-176, growforest.go:613-617, 670-680 and 878-887)
-/

namespace CloudForest
variable {K : Type} [Field K] [LinearOrder K] [IsStrictOrderedRing K] {σ : Type}

/-- `importance` and `depthUsed` as handed to `Tree.Grow` (tree.go:109-110); `none` is a nil
pointer. -/
structure Books (K : Type) where
  importance : Option (List (RunningMean K))
  depthUsed : Option (List Nat)

/-- `(*importance)[fi].Add(impDec)` if there is such a list (tree.go:142-144). -/
def Books.addImportance (b : Books K) (fi : Nat) (dec : XF K) : Option (Books K) :=
  match b.importance with
  | none => some b
  | some l => do
    let m ← l[fi]?
    some { b with importance := some (l.set fi (m.add dec)) }

/-- The update of `depthUsed` (tree.go:145-147). -/
def Books.useAt (b : Books K) (fi : Nat) (depth : Nat) : Option (Books K) :=
  match b.depthUsed with
  | none => some b
  | some l => do
    let d ← l[fi]?
    some (if d = 0 ∨ depth < d then { b with depthUsed := some (l.set fi depth) } else b)

/-- What is noted about one split (tree.go:142-147). -/
def Books.note (b : Books K) (fi : Nat) (dec : XF K) (depth : Nat) : Option (Books K) := do
  let b ← b.addImportance fi dec
  b.useAt fi depth

/-- As `Grower`, with the decrease `impDec` among the results of the search (tree.go:133). -/
structure NotingGrower (K : Type) (σ : Type) where
  best : σ → List Nat → Nat → Option (σ × BestResult K × XF K)
  findPredicted : List Nat → String
  leafSize : Nat
  maxDepth : Int
  splitmissing : Bool

/-- The same search without the decrease (tree.go:133). -/
def NotingGrower.forget (g : NotingGrower K σ) : Grower K σ where
  best st cs nc := (g.best st cs nc).map fun r => (r.1, r.2.1)
  findPredicted := g.findPredicted
  leafSize := g.leafSize
  maxDepth := g.maxDepth
  splitmissing := g.splitmissing

/-- `Tree.Grow` with its bookkeeping (tree.go:96-176, node.go:72-86); otherwise as `grow`. -/
def growNoting (g : NotingGrower K σ) (fm : FeatureMatrix K) : Nat → Node K → σ → List Nat →
    Nat → Nat → Books K → Option (Node K × σ × Books K)
  | 0, _, _, _, _, _, _ => none
  | _ + 1, .nil, _, _, _, _, _ => none
  | fuel + 1, .mk _ fi0 l r m _ _, st, cases, depth, nc, b =>
    if ((depth : Int) < g.maxDepth ∨ g.maxDepth ≤ 0) ∧ 2 * g.leafSize ≤ cases.length then
      (g.best st cases nc).bind fun x =>
      x.2.1.split.elim
        (some (.mk none fi0 l r m (g.findPredicted x.2.1.cases) none, x.1, b)) fun code =>
      (b.note x.2.1.fi x.2.2 depth).bind fun b =>
      (fm.data[x.2.1.fi]?).bind fun f =>
      (f.decodeSplit code).bind fun spl =>
      (f.splitPoints code x.2.1.cases).bind fun pts =>
      let kids := growChildren g.splitmissing l r m
      (growNoting g fm fuel kids.1 x.1 (pts.1.take pts.2.1) (depth + 1) x.2.1.nconstants b).bind
        fun gl =>
      (growNoting g fm fuel kids.2.1 gl.2.1 (pts.1.drop pts.2.2) (depth + 1) x.2.1.nconstants
        gl.2.2).bind fun gr =>
      if pts.2.1 ≠ pts.2.2 ∧ kids.2.2.isNil = false then
        (growNoting g fm fuel kids.2.2 gr.2.1 ((pts.1.drop pts.2.1).take (pts.2.2 - pts.2.1))
          (depth + 1) x.2.1.nconstants gr.2.2).bind fun gm =>
        some (.mk (some code) x.2.1.fi gl.1 gr.1 gm.1 "" (some spl), gm.2.1, gm.2.2)
      else some (.mk (some code) x.2.1.fi gl.1 gr.1 kids.2.2 "" (some spl), gr.2.1, gr.2.2)
    else some (.mk none fi0 l r m (g.findPredicted cases) none, st, b)

/-- `BestSplitter` as called by `Tree.Grow`, with the decrease it returns (tree.go:133). -/
def treeNoter {τ : Type} (fm : FeatureMatrix K) (T : Target K) (C : Contrast K τ) (o : SplitOpts)
    (findPredicted : List Nat → String) (maxDepth : Int) (splitmissing : Bool) :
    NotingGrower K (SplitState K) where
  best st cases nc := do
    let d ← bestSplitter fm T C o st cases nc
    some (⟨d.st.work.allocs, d.st.work.rng, d.cans, d.st.oob⟩,
      ⟨d.st.work.cases, d.fi, d.split, d.nConst⟩, d.imp)
  findPredicted := findPredicted
  leafSize := o.leafSize
  maxDepth := maxDepth
  splitmissing := splitmissing

/-- One tree of a run: what happens to the state of the search before (sampling, out-of-bag
cases), the node grown on, which is a new one or the last one again, and the bag
(growforest.go:600, 620-662, 713-721). -/
structure Job (K : Type) (σ : Type) where
  prep : σ → σ
  start : Node K
  bag : List Nat

/-- The minimal depths of a tree go into the means and are cleared (growforest.go:670-680). -/
def countDepths : List Nat → List (RunningMean K) → List (RunningMean K)
  | v :: du, m :: mmd => (if v ≠ 0 then m.add (XF.ofNat v) else m) :: countDepths du mmd
  | _, mmd => mmd

/-- What a run with `-importance` accumulates: importances and mean minimal depths of all
features (growforest.go:558-564). -/
structure Scores (K : Type) where
  imp : List (RunningMean K)
  mmd : List (RunningMean K)

/-- `NewRunningMeans` twice (growforest.go:563-564, utils.go:60-68). -/
def Scores.new (n : Nat) : Scores K :=
  ⟨List.replicate n RunningMean.new, List.replicate n RunningMean.new⟩

/-- The trees of a run by one worker with `-importance` (growforest.go:619-748). Simplified:
boosting, output and testing are left out, as they do not touch the scores. `depthUsed` is all
zeroes at the start of every tree (615, 674). -/
def growScored (g : NotingGrower K σ) (fm : FeatureMatrix K) (fuel : Nat) : List (Job K σ) → σ →
    Scores K → Option (List (Node K) × Scores K)
  | [], _, s => some ([], s)
  | job :: jobs, st, s => do
    let r ← growNoting g fm fuel job.start (job.prep st) job.bag 0 0
      ⟨some s.imp, some (List.replicate fm.data.length 0)⟩
    let imp ← r.2.2.importance
    let du ← r.2.2.depthUsed
    let rest ← growScored g fm fuel jobs r.2.1 ⟨imp, countDepths du s.mmd⟩
    some (r.1 :: rest.1, rest.2)

/-- A line of the importance file without the name (growforest.go:878-887). -/
structure ImpLine (K : Type) where
  perUse : XF K
  uses : XF K
  perTree : XF K
  perTreeUsed : XF K
  treesUsed : XF K
  meanMinDepth : XF K
  deriving DecidableEq

/-- The line of feature `i` (growforest.go:880-884). -/
def Scores.line (s : Scores K) (nTrees : Nat) (i : Nat) : Option (ImpLine K) := do
  let m ← s.imp[i]?
  let d ← s.mmd[i]?
  some ⟨m.mean, m.count, m.mean * m.count / XF.ofNat nTrees, m.mean * m.count / d.count, d.count,
    d.mean⟩

end CloudForest
