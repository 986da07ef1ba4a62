import Verif.Model.Feature

/-!
# Nodes and trees (node.go, tree.go)
-/

namespace CloudForest

/-- `*Node` (node.go:16-24); `nil` is Go's nil pointer. -/
inductive Node (K : Type) where
  | nil
  | mk (coded : Option (Coded K)) (featurei : Nat) (left right missing : Node K)
      (pred : String) (splitter : Option (Splitter K))

/-- `Tree` (tree.go:15-20). -/
structure Tree (K : Type) where
  root : Node K
  target : String
  weight : XF K

namespace Node
variable {K : Type}

/-- A test for Go's nil pointer (tree.go:155, 349, 374, 415). -/
def isNil : Node K → Bool
  | nil => true
  | _ => false

/-- `new(Node)` (tree.go:24, 156-157). -/
def fresh : Node K := mk none 0 nil nil nil "" none

/-- The test `n.Left == nil && n.Right == nil` by which leaves are recognised
(tree.go:349, 374, 415). -/
def isLeaf : Node K → Bool
  | nil => false
  | mk _ _ l r _ _ _ => l.isNil && r.isNil

/-- `n.Pred` (node.go:22). -/
def predOf : Node K → String
  | nil => ""
  | mk _ _ _ _ _ p _ => p

end Node

section
variable {K : Type} [Field K] [LinearOrder K] [IsStrictOrderedRing K]

/-- The split made at a node in `Recurse` (node.go:57-64): by the coded split if there is one,
else by the splitter; `some none` means neither (`default: return`), `none` a panic. -/
def nodeSplit (fm : FeatureMatrix K) (coded : Option (Coded K)) (fi : Nat)
    (spl : Option (Splitter K)) (cases : List Nat) : Option (Option Split3) :=
  match coded, spl with
  | some code, _ => do
      let f ← fm.data[fi]?
      let r ← f.split code cases
      some (some r)
  | none, some s => do
      let r ← s.split fm cases
      some (some r)
  | none, none => some none

/-- One call of the recursable function: the node, the cases it was given, the depth (node.go:9). -/
structure Visit (K : Type) where
  node : Node K
  cases : List Nat
  depth : Nat

/-- `Node.Recurse` (node.go:53-70): the calls made to `r`, in order, and the final contents of
the case slice. Left, right and missing are disjoint parts of one slice, so each recursive
call rewrites its own part only. Every `r` in the code reads fields of the node, so a call on
a nil node panics. Simplified: `r` does not change the tree (true of all callers but none of
the growers). -/
def Node.recurse (fm : FeatureMatrix K) : Node K → List Nat → Nat →
    Option (List (Visit K) × List Nat)
  | .nil, _, _ => none
  | .mk coded fi l r m pred spl, cases, depth => do
      let me : Visit K := ⟨.mk coded fi l r m pred spl, cases, depth⟩
      match ← nodeSplit fm coded fi spl cases with
      | none => some ([me], cases)
      | some sp =>
        let vl ← l.recurse fm sp.left (depth + 1)
        let vr ← r.recurse fm sp.right (depth + 1)
        if sp.missing.length > 0 && !m.isNil then
          let vm ← m.recurse fm sp.missing (depth + 1)
          some (me :: (vl.1 ++ vr.1 ++ vm.1), vl.2 ++ vm.2 ++ vr.2)
        else
          some (me :: (vl.1 ++ vr.1), vl.2 ++ sp.missing ++ vr.2)

/-- A vote: `bb.Vote(case, pred, weight)` (tree.go:418). -/
structure Ballot (K : Type) where
  case : Nat
  pred : String
  weight : XF K

/-- The weight used by `VoteCases` (tree.go:409-412). -/
def Tree.voteWeight (t : Tree K) : XF K :=
  if (XF.fin 0 : XF K) ≤ t.weight then t.weight else .fin 1

/-- `Tree.VoteCases` (tree.go:407-422): the votes in the order cast, and the caller's slice
afterwards. -/
def Tree.voteCases (t : Tree K) (fm : FeatureMatrix K) (cases : List Nat) :
    Option (List (Ballot K) × List Nat) := do
  let r ← t.root.recurse fm cases 0
  some (r.1.flatMap fun v =>
      if v.node.isLeaf then v.cases.map fun c => ⟨c, v.node.predOf, t.voteWeight⟩ else [],
    r.2)

/-- All cases of the matrix (tree.go:342-346, 367-371, 395-399). Panics without features. -/
def FeatureMatrix.allCases (fm : FeatureMatrix K) : Option (List Nat) := do
  let f ← fm.data[0]?
  some (List.range f.length)

/-- `Tree.Vote` (tree.go:394-402). -/
def Tree.vote (t : Tree K) (fm : FeatureMatrix K) : Option (List (Ballot K)) := do
  let cs ← fm.allCases
  let r ← t.voteCases fm cs
  some r.1

/-- `Tree.Partition` (tree.go:364-382): groups of cases and their predictions. The retained
slices are not rewritten later, since a leaf is not split. -/
def Tree.partition (t : Tree K) (fm : FeatureMatrix K) : Option (List (List Nat) × List String) := do
  let cs ← fm.allCases
  let r ← t.root.recurse fm cs 0
  let ls := r.1.filter fun v => v.node.isLeaf
  some (ls.map (·.cases), ls.map (·.node.predOf))

/-- `Tree.GetLeaves` (tree.go:340-361): the leaves, and the calls `fbycase.Add(c, feature, 1)`
made on the way. -/
def Tree.getLeaves (t : Tree K) (fm : FeatureMatrix K) :
    Option (List (List Nat × String) × List (Nat × Nat)) := do
  let cs ← fm.allCases
  let r ← t.root.recurse fm cs 0
  let ls := r.1.filter fun v => v.node.isLeaf
  some (ls.map fun v => (v.cases, v.node.predOf),
    r.1.flatMap fun v =>
      match v.node with
      | .mk _ _ _ _ _ _ (some s) => v.cases.map fun c => (c, (fm.map s.feature).getD 0)
      | _ => [])

/-- `Tree.StripCodes` on a node and everything below it (tree.go:66-73, node.go:27-38). -/
def Node.stripCodes : Node K → Node K
  | .nil => .nil
  | .mk _ fi l r m p s => .mk none fi l.stripCodes r.stripCodes m.stripCodes p s

/-- What the search for a split at a node returns (`FeatureMatrix.BestSplitter`,
featurematrix.go:148-159): the rearranged cases, the feature index, the coded split if any, and
the number of known constants. -/
structure BestResult (K : Type) where
  cases : List Nat
  fi : Nat
  split : Option (Coded K)
  nconstants : Nat

/-- What `Tree.Grow` needs from its environment: the split search, with whatever state it keeps (candidate order,
random stream, scratch space) in `σ`; a panic is `none` (tree.go:75-113). And the target's `FindPredicted`. -/
structure Grower (K : Type) (σ : Type) where
  best : σ → List Nat → Nat → Option (σ × BestResult K)
  findPredicted : List Nat → String
  leafSize : Nat
  maxDepth : Int
  splitmissing : Bool

/-- The children a split node recurses into (tree.go:155-161): reused unless one is nil; a new
missing child only with `splitmissing`. -/
def growChildren (splitmissing : Bool) (l r m : Node K) : Node K × Node K × Node K :=
  let lr := if l.isNil || r.isNil then (Node.fresh, Node.fresh) else (l, r)
  (lr.1, lr.2, if splitmissing then Node.fresh else m)

/-- `Tree.Grow` (tree.go:96-176) with `Node.CodedRecurse` (node.go:72-86), on the existing
node given. Left, right and missing cases are disjoint parts of one slice. Returns the grown
node and the search state. Importance and depthUsed bookkeeping is not part of this function.
`fuel` bounds the recursion depth; out of fuel is `none`, like a panic. -/
def grow {σ : Type} (g : Grower K σ) (fm : FeatureMatrix K) : Nat → Node K → σ → List Nat →
    Nat → Nat → Option (Node K × σ)
  | 0, _, _, _, _, _ => none
  | _ + 1, .nil, _, _, _, _ => none
  | fuel + 1, .mk _ fi0 l r m _ _, st, cases, depth, nc =>
    let leaf (st : σ) (cs : List Nat) : Option (Node K × σ) :=
      some (.mk none fi0 l r m (g.findPredicted cs) none, st)
    if ((depth : Int) < g.maxDepth ∨ g.maxDepth ≤ 0) ∧ 2 * g.leafSize ≤ cases.length then do
      let (st, res) ← g.best st cases nc
      match res.split with
      | none => leaf st res.cases
      | some code => do
        let f ← fm.data[res.fi]?
        let spl ← f.decodeSplit code
        let (cs, li, ri) ← f.splitPoints code res.cases
        let (l', r', m') := growChildren g.splitmissing l r m
        let (nl, st) ← grow g fm fuel l' st (cs.take li) (depth + 1) res.nconstants
        let (nr, st) ← grow g fm fuel r' st (cs.drop ri) (depth + 1) res.nconstants
        if li ≠ ri ∧ m'.isNil = false then do
          let (nm, st) ← grow g fm fuel m' st ((cs.drop li).take (ri - li)) (depth + 1)
            res.nconstants
          some (.mk (some code) res.fi nl nr nm "" (some spl), st)
        else
          some (.mk (some code) res.fi nl nr m' "" (some spl), st)
    else leaf st cases

end
end CloudForest
