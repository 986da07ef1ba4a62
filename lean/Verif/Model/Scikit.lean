import Verif.Model.Tree

/-!
# The flat tree in the memory layout of scikit-learn
(sklearn_tree.go)
-/

namespace CloudForest

variable {K : Type} [Field K] [LinearOrder K]

/-- `ScikitNode` (sklearn_tree.go:17-25). `Impurity`, `NNodeSamples` and `WeightedNNodeSamples`
are left out: nothing writes them. -/
structure SkNode (K : Type) where
  leftChild : Int
  rightChild : Int
  feature : Nat
  threshold : XF K
deriving DecidableEq

/-- `ScikitTree` (sklearn_tree.go:46-57), the fields that `BuildScikitTree` writes. The others are
constants set by `NewScikitTree`. -/
structure SkTree (K : Type) where
  maxDepth : Nat
  nodeCount : Nat
  capacity : Nat
  nodes : List (SkNode K)
deriving DecidableEq

/-- `NewScikitTree` (sklearn_tree.go:59-73). -/
def SkTree.new : SkTree K := ⟨0, 0, 0, []⟩

/-- The assignments `sktree.Nodes[pos].X = …` (sklearn_tree.go:91-94, 99-100). Panics out of
range. -/
def SkTree.upd (t : SkTree K) (pos : Nat) (g : SkNode K → SkNode K) : Option (SkTree K) := do
  let n ← t.nodes[pos]?
  some { t with nodes := t.nodes.set pos (g n) }

/-- `BuildScikitTree` (sklearn_tree.go:77-103). A nil node panics at `n.Splitter`. -/
def buildSk (depth : Nat) : Node K → SkTree K → Option (SkTree K)
  | .nil, _ => none
  | .mk _ featurei left right _ _ splitter, t => do
    let t : SkTree K := if t.maxDepth < depth then { t with maxDepth := depth } else t
    let t : SkTree K := { t with nodeCount := t.nodeCount + 1, capacity := t.capacity + 1 }
    let pos := t.nodes.length
    let t : SkTree K := { t with nodes := t.nodes ++ [(⟨0, 0, 0, .fin 0⟩ : SkNode K)] }
    match splitter with
    | some s => do
      let t ← t.upd pos fun n => { n with feature := featurei }
      let t ← t.upd pos fun n => { n with threshold := s.value }
      let t ← t.upd pos fun n => { n with leftChild := t.nodeCount }
      let t ← buildSk (depth + 1) left t
      let t ← t.upd pos fun n => { n with rightChild := t.nodeCount }
      buildSk (depth + 1) right t
    | none => do
      let t ← t.upd pos fun n => { n with leftChild := -1 }
      t.upd pos fun n => { n with rightChild := -1 }

end CloudForest
