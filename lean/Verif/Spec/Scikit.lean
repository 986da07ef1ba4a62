import Verif.Model.Tree
import Verif.Model.Scikit

/-!
# Specification for C39: what a flat tree stands for
-/

namespace CloudForest

/-- A binary decision tree by itself: a leaf, or a feature number, a threshold and two
branches. -/
inductive BinTree (K : Type) where
  | leaf
  | split (feature : Nat) (threshold : XF K) (left right : BinTree K)

namespace BinTree
variable {K : Type}

/-- The number of nodes. -/
def size : BinTree K → Nat
  | leaf => 1
  | split _ _ l r => 1 + l.size + r.size

/-- The number of steps from the root to the deepest leaf. -/
def depth : BinTree K → Nat
  | leaf => 0
  | split _ _ l r => 1 + max l.depth r.depth

end BinTree

/-- `n` is the binary tree `b`: it splits where `b` does, on the same feature and threshold. Its
missing branches and categorical splits are not looked at. -/
inductive Node.IsBin {K : Type} : Node K → BinTree K → Prop
  | leaf (coded fi l r m pred) : Node.IsBin (.mk coded fi l r m pred none) .leaf
  | split (coded fi l r m pred s bl br) : Node.IsBin l bl → Node.IsBin r br →
      Node.IsBin (.mk coded fi l r m pred (some s)) (.split fi s.value bl br)

/-- Following the child indices of a flat tree from entry `i` gives the tree `b`. An entry without
children is a leaf. -/
inductive FlatReads {K : Type} (nodes : List (SkNode K)) : Int → BinTree K → Prop
  | leaf (i : Nat) (n : SkNode K) : nodes[i]? = some n → n.leftChild = -1 → n.rightChild = -1 →
      FlatReads nodes i .leaf
  | split (i : Nat) (n : SkNode K) (bl br) : nodes[i]? = some n → 0 ≤ n.leftChild →
      0 ≤ n.rightChild → FlatReads nodes n.leftChild bl → FlatReads nodes n.rightChild br →
      FlatReads nodes i (.split n.feature n.threshold bl br)

/-- The child indices of an entry. -/
def SkNode.children {K : Type} (n : SkNode K) : List Int :=
  if n.leftChild = -1 then [] else [n.leftChild, n.rightChild]

end CloudForest
