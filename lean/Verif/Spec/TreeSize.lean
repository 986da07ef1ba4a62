import Verif.Spec.Tree

/-!
# The size of a tree
-/

namespace CloudForest
variable {K : Type} [Field K] [LinearOrder K] [IsStrictOrderedRing K]

/-- How many nodes of the tree split. -/
def splitCount : Node K → Nat
  | .nil => 0
  | .mk coded _ l r m _ spl => if splits coded spl then 1 + splitCount l + splitCount r + splitCount m else 0

/-- How many nodes the tree has, leaves included. -/
def nodesOf : Node K → Nat
  | .nil => 0
  | .mk coded _ l r m _ spl => if splits coded spl then 1 + nodesOf l + nodesOf r + nodesOf m else 1

end CloudForest
