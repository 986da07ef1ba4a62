import Verif.Spec.Tree

/-!
# Cases that share a leaf, and the features they are split by
-/

namespace CloudForest
variable {K : Type} [Field K] [LinearOrder K] [IsStrictOrderedRing K]

/-- Two cases that reach the same leaf. -/
def together (fm : FeatureMatrix K) (t : Tree K) (a b : Nat) : Bool :=
  match landing fm t.root a, landing fm t.root b with
  | some x, some y => x.1 == y.1
  | _, _ => false

/-- The names of the features by which a case is split on its way down. -/
def consulted (fm : FeatureMatrix K) : Node K → Nat → List String
  | .nil, _ => []
  | .mk coded fi l r m _ spl, c =>
    (spl.map (·.feature)).toList ++
      match caseDir fm coded fi spl c with
      | some .L => consulted fm l c
      | some .R => consulted fm r c
      | some .M => consulted fm m c
      | none => []

/-- The splitters of a tree, in preorder. -/
def splittersOf : Node K → List (Splitter K)
  | .nil => []
  | .mk _ _ l r m _ spl => spl.toList ++ (splittersOf l ++ splittersOf r ++ splittersOf m)

end CloudForest
