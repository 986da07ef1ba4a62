import Verif.Spec.Tree
import Verif.Spec.Search
import Verif.Model.Tree

/-!
# The uses a tree makes of the features
-/

namespace CloudForest
variable {K : Type} [Field K] [LinearOrder K] [IsStrictOrderedRing K]

/-- A split in a tree: the feature, the decrease of impurity it brings, and its depth. -/
structure Use (K : Type) where
  feature : Nat
  dec : K
  depth : Nat

/-- The splits of a tree, given the cases at its root and the root's depth. The cases of a child are those
of its parent that go there. `dec` is the decrease brought by a division of some cases. -/
def usesOf (fm : FeatureMatrix K) (dec : Nat → Coded K → List Nat → K) :
    Node K → List Nat → Nat → List (Use K)
  | .nil, _, _ => []
  | .mk none _ _ _ _ _ _, _, _ => []
  | .mk (some code) fi l r m _ spl, cs, d =>
    ⟨fi, dec fi code cs, d⟩ ::
      (usesOf fm dec l (cs.filter fun c => caseDir fm (some code) fi spl c == some .L) (d + 1) ++
       usesOf fm dec r (cs.filter fun c => caseDir fm (some code) fi spl c == some .R) (d + 1) ++
       usesOf fm dec m (cs.filter fun c => caseDir fm (some code) fi spl c == some .M) (d + 1))

/-- The decrease of the impurity `imp` of some cases, divided by a code of feature `fi` into left,
right and missing: `imp` of all minus the size-weighted mean of `imp` of the parts. -/
def threeWayDecrease (fm : FeatureMatrix K) (imp : List Nat → K) (fi : Nat) (code : Coded K)
    (cs : List Nat) : K :=
  let part := fun d => cs.filter fun c => caseDir fm (some code) fi none c == some d
  imp cs - ((part .L).length * imp (part .L) + (part .R).length * imp (part .R) +
    (part .M).length * imp (part .M)) / cs.length

/-- The tree uses the feature somewhere. -/
def usesFeature (us : List (Use K)) (i : Nat) : Bool := us.any fun u => u.feature == i

/-- No node of the tree has a missing branch. -/
def NoMissingBranch : Node K → Prop
  | .nil => True
  | .mk _ _ l r m _ _ => m = .nil ∧ NoMissingBranch l ∧ NoMissingBranch r

end CloudForest
