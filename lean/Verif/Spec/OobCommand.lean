import Verif.Spec.ApplyWhole

/-!
# What trees should say out of their bags
-/

namespace CloudForest
variable {K : Type} [Field K] [LinearOrder K] [IsStrictOrderedRing K]

/-- What a tree is heard to say of a case: the prediction of the leaf it comes to, unless something hangs below that leaf. -/
def Node.heard (fm : FeatureMatrix K) : Node K → Nat → Option String
  | .nil, _ => none
  | .mk coded fi l r m pred spl, c =>
    if splits coded spl then
      match caseDir fm coded fi spl c with
      | some .L => l.heard fm c
      | some .R => r.heard fm c
      | some .M => m.heard fm c
      | none => none
    else if l.isNil && r.isNil then some pred else none

/-- What a tree is heard to say of a case that is not in its bag. -/
def saysOutside (fm : FeatureMatrix K) (x : Tree K × List Nat) (c : Nat) : Option String :=
  if c ∈ x.2 then none else x.1.root.heard fm c

/-- How many trees say `p` of case `c`, which is not in their bag. -/
def votesOutside (fm : FeatureMatrix K) (voters : List (Tree K × List Nat)) (c : Nat) (p : String) : Nat :=
  (voters.filter fun x => decide (saysOutside fm x c = some p)).length

/-- The means of the neighbours of case `c`, of each tree that says something about it and does not have it in its bag. -/
def meansOutside (fm : FeatureMatrix K) (f : NumFeature K) (voters : List (Tree K × List Nat)) (c : Nat) : List K :=
  (voters.filter fun x => (saysOutside fm x c).isSome).map fun x => f.meanOf (neighbours fm x.1 x.2 c)

/-- The mean of them, 0 if there are none. -/
def meanOutside (fm : FeatureMatrix K) (f : NumFeature K) (voters : List (Tree K × List Nat)) (c : Nat) : K :=
  (meansOutside fm f voters c).sum / (meansOutside fm f voters c).length

end CloudForest
