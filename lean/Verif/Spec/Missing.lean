import Verif.Spec.Commands

/-!
# A case that goes right where its value is missing
-/

namespace CloudForest
variable {K : Type} [Field K] [LinearOrder K] [IsStrictOrderedRing K]

/-- The leaf that a case reaches if it goes right wherever its value is missing. -/
def landingRight (fm : FeatureMatrix K) : Node K → Nat → Option (List Dir × String)
  | .nil, _ => none
  | .mk coded fi l r _ pred spl, c =>
    if splits coded spl then
      match caseDir fm coded fi spl c with
      | some .L => (landingRight fm l c).map fun x => (.L :: x.1, x.2)
      | some _ => (landingRight fm r c).map fun x => (.R :: x.1, x.2)
      | none => none
    else some ([], pred)

/-- What is said of a case that goes right wherever its value is missing. -/
def Tree.opinionRight (fm : FeatureMatrix K) (t : Tree K) (c : Nat) : Option String :=
  (landingRight fm t.root c).map (·.2)

/-- The cases of the bag in the leaf that case `c` reaches if it goes right wherever its value is missing. The cases of the bag
themselves take the branch for missing values. -/
def neighboursRight (fm : FeatureMatrix K) (t : Tree K) (bag : List Nat) (c : Nat) : List Nat :=
  bag.filter fun d => (landing fm t.root d).map (·.1) == (landingRight fm t.root c).map (·.1)

/-- How many of the trees say `p` of case `c` if it goes right wherever its value is missing. -/
def votesForRight (fm : FeatureMatrix K) (voters : List (Tree K × List Nat)) (c : Nat) (p : String) : Nat :=
  (voters.filter fun x => decide (x.1.opinionRight fm c = some p)).length

end CloudForest
