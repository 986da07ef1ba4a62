import Verif.Model.Sf
import Verif.Spec.Tree
import Verif.Spec.Ballot

/-!
# What a forest predicts

One case at a time; no ballots.
-/

namespace CloudForest
variable {K : Type} [Field K] [LinearOrder K] [IsStrictOrderedRing K]

/-- The prediction of the leaf that a case reaches, if it reaches one. -/
def Tree.opinion (fm : FeatureMatrix K) (t : Tree K) (i : Nat) : Option String :=
  (landing fm t.root i).map (·.2)

/-- How much a tree counts: its weight, or one if that is negative. -/
def Tree.say (t : Tree K) : K :=
  match t.weight with
  | .fin x => if 0 ≤ x then x else 1
  | _ => 1

/-- The weight of the trees that predict `p` for case `i`. -/
def weightOf (fm : FeatureMatrix K) (trees : List (Tree K)) (i : Nat) (p : String) : K :=
  ((trees.filter fun t => decide (t.opinion fm i = some p)).map Tree.say).sum

/-- The numbers that the trees predict for case `i`, with the trees' weights. -/
def numbersOf (nt : NumText K) (fm : FeatureMatrix K) (trees : List (Tree K)) (i : Nat) : List (K × K) :=
  trees.filterMap fun t =>
    match (t.opinion fm i).bind fun p => nt.parse p.toList with
    | some (.fin y) => some (y, t.say)
    | _ => none

/-- A forest that can be used on a matrix: trees of finite weight with children and features where they are
needed. -/
def Forest.Fits (forest : Forest K) (fm : FeatureMatrix K) : Prop :=
  ∀ t ∈ forest.trees, (∃ x, t.weight = .fin x) ∧ ∀ cases, fm.allCases = some cases → Usable fm cases t.root

end CloudForest
