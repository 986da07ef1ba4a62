import Verif.Spec.Commands

/-!
# Cases of another table

A tree grown on one table and applied to another: what a case of the other table has in common with the cases of the first.
-/

namespace CloudForest
variable {K : Type} [Field K] [LinearOrder K] [IsStrictOrderedRing K]

/-- The tree as a file holds it: splits name their feature and the values that go left. -/
def Tree.named (t : Tree K) : Tree K := { t with root := t.root.stripCodes }

/-- The cases of the bag, drawn from the table `fm` the tree was grown on, that end in the same leaf as case `c` of the table
`fm2`. -/
def neighboursIn (fm fm2 : FeatureMatrix K) (t : Tree K) (bag : List Nat) (c : Nat) : List Nat :=
  bag.filter fun d => (landing fm t.root d).map (·.1) == (landing fm2 t.named.root c).map (·.1)

/-- A tree says nothing about a case of another table only if a value of the case is missing, and otherwise what is right for its
neighbours in the bag. -/
def AnswersIn (fm fm2 : FeatureMatrix K) (right : List Nat → String → Prop) (x : Tree K × List Nat) (c : Nat) : Prop :=
  match x.1.named.opinion fm2 c with
  | none => ∃ f ∈ fm2.data, f.isMissing c = some true
  | some p => right (neighboursIn fm fm2 x.1 x.2 c) p

/-- How many of the trees say `p` of case `c` of another table. -/
def votesIn (fm2 : FeatureMatrix K) (voters : List (Tree K × List Nat)) (c : Nat) (p : String) : Nat :=
  (voters.filter fun x => decide (x.1.named.opinion fm2 c = some p)).length

/-- The means of the neighbours of case `c` of another table, of each tree that has a bag and says something about it. -/
def meansIn (fm fm2 : FeatureMatrix K) (f : NumFeature K) (voters : List (Tree K × List Nat)) (c : Nat) : List K :=
  (voters.filter fun x => !x.2.isEmpty && (x.1.named.opinion fm2 c).isSome).map fun x => f.meanOf (neighboursIn fm fm2 x.1 x.2 c)

/-- Two features are of one kind, and have the same value in case `d` of the one and case `c` of the other. -/
def SameValue : Feature K → Nat → Feature K → Nat → Prop
  | .num f, d, .num g, c => f.missing[d]? = g.missing[c]? ∧ (f.missing[d]? = some false → f.numData[d]? = g.numData[c]?)
  | .cat f, d, .cat g, c => f.missing[d]? = g.missing[c]? ∧ (f.missing[d]? = some false → f.getStr d = g.getStr c)
  | _, _, _, _ => False

/-- Case `c` of the second table has the values that case `d` of the first has in the listed features. -/
def Alike (fs : List (Feature K)) (fm2 : FeatureMatrix K) (d c : Nat) : Prop :=
  ∀ f ∈ fs, ∃ g ∈ fm2.data, g.name = f.name ∧ SameValue f d g c

end CloudForest
