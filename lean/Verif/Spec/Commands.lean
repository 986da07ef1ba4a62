import Verif.Spec.Values
import Verif.Spec.Tree
import Verif.Spec.Apply
import Verif.Spec.Target
import Verif.Spec.Text
import Verif.Spec.Driver

/-!
# What a forest should answer

By counting cases only.
-/

namespace CloudForest
variable {K : Type} [Field K] [LinearOrder K] [IsStrictOrderedRing K]

/-- The cases of the bag that end in the same leaf as case `c`. -/
def neighbours (fm : FeatureMatrix K) (t : Tree K) (bag : List Nat) (c : Nat) : List Nat :=
  bag.filter fun d => (landing fm t.root d).map (·.1) == (landing fm t.root c).map (·.1)

/-- Class `p` is a class of the listed cases, and none is more frequent among them. -/
def CatFeature.Plurality (f : CatFeature) (cases : List Nat) (p : String) : Prop :=
  (∃ c ∈ cases, f.getStr c = some p) ∧
    ∀ q, (cases.filter fun c => decide (f.getStr c = some q)).length ≤ (cases.filter fun c => decide (f.getStr c = some p)).length

/-- A tree with a bag says nothing about a case only if a value of the case is missing, and otherwise what is right for its
neighbours in the bag. -/
def AnswersBy (fm : FeatureMatrix K) (right : List Nat → String → Prop) (x : Tree K × List Nat) (c : Nat) : Prop :=
  match x.1.opinion fm c with
  | none => ∃ f ∈ fm.data, f.isMissing c = some true
  | some p => right (neighbours fm x.1 x.2 c) p

/-- How many of the trees say `p` of case `c`. -/
def votesFor (fm : FeatureMatrix K) (voters : List (Tree K × List Nat)) (c : Nat) (p : String) : Nat :=
  (voters.filter fun x => decide (x.1.opinion fm c = some p)).length

/-- The means of the neighbours of case `c`, of each tree that says something about it. -/
def meansFor (fm : FeatureMatrix K) (f : NumFeature K) (voters : List (Tree K × List Nat)) (c : Nat) : List K :=
  (voters.filter fun x => (x.1.opinion fm c).isSome).map fun x => f.meanOf (neighbours fm x.1 x.2 c)

instance (ids : List String) (target : String) (block incl : Option (String → Bool)) (name : String) :
    Decidable (Allowed ids target block incl name) :=
  decidable_of_iff (name ≠ target ∧ name ∉ ids ∧ block.all (fun p => !p name) = true ∧ incl.all (fun p => p name) = true) (by
    unfold Allowed
    cases block <;> cases incl <;> simp)

/-- The features that may be split on. -/
def allowedFeatures (fm : FeatureMatrix K) (ids : List String) (target : String) (block incl : Option (String → Bool)) :
    List (Feature K) :=
  fm.data.filter fun f => decide (Allowed ids target block incl f.name)

/-- The table can be used: no two features have one name, numbers are finite, strings contain none of the marks of the forest
format, and the target is known for some case. -/
structure FeatureMatrix.Clean (fm : FeatureMatrix K) (target : String) : Prop where
  names : (fm.data.map Feature.name).Nodup
  finite : ∀ f, .num f ∈ fm.data → ∀ (i : Nat) x, f.missing[i]? = some false → f.numData[i]? = some x → ∃ y, x = XF.fin y
  tidy : ∀ f ∈ fm.data, match f with
    | .cat f => Plain f.name.toList ∧ ∀ s ∈ f.cm.back, Plain s.toList ∧ ':' ∉ s.toList
    | .num f => Plain f.name.toList
  known : ∀ f ∈ fm.data, f.name = target → ∃ i, f.isMissing i = some false

end CloudForest
