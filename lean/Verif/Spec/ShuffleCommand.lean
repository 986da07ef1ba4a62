import Verif.Spec.OtherData

/-!
# Tables in which values are moved
-/

namespace CloudForest
variable {K : Type} [Field K] [LinearOrder K] [IsStrictOrderedRing K]

/-- The second feature is the first but for the order of cases: each value, and each mark of a missing value with it, occurs as often. -/
def MovedFrom : Feature K → Feature K → Prop
  | .num f, .num g => g.name = f.name ∧ g.missing.length = f.missing.length ∧
      (g.missing.zip g.numData).Perm (f.missing.zip f.numData)
  | .cat f, .cat g => g.name = f.name ∧ g.missing.length = f.missing.length ∧
      ((List.range g.missing.length).map fun c => (g.missing[c]?, g.getStr c)).Perm
        ((List.range f.missing.length).map fun c => (f.missing[c]?, f.getStr c))
  | _, _ => False

/-- The second table is the first, but values of features of some names are moved from case to case. -/
structure FeatureMatrix.Moved (moved : String → Prop) (fm fm' : FeatureMatrix K) : Prop where
  labels : fm'.caseLabels = fm.caseLabels
  features : List.Forall₂ (fun f g => MovedFrom f g ∧ (¬ moved f.name → g = f)) fm.data fm'.data

/-- The names of features whose values `-permute` and `-shuffleRE` are to move. -/
def ToMove (target : String) (permute : Bool) (re : Option (String → Bool)) (name : String) : Prop :=
  name = target ∧ permute = true ∨ name ≠ target ∧ ∃ p, re = some p ∧ p name = true

end CloudForest
