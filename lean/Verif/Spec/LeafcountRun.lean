import Verif.Spec.Leafcount
import Verif.Model.Sf

/-!
# Forests in files
-/

namespace CloudForest
variable {K : Type} [Field K] [LinearOrder K] [IsStrictOrderedRing K]

/-- A tree as it is read from a complete file: every node has a splitter and two children, or neither. -/
def Whole : Node K → Prop
  | .nil => False
  | .mk coded _ l r m _ spl => coded = none ∧
    match spl with
    | some _ => Whole l ∧ Whole r ∧ (m = .nil ∨ Whole m)
    | none => l = .nil ∧ r = .nil

/-- The file holds the forest. -/
def Holds (nt : NumText K) (text : Text) (forest : Forest K) : Prop :=
  ∃ rest, readForest nt text = some ⟨some forest, .ok, rest⟩

end CloudForest
