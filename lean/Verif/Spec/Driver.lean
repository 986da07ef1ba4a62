import Verif.Model.Tree

/-!
# What a tree uses
-/

namespace CloudForest
variable {K : Type}

/-- The names of the features a node and its descendants split on. -/
def Node.splitNames : Node K → List String
  | .nil => []
  | .mk _ _ l r m _ s => s.toList.map (·.feature) ++ (l.splitNames ++ r.splitNames ++ m.splitNames)

/-- The features a user leaves for splitting: not the target, not in the file, not blocked, and
included. Unset regular expressions do not matter. -/
def Allowed (ids : List String) (target : String) (block incl : Option (String → Bool))
    (name : String) : Prop :=
  name ≠ target ∧ name ∉ ids ∧ (∀ p, block = some p → p name = false) ∧
    ∀ p, incl = some p → p name = true

end CloudForest
