import Verif.Model.Splitter

/-! # Vetting: a target rearranged -/

namespace CloudForest

/-- Among the listed cases two lists hold the same values, perhaps in other places. -/
def RearrangedOn {α : Type} (cs : List Nat) (data data' : List α) : Prop :=
  (cs.map fun c => data'[c]?).Perm (cs.map fun c => data[c]?)

end CloudForest
