import Verif.Model.Tree

/-!
# Who recorded which trees
-/

namespace CloudForest
variable {K : Type}

/-- The trees that worker `w` recorded, if `who` says for each of them who did. -/
def recordedBy (w : Nat) (out : List (Tree K × List Nat)) (who : List Nat) : List (Tree K × List Nat) :=
  ((out.zip who).filter fun x => x.2 == w).map (·.1)

end CloudForest
