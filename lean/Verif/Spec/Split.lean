import Verif.Model.Feature

/-!
# What a three-way split must do

Independent of how the rearrangement is carried out.
-/

namespace CloudForest

/-- `r` is a division of the list `cases` into left, missing and right cases, according to
the tests `miss` and `left` on single cases: the rewritten list is left, missing, right in
this order, it is a rearrangement of the input, and every case is in the block its own
tests ask for. -/
structure ThreeWay (miss left : Nat → Option Bool) (cases : List Nat) (r : Split3) : Prop where
  order : r.cases = r.left ++ r.missing ++ r.right
  perm : r.cases.Perm cases
  left_ok : ∀ c ∈ r.left, miss c = some false ∧ left c = some true
  right_ok : ∀ c ∈ r.right, miss c = some false ∧ left c = some false
  miss_ok : ∀ c ∈ r.missing, miss c = some true

end CloudForest
