import Verif.Model.Search
import Verif.Spec.Target
import Verif.Spec.Grow

/-!
# What a split search is to find
-/

namespace CloudForest
variable {K : Type} [Field K] [LinearOrder K] [IsStrictOrderedRing K]

/-- The listed cases a code sends left (right). -/
def Feature.lefts (f : Feature K) (code : Coded K) (cs : List Nat) : List Nat :=
  cs.filter fun c => f.codedLeft code c == some true

@[inherit_doc Feature.lefts]
def Feature.rights (f : Feature K) (code : Coded K) (cs : List Nat) : List Nat :=
  cs.filter fun c => f.codedLeft code c == some false

/-- The category number of a case. -/
def CatFeature.cat (f : CatFeature) (c : Nat) : Nat := (f.catData[c]?).getD 0

/-- The listed cases whose value is missing (known). -/
def Feature.missings (f : Feature K) (cs : List Nat) : List Nat :=
  cs.filter fun c => f.isMissing c == some true

@[inherit_doc Feature.missings]
def Feature.knowns (f : Feature K) (cs : List Nat) : List Nat :=
  cs.filter fun c => f.isMissing c == some false

/-- The decrease a division of impurity `s` brings to a node of impurity `p`: `p - s`, except
that a negative `p` is the convention for "`s` is itself the score". -/
def decrease (p s : XF K) : XF K := if p < .fin 0 then s else p - s

/-- The values of the listed cases can be searched: finite numbers, or existing categories. -/
def Feature.Searchable (f : Feature K) (cs : List Nat) : Prop :=
  match f with
  | .num f => f.Finite cs
  | .cat f => f.InRange f.cm.nCats cs

/-- No two different values of the listed cases lie within `constant_cutoff` of each other. -/
def Feature.NoNearTies (f : Feature K) (cs : List Nat) : Prop :=
  match f with
  | .num f => ∀ c ∈ cs, ∀ d ∈ cs, f.value c < f.value d → f.value c + 1 / 10000000 < f.value d
  | .cat _ => True

/-- The feature is searched completely: a number, at most five categories, or at most ten with
`RandomSearch`. -/
def Feature.Exhaustive (F : Feature K) : Prop :=
  match F with
  | .num _ => True
  | .cat f => f.cm.nCats ≤ 5 ∨ f.randomSearch = true ∧ f.cm.nCats ≤ 10

end CloudForest
