import Verif.Spec.Tree
import Verif.Model.Boost
import Verif.Spec.Target
import Verif.Spec.Values

/-!
# Boosting: trees that leave the target alone, and what they predict
-/

namespace CloudForest
variable {K : Type} [Field K] [LinearOrder K] [IsStrictOrderedRing K]

/-- No node splits on feature `ti`. -/
def Node.Avoids (fm : FeatureMatrix K) (ti : Nat) : Node K → Prop
  | .nil => True
  | .mk coded fi l r m _ spl => (coded ≠ none → fi ≠ ti) ∧ (∀ s, spl = some s → (fm.map s.feature).getD 0 ≠ ti) ∧
      l.Avoids fm ti ∧ r.Avoids fm ti ∧ m.Avoids fm ti

/-- The number a prediction stands for, zero if it is none. -/
def predVal (parse : String → Option (XF K)) (p : String) : K :=
  match parse p with
  | some (.fin x) => x
  | _ => 0

/-- The number a tree predicts for a case: that of the leaf the case reaches, zero if it reaches none. -/
def treeValue (parse : String → Option (XF K)) (fm : FeatureMatrix K) (t : Tree K) (i : Nat) : K :=
  match landing fm t.root i with
  | some x => predVal parse x.2
  | none => 0

/-- Every leaf predicts a finite number, or something that is no number. -/
def Tree.FinitePreds (parse : String → Option (XF K)) (t : Tree K) : Prop :=
  ∀ x ∈ leavesOf t.root, ∀ y, parse x.2 = some y → ∃ z, y = .fin z

/-- Every leaf that one of `n` cases reaches predicts a finite number, or something that is no number. -/
def Tree.FiniteFor (parse : String → Option (XF K)) (fm : FeatureMatrix K) (n : Nat) (t : Tree K) : Prop :=
  ∀ i < n, ∀ x, landing fm t.root i = some x → ∀ y, parse x.2 = some y → ∃ z, y = .fin z

/-- `exp` and `log` as far as AdaBoost needs them: on finite arguments they are functions `E` and `L` of the field,
`E` is positive, `E (-x)` is one over `E x`, `E` is above one exactly on positive numbers, and `L` is positive
exactly above one. -/
structure ExpLog.Lawful (el : ExpLog K) (E L : K → K) : Prop where
  exp : ∀ x, el.exp (.fin x) = .fin (E x)
  log : ∀ x, 0 < x → el.log (.fin x) = .fin (L x)
  pos : ∀ x, 0 < E x
  inv : ∀ x, E (-x) * E x = 1
  above : ∀ x, 1 < E x ↔ 0 < x
  gain : ∀ x, 0 < x → (0 < L x ↔ 1 < x)

/-- Leaves of a tree on `n` cases of a class feature: no case is in two of them, and every case in them has a
category. -/
structure CatFeature.Leaves (f : CatFeature) (n : Nat) (leaves : List (List Nat)) : Prop where
  disjoint : leaves.flatten.Nodup
  range : ∀ leaf ∈ leaves, f.InRange f.cm.nCats leaf
  cases : ∀ leaf ∈ leaves, ∀ c ∈ leaf, c < n

/-- The weight of the cases whose category is not the one picked for their leaf. -/
def weightedError (f : CatFeature) (pick : List Nat → Nat) (w : Nat → K) (leaves : List (List Nat)) : K :=
  (leaves.map fun leaf => ((leaf.filter fun c => decide (f.catData[c]? ≠ some (pick leaf))).map w).sum).sum

end CloudForest
