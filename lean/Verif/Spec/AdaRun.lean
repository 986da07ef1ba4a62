import Verif.Spec.Apply
import Verif.Model.Values

/-!
# Trees that predict from all cases
-/

namespace CloudForest
variable {K : Type} [Field K] [LinearOrder K] [IsStrictOrderedRing K]

/-- The name of the class of a case. -/
def CatFeature.className (f : CatFeature) (i : Nat) : Option String := f.catData[i]?.bind fun k => f.cm.back[k]?

/-- Each of the `n` cases reaches a leaf, and the leaf predicts what `FindPredicted` finds for the cases that reach it. This is so
for a tree grown from all cases. -/
def Tree.FromAll (f : CatFeature) (fm : FeatureMatrix K) (n : Nat) (t : Tree K) : Prop :=
  ∀ i < n, ∃ path p, landing fm t.root i = some (path, p) ∧
    f.findPredicted ((List.range n).filter fun j => decide ((landing fm t.root j).map (·.1) = some path)) = some p

/-- The number of cases whose prediction is not the name of their class. -/
def mistakes (f : CatFeature) (n : Nat) (res : Nat → Option String) : Nat :=
  (List.range n).countP fun i => decide (res i ≠ f.className i)

end CloudForest
