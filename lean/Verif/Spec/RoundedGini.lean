import Verif.Spec.RoundedTarget

/-!
# What a division is worth
-/

namespace CloudForest

/-- By how much a division into two groups decreases the Gini impurity, in exact numbers: the impurity of both together
minus the mean of the two impurities, weighted by the numbers of cases. -/
def CatFeature.giniDecrease (f : CatFeature) (k : Nat) (lefts rights : List Nat) : ℚ :=
  f.gini ℚ k (lefts ++ rights) -
    (lefts.length * f.gini ℚ k lefts + rights.length * f.gini ℚ k rights) / (lefts.length + rights.length)

/-- A division of the cases into those of smaller and those of larger values, with at least `leafSize` cases in the one
group and more in the other. -/
structure NumFeature.Parts (f : NumFeature ℚ) (leafSize : Nat) (cases lefts rights : List Nat) : Prop where
  all : (lefts ++ rights).Perm cases
  left : leafSize ≤ lefts.length
  right : leafSize < rights.length
  below : ∀ c ∈ lefts, ∀ d ∈ rights, f.value c < f.value d

/-- The scratch counters have a place for every class. -/
def CountersFor {K : Type} (k : Nat) (a : Allocs K) : Prop :=
  a.counter.length = k ∧ a.lcounter.length = k ∧ a.rcounter.length = k

end CloudForest
