import Verif.Spec.Feature

/-!
# Counting predictions against labels
-/

namespace CloudForest

/-- The number of cases of `f` satisfying `p`. -/
def casesWith (f : CatFeature) (p : Nat → Bool) : Nat :=
  ((List.range f.missing.length).filter p).length

/-- How many cases have label `v`. -/
def actual (f : CatFeature) (v : String) : Nat := casesWith f fun i => f.getStr i == some v

/-- For how many cases `v` is predicted. -/
def predicted (f : CatFeature) (tally : Nat → String) (v : String) : Nat :=
  casesWith f fun i => tally i == v

/-- For how many cases with label `v` that is predicted. -/
def hits (f : CatFeature) (tally : Nat → String) (v : String) : Nat :=
  casesWith f fun i => f.getStr i == some v && tally i == v

/-- Every case has a known label with a number in range, and category numbers are consistent. -/
structure LabelsOk (f : CatFeature) : Prop where
  wf : f.cm.WF
  known : ∀ i < f.missing.length, f.missing[i]? = some false
  inRange : ∀ i < f.missing.length, ∃ c, f.catData[i]? = some c ∧ c < f.cm.back.length

end CloudForest
