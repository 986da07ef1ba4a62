import Verif.Model.Feature

/-!
# What balanced samplers should collect
-/

namespace CloudForest

/-- A class feature whose lists have the same length and whose stored classes exist. -/
structure CatFeature.Known (f : CatFeature) : Prop where
  len : f.missing.length = f.catData.length
  vals : ∀ (i k : Nat), f.catData[i]? = some k → k < f.cm.back.length

/-- The cases of class `k` with known value. -/
def CatFeature.classCases (f : CatFeature) (k : Nat) : List Nat :=
  (List.range f.catData.length).filter fun i =>
    decide (f.missing[i]? = some false ∧ f.catData[i]? = some k)

/-- The cases known in both features, of class `b` of the one and `t` of the other. -/
def bothCases (target by_ : CatFeature) (b t : Nat) : List Nat :=
  (List.range target.catData.length).filter fun i =>
    decide ((target.missing[i]? = some false ∧ by_.missing[i]? = some false) ∧
      by_.catData[i]? = some b ∧ target.catData[i]? = some t)

/-- How many cases known in both features are of class `b` of the second. -/
def byCount (target by_ : CatFeature) (b : Nat) : Nat :=
  ((List.range target.catData.length).filter fun i =>
    decide ((target.missing[i]? = some false ∧ by_.missing[i]? = some false) ∧
      by_.catData[i]? = some b)).length

end CloudForest
