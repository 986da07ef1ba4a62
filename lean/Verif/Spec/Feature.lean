import Verif.Model.Feature

/-!
# Well-formedness of features and category maps
-/

namespace CloudForest

/-- The two directions of a category map are inverse to each other. -/
def CatMap.WF (cm : CatMap) : Prop :=
  ∀ s n, cm.map s = some n ↔ cm.back[n]? = some s

/-- A client making a sequence of `CatToNum` calls: the numbers returned and the final map. -/
def CatMap.run (cm : CatMap) : List String → List Nat × CatMap
  | [] => ([], cm)
  | v :: vs =>
    let r := cm.catToNum v
    let rest := run r.2 vs
    (r.1 :: rest.1, rest.2)

/-- Case `c` exists in the feature, and if its value is known it is a real category. -/
def Feature.ValidCase {K : Type} (f : Feature K) (c : Nat) : Prop :=
  match f with
  | .cat f => c < f.missing.length ∧ c < f.catData.length ∧
      ∀ k, f.missing[c]? = some false → f.catData[c]? = some k → k < f.cm.back.length
  | .num f => c < f.missing.length ∧ c < f.numData.length

/-- `MissingVals` is true if any case is missing. -/
def Feature.MissingSound {K : Type} (f : Feature K) : Prop :=
  ∀ c, f.isMissing c = some true → f.missingVals = true

/-- The category map of a categorical feature is well formed. -/
def Feature.CatWF {K : Type} : Feature K → Prop
  | .cat f => f.cm.WF
  | .num _ => True

/-- A code of the dynamic type the feature expects. -/
def Feature.CodeFits {K : Type} : Feature K → Coded K → Prop
  | .cat _, .int _ => True
  | .cat _, .big _ => True
  | .num _, .num _ => True
  | _, _ => False

end CloudForest
