import Verif.Spec.OtherData
import Verif.Spec.Ballot

/-!
# Tables with missing values filled in
-/

namespace CloudForest
variable {K : Type} [Field K] [LinearOrder K] [IsStrictOrderedRing K]

/-- The second feature is the first with missing values filled in: numbers by the mean of those known, classes by one most frequent among
those known. -/
def FilledFrom : Feature K → Feature K → Prop
  | .num f, .num g => g.name = f.name ∧ g.missing = List.replicate f.missing.length false ∧
      (∀ i : Nat, f.missing[i]? = some false → g.numData[i]? = f.numData[i]?) ∧
      ∀ i : Nat, f.missing[i]? = some true → g.numData[i]? = some (.fin (f.meanOf (knownCases f.missing)))
  | .cat f, .cat g => g.name = f.name ∧ g.missing = List.replicate f.missing.length false ∧
      (∀ i : Nat, f.missing[i]? = some false → g.getStr i = f.getStr i) ∧
      ∃ p, f.Plurality (knownCases f.missing) p ∧ ∀ i : Nat, f.missing[i]? = some true → g.getStr i = some p
  | _, _ => False

/-- The second table is the first with missing values filled in. -/
structure FeatureMatrix.Filled (fm filled : FeatureMatrix K) : Prop where
  labels : filled.caseLabels = fm.caseLabels
  features : List.Forall₂ FilledFrom fm.data filled.data

end CloudForest
