import Verif.Spec.Values
import Verif.Spec.Matrix

/-!
# Matrices without holes
-/

namespace CloudForest
variable {K : Type} [Field K] [LinearOrder K] [IsStrictOrderedRing K]

/-- Every feature is in a consistent state and has a value or a missing mark for every case, and for no more. -/
structure FeatureMatrix.Rectangular (fm : FeatureMatrix K) : Prop where
  consistent : ∀ f ∈ fm.data, f.Consistent
  lengths : ∀ f ∈ fm.data, f.length = fm.caseLabels.length

/-- The records of an AFM text: tab separated values, up to the first record with another number of fields than the first. -/
def afmRecords (text : Text) : List (List String) := (csvRecords '\t' text).map (·.map String.ofList)

/-- The features are in columns if the second field of the first record looks like the name of one. -/
def InColumns (header : List String) : Prop :=
  ∃ l, header[1]? = some l ∧ (l.toList.take 2 = ['N', ':'] ∨ l.toList.take 2 = ['C', ':'] ∨ l.toList.take 2 = ['B', ':'])

end CloudForest
