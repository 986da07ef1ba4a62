import Verif.Model.Feature

/-!
# The values of the known cases
-/

namespace CloudForest
variable {K : Type} [Field K] [LinearOrder K] [IsStrictOrderedRing K]

/-- The values of those of the cases that are known. -/
def NumFeature.knownValues (f : NumFeature K) (cases : List Nat) : List (XF K) :=
  cases.filterMap fun c => if f.missing[c]? = some false then f.numData[c]? else none

end CloudForest
