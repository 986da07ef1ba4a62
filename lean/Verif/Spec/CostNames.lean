import Verif.Spec.Targets
import Verif.Spec.Values

/-!
# Classes by name
-/

set_option linter.unusedSectionVars false

namespace CloudForest
variable {K : Type} [Field K] [LinearOrder K] [IsStrictOrderedRing K]

/-- The name of the class of a case. -/
def CatFeature.classNamed (f : CatFeature) (c : Nat) : Option String := (f.catData[c]?).bind fun k => f.cm.back[k]?

/-- The numbers given for some names, as floating point numbers. -/
def asGiven (given : String → Option K) (s : String) : Option (XF K) := (given s).map .fin

end CloudForest
