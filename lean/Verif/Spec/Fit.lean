import Verif.Spec.Tree
import Verif.Spec.Target

/-!
# What it means for a tree to fit its training cases
-/

namespace CloudForest
variable {K : Type} [Field K] [LinearOrder K] [IsStrictOrderedRing K]

/-- The cases that end in the same leaf as `c`. -/
def leafMates (fm : FeatureMatrix K) (root : Node K) (cases : List Nat) (c : Nat) : List Nat :=
  cases.filter fun e => (landing fm root e).map (·.1) == (landing fm root c).map (·.1)

/-- All cases but one have the same value. -/
def NumFeature.AlmostConstant (F : NumFeature K) (cs : List Nat) : Prop :=
  ∃ e ∈ cs, ∀ c ∈ cs.erase e, ∀ d ∈ cs.erase e, F.value c = F.value d

end CloudForest
