import Verif.Spec.Target
import Verif.Model.Tree

/-!
# Targets that say the same of the cases, and trees without their predictions
-/

namespace CloudForest
variable {K : Type} [Field K] [LinearOrder K] [IsStrictOrderedRing K]

/-- The same of the listed cases are of the same class, whatever the classes are called and how they are numbered. -/
def CatFeature.SameClasses (f f' : CatFeature) (cs : List Nat) : Prop :=
  ∀ c ∈ cs, ∀ d ∈ cs, (f.catData[c]? = f.catData[d]? ↔ f'.catData[c]? = f'.catData[d]?)

/-- The values of the listed cases are measured from another origin, and perhaps in the other direction. -/
def NumFeature.Moved (f f' : NumFeature K) (cs : List Nat) : Prop :=
  ∃ b, (∀ c ∈ cs, f'.value c = f.value c + b) ∨ ∀ c ∈ cs, f'.value c = b - f.value c

/-- A tree without its predictions. -/
def Node.blank : Node K → Node K
  | .nil => .nil
  | .mk coded fi l r m _ spl => .mk coded fi l.blank r.blank m.blank "" spl

end CloudForest
