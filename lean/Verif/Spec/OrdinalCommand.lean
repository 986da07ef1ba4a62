import Verif.Spec.Commands
import Verif.Spec.Regression

/-!
# What an ordinal forest should answer
-/

namespace CloudForest
variable {K : Type} [Field K] [LinearOrder K] [IsStrictOrderedRing K]

/-- `v` is the value of one of the listed cases, and none is more frequent among them. -/
def NumFeature.Commonest (f : NumFeature K) (cases : List Nat) (v : K) : Prop :=
  (∃ c ∈ cases, f.value c = v) ∧ ∀ x, f.valueCount cases x ≤ f.valueCount cases v

/-- The numbers that the trees answer of case `c`, if `value` is the answer from neighbours. -/
def answersFor (fm : FeatureMatrix K) (value : List Nat → K) (voters : List (Tree K × List Nat)) (c : Nat) : List K :=
  (voters.filter fun x => (x.1.opinion fm c).isSome).map fun x => value (neighbours fm x.1 x.2 c)

/-- The known values are whole numbers, none of them negative. -/
def NumFeature.KnownWhole (f : NumFeature K) : Prop :=
  ∀ i : Nat, f.missing[i]? = some false → ∃ k : Nat, f.numData[i]? = some (.fin (k : K))

end CloudForest
