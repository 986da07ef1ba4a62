import Verif.Spec.Questions
import Verif.Model.Tree

/-!
# Trees that say the opposite
-/

namespace CloudForest
variable {K : Type} [Field K] [LinearOrder K] [IsStrictOrderedRing K]

/-- Two numbers in writing, of which one is the other with its sign changed. -/
def NegatedText (nt : NumText K) (p p' : String) : Prop :=
  ∃ x : XF K, p = String.ofList (nt.fmt x) ∧ p' = String.ofList (nt.fmt (-x))

/-- Two lists of as many trees, each asking the same questions as its counterpart and saying the opposite, with the same weight. -/
def Opposite (nt : NumText K) : List (Tree K) → List (Tree K) → Prop :=
  List.Forall₂ fun t t' => SameQuestions (NegatedText nt) t.root t'.root ∧ t'.weight = t.weight

end CloudForest
