import Verif.Spec.Commands
import Verif.Spec.Ballot

/-!
# What applyforest should print and write
-/

namespace CloudForest
variable {K : Type} [Field K] [LinearOrder K] [IsStrictOrderedRing K]

/-- The cases of known class `s`. -/
def CatFeature.casesOf (f : CatFeature) (s : String) : List Nat :=
  (knownCases f.missing).filter fun c => decide (f.getStr c = some s)

/-- The mean over the classes of the fraction of cases that are predicted wrongly. -/
def CatFeature.balancedError (f : CatFeature) (predicted : Nat → Option String) : K :=
  (f.cm.back.map fun s => (((f.casesOf s).filter fun c => decide (predicted c ≠ some s)).length : K) / ((f.casesOf s).length : K)).sum /
    (f.cm.back.length : K)

/-- Class `p` has the votes of more trees than any other. -/
def SoleWinner (fm : FeatureMatrix K) (voters : List (Tree K × List Nat)) (c : Nat) (p : String) : Prop :=
  ∀ q, q ≠ p → votesFor fm voters c q < votesFor fm voters c p

/-- The mean of the answers of the trees, 0 if there are none. -/
def meanAnswer (fm : FeatureMatrix K) (f : NumFeature K) (voters : List (Tree K × List Nat)) (c : Nat) : K :=
  (meansFor fm f voters c).sum / (meansFor fm f voters c).length

/-- A line for each case: its label, what is predicted and the actual value. -/
def ReportsAll (nt : NumText K) (fm : FeatureMatrix K) (F : Feature K) (predicted : Nat → Option String)
    (lines : List (String × String × String)) : Prop :=
  lines.length = fm.caseLabels.length ∧ ∀ c < fm.caseLabels.length, ∃ l p y, lines[c]? = some (l, p, y) ∧
    fm.caseLabels[c]? = some l ∧ predicted c = some p ∧ F.getStr nt c = some y

end CloudForest
