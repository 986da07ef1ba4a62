import Verif.Spec.Sampling
import Mathlib.Algebra.Order.Field.Basic
import Verif.Model.Tree

/-!
# What ballot boxes should report
-/

namespace CloudForest
variable {K : Type} [Field K] [LinearOrder K] [IsStrictOrderedRing K]

/-- A vote with a finite weight. -/
structure FVote (K : Type) where
  case : Nat
  pred : String
  weight : K

/-- The vote as it is cast. -/
def FVote.ballot (v : FVote K) : Ballot K := ⟨v.case, v.pred, .fin v.weight⟩

/-- The total weight cast for predicting `p` for case `i`. -/
def weightFor (votes : List (FVote K)) (i : Nat) (p : String) : K :=
  ((votes.filter fun v => decide (v.case = i ∧ v.pred = p)).map (·.weight)).sum

/-- The numbers voted for case `i` with their weights; votes that are not numbers are left out. -/
def numVotes (parse : String → Option (XF K)) (votes : List (FVote K)) (i : Nat) : List (K × K) :=
  votes.filterMap fun v =>
    if v.case = i then
      match parse v.pred with
      | some (.fin y) => some (y, v.weight)
      | _ => none
    else none

/-- The sum of weights times values. -/
def weightedSum (l : List (K × K)) : K := (l.map fun yw => yw.2 * yw.1).sum

/-- The sum of weights. -/
def totalWeight (l : List (K × K)) : K := (l.map (·.2)).sum

/-- The cases of class `k` that are not predicted to be of class `k`. -/
def wrongCases (f : CatFeature) (tally : Nat → Option String) (k : Nat) : List Nat :=
  (f.classCases k).filter fun i => decide (tally i ≠ f.cm.back[k]?)

/-- The cases with known value. -/
def knownCases (missing : List Bool) : List Nat :=
  (List.range missing.length).filter fun i => decide (missing[i]? = some false)

/-- The mean of `y` over some cases. -/
def meanOver (cases : List Nat) (y : Nat → K) : K := (cases.map y).sum / (cases.length : K)

/-- The mean squared difference of `y` and `p` over some cases. -/
def meanSquare (cases : List Nat) (y p : Nat → K) : K :=
  (cases.map fun i => (y i - p i) ^ 2).sum / (cases.length : K)

/-- The cases with known value whose prediction is a number. -/
def judgedCases (missing : List Bool) (pred : Nat → Option (XF K)) : List Nat :=
  (knownCases missing).filter fun i => decide (pred i ≠ some .nan)

end CloudForest
