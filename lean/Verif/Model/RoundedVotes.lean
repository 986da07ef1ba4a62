import Verif.Model.Ballot
import Verif.Model.Rounding

/-!
# Running means in floating point
(utils.go:28-48, numballotbox.go:27-33)
-/

namespace CloudForest
variable {K : Type} [Field K] [LinearOrder K] [IsStrictOrderedRing K]

/-- `RunningMean.WeightedAdd` (utils.go:33-48) with every product, sum and quotient rounded. The sum of the weights is
computed twice (lines 36, 37) with the same result. -/
def RunningMean.weightedAddR (r : K → XF K) (m : RunningMean K) (val weight : XF K) : RunningMean K :=
  if val.isNaN = false ∧ weight.isNaN = false then
    ⟨XF.rounded r (XF.rounded r (XF.rounded r (m.mean * m.count) + XF.rounded r (weight * val)) /
        XF.rounded r (m.count + weight)), XF.rounded r (m.count + weight)⟩
  else m

/-- `NumBallotBox.Vote` (numballotbox.go:27-33) with the running mean rounded. -/
def NumBox.voteR (r : K → XF K) (parse : String → Option (XF K)) (bb : NumBox K) (casei : Nat) (pred : String)
    (weight : XF K) : Option (NumBox K) :=
  match parse pred with
  | none => some bb
  | some v => do
    let m ← bb[casei]?
    some (bb.set casei (m.weightedAddR r v weight))

end CloudForest
