import Verif.Spec.ClassBoost
import Verif.Spec.Rounding
import Verif.Model.RoundedClassBoost

/-!
# What is asked of `math.Tanh`, and of a boosted target of two classes
-/

namespace CloudForest

/-- What is known of `math.Tanh`: its values lie between −1 and 1, and it does not decrease. -/
structure Tanh64 (tanh : XF ℚ → XF ℚ) : Prop where
  bounded : ∀ x, x ≠ .nan → ∃ t, tanh x = .fin t ∧ -1 ≤ t ∧ t ≤ 1
  mono : ∀ x y, x ≤ y → tanh x ≤ tanh y

/-- The first `n` cases have values (`y`, one or zero) and log odds, and each residual is the value less the probability. -/
def ClassBoost.Kept (tanh : XF ℚ → XF ℚ) (g : ClassBoost ℚ) (n : Nat) (y : Nat → ℚ) : Prop :=
  ∀ i < n, g.actual.numData[i]? = some (.fin (y i)) ∧ ∃ v, g.pred.numData[i]? = some v ∧
    g.res.numData[i]? = some (XF.rounded F64.round (.fin (y i) - expitR F64.round tanh v))

/-- The probability that the target holds for case `i`. -/
def ClassBoost.Prob (tanh : XF ℚ → XF ℚ) (g : ClassBoost ℚ) (i : Nat) (p : ℚ) : Prop :=
  ∃ v, g.pred.numData[i]? = some v ∧ expitR F64.round tanh v = .fin p

end CloudForest
