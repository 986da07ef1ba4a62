import Mathlib.MeasureTheory.Integral.Bochner.Set
import Mathlib.MeasureTheory.Measure.Lebesgue.Basic
import Mathlib.Analysis.SpecialFunctions.Gamma.Basic

/-!
# Student's distribution
-/

namespace CloudForest
open MeasureTheory

/-- The density of Student's distribution with `v` degrees of freedom. -/
noncomputable def studentDensity (v u : ℝ) : ℝ :=
  Real.Gamma ((v + 1) / 2) / (Real.sqrt (v * Real.pi) * Real.Gamma (v / 2)) * (1 + u ^ 2 / v) ^ (-(v + 1) / 2)

/-- The probability of a value above `t`. -/
noncomputable def studentTail (v t : ℝ) : ℝ := ∫ u in Set.Ioi t, studentDensity v u

end CloudForest
