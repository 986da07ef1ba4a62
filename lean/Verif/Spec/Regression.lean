import Verif.Model.Regression
import Verif.Spec.Target
import Verif.Spec.Values

/-!
# What regression targets should measure and predict
-/

namespace CloudForest
variable {K : Type} [Field K] [LinearOrder K] [IsStrictOrderedRing K]

/-- The mean absolute error of predicting `p` for the listed cases. -/
def NumFeature.absError (f : NumFeature K) (p : K) (cases : List Nat) : K :=
  (cases.map fun c => |f.value c - p|).sum / (cases.length : K)

/-- The mean squared error of predicting `p` for the listed cases. -/
def NumFeature.sqError (f : NumFeature K) (p : K) (cases : List Nat) : K :=
  (cases.map fun c => (f.value c - p) ^ 2).sum / (cases.length : K)

/-- How many of the listed cases have the value `x`. -/
def NumFeature.valueCount (f : NumFeature K) (cases : List Nat) (x : K) : Nat :=
  cases.countP fun c => decide (f.value c = x)

/-- All stored values are whole numbers, none of them negative. -/
def NumFeature.Whole (f : NumFeature K) : Prop :=
  ∀ i < f.missing.length, ∃ k : Nat, f.numData[i]? = some (.fin (k : K))

/-- Rounding toward zero leaves whole numbers alone. -/
def KeepsWhole (trunc : XF K → Int) : Prop := ∀ k : Nat, trunc (.fin (k : K)) = k

/-- The size-weighted mean of a quantity over two sets of cases. -/
def sideMean (i : List Nat → K) (l r : List Nat) : K :=
  ((l.length : K) * i l + (r.length : K) * i r) / ((l.length : K) + (r.length : K))

/-- The weighted absolute error of predicting for each leaf the mean of its known values. -/
def NumFeature.weightedAbs (f : NumFeature K) (w : Nat → K) (leaves : List (List Nat)) : K :=
  (leaves.map fun leaf => ((knownOf f.missing leaf).map fun c =>
    w c * |f.value c - f.meanOf (knownOf f.missing leaf)|).sum).sum

/-- Leaves of a tree on the cases of a numerical feature: no case is in two of them, and the known values are
finite. -/
structure NumFeature.Leaves (f : NumFeature K) (leaves : List (List Nat)) : Prop where
  disjoint : leaves.flatten.Nodup
  cases : ∀ leaf ∈ leaves, ∀ c ∈ leaf, c < f.missing.length
  finite : ∀ leaf ∈ leaves, f.Finite (knownOf f.missing leaf)

end CloudForest
