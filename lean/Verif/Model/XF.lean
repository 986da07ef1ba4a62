import Mathlib.Algebra.Order.Field.Basic
import Mathlib.Algebra.Field.Rat
import Mathlib.Algebra.Order.Ring.Rat

/-!
# Numbers

Go's `float64`, with exact arithmetic: a value is NaN, an infinity, or an element of
an ordered field `K`.  Comparison and arithmetic follow IEEE 754 on NaN and the
infinities.  Simplified: no rounding, no overflow, a single zero (so `x / 0` for
`x > 0` is `+Inf`, for `x < 0` is `-Inf`).
-/

namespace CloudForest

/-- A Go `float64` (e.g. `DenseNumFeature.NumData`, densenumfeature.go:12-17). Exact. -/
inductive XF (K : Type) where
  | nan
  | pinf
  | ninf
  | fin (x : K)
  deriving DecidableEq, Repr

namespace XF

variable {K : Type} [Field K] [LinearOrder K] [IsStrictOrderedRing K]

instance : Inhabited (XF K) := ⟨fin 0⟩

/-- Go's conversion `float64(n)` of a non-negative integer (e.g. densecatfeature.go:948-955). Exact. -/
def ofNat (n : Nat) : XF K := fin (n : K)

/-- Go's unary minus on `float64` (used at e.g. entropytarget.go:58-69). -/
def neg : XF K → XF K
  | nan => nan
  | pinf => ninf
  | ninf => pinf
  | fin x => fin (-x)

/-- Go's `+` on `float64` (used at e.g. densenumfeature.go:520-526). -/
def add : XF K → XF K → XF K
  | nan, _ => nan
  | _, nan => nan
  | pinf, ninf => nan
  | ninf, pinf => nan
  | pinf, _ => pinf
  | _, pinf => pinf
  | ninf, _ => ninf
  | _, ninf => ninf
  | fin x, fin y => fin (x + y)

/-- Go's `-` on `float64` (used at e.g. densenumfeature.go:491). -/
def sub (a b : XF K) : XF K := add a (neg b)

/-- An infinity with the sign of `x`, NaN for zero: the product of `+Inf` and `x` (used at e.g.
densenumfeature.go:491). -/
def infTimes (x : K) : XF K := if x = 0 then nan else if 0 < x then pinf else ninf

/-- Go's `*` on `float64` (used at e.g. densenumfeature.go:491). -/
def mul : XF K → XF K → XF K
  | nan, _ => nan
  | _, nan => nan
  | pinf, pinf => pinf
  | pinf, ninf => ninf
  | ninf, pinf => ninf
  | ninf, ninf => pinf
  | pinf, fin x => infTimes x
  | fin x, pinf => infTimes x
  | ninf, fin x => neg (infTimes x)
  | fin x, ninf => neg (infTimes x)
  | fin x, fin y => fin (x * y)

/-- Go's `/` on `float64`; `x / 0` is NaN or an infinity, never an element of `K` (used at e.g.
densenumfeature.go:491, 526). -/
def div : XF K → XF K → XF K
  | nan, _ => nan
  | _, nan => nan
  | pinf, fin y => if y < 0 then ninf else pinf
  | ninf, fin y => if y < 0 then pinf else ninf
  | pinf, _ => nan
  | ninf, _ => nan
  | fin _, pinf => fin 0
  | fin _, ninf => fin 0
  | fin x, fin y => if y = 0 then infTimes x else fin (x / y)

/-- Go's `<` on `float64`: false if either side is NaN (used at e.g. sortby/sortby.go:205). -/
def lt : XF K → XF K → Prop
  | nan, _ => False
  | _, nan => False
  | ninf, ninf => False
  | ninf, _ => True
  | _, ninf => False
  | pinf, _ => False
  | fin _, pinf => True
  | fin x, fin y => x < y

/-- Go's `<=` on `float64`: false if either side is NaN (used at e.g. densenumfeature.go:133, 325). -/
def le : XF K → XF K → Prop
  | nan, _ => False
  | _, nan => False
  | ninf, _ => True
  | _, ninf => False
  | _, pinf => True
  | pinf, fin _ => False
  | fin x, fin y => x ≤ y

/-- Go's `==` on `float64`: NaN differs from everything, itself included (used at e.g. utils.go:38). -/
def feq (a b : XF K) : Prop := a ≠ nan ∧ a = b

instance : Neg (XF K) := ⟨neg⟩
instance : Add (XF K) := ⟨add⟩
instance : Sub (XF K) := ⟨sub⟩
instance : Mul (XF K) := ⟨mul⟩
instance : Div (XF K) := ⟨div⟩
instance : LT (XF K) := ⟨lt⟩
instance : LE (XF K) := ⟨le⟩
instance : Zero (XF K) := ⟨fin 0⟩
instance : One (XF K) := ⟨fin 1⟩

instance (a b : XF K) : Decidable (a < b) := by
  show Decidable (lt a b)
  cases a <;> cases b <;> simp only [lt] <;> infer_instance

instance (a b : XF K) : Decidable (a ≤ b) := by
  show Decidable (le a b)
  cases a <;> cases b <;> simp only [le] <;> infer_instance

instance (a b : XF K) : Decidable (feq a b) := by
  unfold feq; infer_instance

/-- Not NaN: the values `math.IsNaN` (e.g. utils.go:36) rejects are excluded. -/
def isNaN : XF K → Bool
  | nan => true
  | _ => false

end XF
end CloudForest
