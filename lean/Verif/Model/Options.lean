import Verif.Model.Text
import Mathlib.Algebra.Order.Floor.Ring

/-!
# Options that are numbers or fractions (utils.go:110-139)
-/

namespace CloudForest
variable {K : Type} [Field K] [LinearOrder K] [IsStrictOrderedRing K]

/-- The value of a digit in bases up to 16 (strconv.ParseUint) (used at utils.go:130). -/
def digitOf (c : Char) : Option Nat :=
  if '0' ≤ c ∧ c ≤ '9' then some (c.toNat - '0'.toNat)
  else if 'a' ≤ c ∧ c ≤ 'f' then some (c.toNat - 'a'.toNat + 10)
  else if 'A' ≤ c ∧ c ≤ 'F' then some (c.toNat - 'A'.toNat + 10)
  else none

/-- Digits in a base (the loop of strconv.ParseUint) (used at utils.go:130). -/
def digitsIn (base : Nat) (acc : Nat) : Text → Option Nat
  | [] => some acc
  | c :: s =>
    match digitOf c with
    | none => none
    | some d => if d < base then digitsIn base (acc * base + d) s else none

/-- `strconv.ParseUint(s, 0, 64)`, without its range check: a leading zero means octal, and `0b`, `0o`, `0x`
binary, octal and hexadecimal (used at utils.go:130). Simplified: underscores are errors. -/
def parseUint0 : Text → Option Nat
  | [] => none
  | '0' :: x :: c :: s =>
    if x = 'b' ∨ x = 'B' then digitsIn 2 0 (c :: s)
    else if x = 'o' ∨ x = 'O' then digitsIn 8 0 (c :: s)
    else if x = 'x' ∨ x = 'X' then digitsIn 16 0 (c :: s)
    else digitsIn 8 0 (x :: c :: s)
  | '0' :: s => digitsIn 8 0 s
  | s => digitsIn 10 0 s

/-- `strconv.ParseInt(s, 0, 0)` on a 64-bit machine (utils.go:130); `none` is an error. -/
def parseInt0 (s : Text) : Option Int :=
  match s with
  | '+' :: s => do
    let n ← parseUint0 s
    if n < 2 ^ 63 then some n else none
  | '-' :: s => do
    let n ← parseUint0 s
    if n ≤ 2 ^ 63 then some (-n) else none
  | s => do
    let n ← parseUint0 s
    if n < 2 ^ 63 then some n else none

/-- `ParseAsIntOrFractionOfTotal` (utils.go:117-139). A fraction that is not finite is left out: the
conversion to `int` is then not specified. -/
def parseAsIntOrFraction [FloorRing K] (nt : NumText K) (term : Text) (total : Int) : Option Int :=
  if term = [] then some 0
  else if '.' ∈ term then
    match nt.parse term with
    | some (.fin x) => some ⌈x * (total : K)⌉
    | some _ => none
    | none => some 0
  else
    match parseInt0 term with
    | some n => some n
    | none => some 0

end CloudForest
