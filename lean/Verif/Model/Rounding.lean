import Verif.Model.Search
import Mathlib.Data.Rat.Floor

/-!
# The search of a numerical feature in rounded arithmetic

Everywhere else in the model `float64` arithmetic is exact. Here the additions and the division by which
`BestNumSplit` compares values and makes thresholds are rounded.
-/

namespace CloudForest

/-- The exponent of a positive number, in IEEE 754 double precision as Go's `float64` (featureinterfaces.go:9,
densenumfeature.go:12-17). -/
def F64.exponent (x : ℚ) : Int :=
  let e : Int := (Nat.log2 x.num.natAbs : Int) - Nat.log2 x.den
  if (2 : ℚ) ^ e ≤ x then e else e - 1

/-- Rounding to a whole number, ties to the even one, as for Go's `float64` (featureinterfaces.go:9,
densenumfeature.go:12-17). -/
def roundEven (y : ℚ) : Int :=
  let f := ⌊y⌋
  if y - f < 1 / 2 then f
  else if 1 / 2 < y - f then f + 1
  else if f % 2 = 0 then f else f + 1

/-- The rational number that `x` is rounded to, were there no overflow: 53 bits, the last of them worth at least 2⁻¹⁰⁷⁴.
For Go's `float64` (featureinterfaces.go:9, densenumfeature.go:12-17). -/
def F64.nearest (x : ℚ) : ℚ :=
  if x = 0 then 0
  else
    let e := max (F64.exponent |x| - 52) (-1074)
    roundEven (x / 2 ^ e) * 2 ^ e

/-- Rounding in Go's `float64` (featureinterfaces.go:9, densenumfeature.go:12-17): to nearest, ties to even, with
overflow. A single zero. -/
def F64.round (x : ℚ) : XF ℚ :=
  let y := F64.nearest x
  if 2 ^ 1024 ≤ y then .pinf else if y ≤ -2 ^ 1024 then .ninf else .fin y

variable {K : Type} [Field K] [LinearOrder K] [IsStrictOrderedRing K]

/-- A result rounded by `r`. For Go's `+` and `/` (densenumfeature.go:325, 355-357). -/
def XF.rounded (r : K → XF K) : XF K → XF K
  | .fin x => r x
  | v => v

/-- A value plus `constant_cutoff` (densenumfeature.go:308, 325), rounded. -/
def XF.plusCut (r : K → XF K) (v cut : XF K) : XF K := XF.rounded r (v + cut)

/-- The threshold between two values (densenumfeature.go:355-357), rounded twice. -/
def XF.midpoint (r : K → XF K) (a b : XF K) : XF K := XF.rounded r (XF.rounded r (a + b) / .fin 2)

/-- The scan over the gaps (densenumfeature.go:322-366) from position `i` on, as `numLoop`, but with rounded
comparisons and thresholds. Impurities remain exact. -/
def numLoopR (r : K → XF K) (cut : XF K) (T : Target K) (parentImp : XF K) (sorted : List Nat) (vals : List (XF K))
    (stop i lasti lastsplit : Nat) (a : Allocs K) (best splitf : XF K) :
    Option (XF K × XF K × Allocs K) :=
  if i < stop then do
    let vi ← vals[i]?
    let vl ← vals[lasti]?
    if vi ≤ XF.plusCut r vl cut then
      numLoopR r cut T parentImp sorted vals stop (i + 1) lasti lastsplit a best splitf
    else do
      let (s, a) ← cutImpurity T a sorted lastsplit i
      let inner := gain parentImp s
      if best < inner then
        numLoopR r cut T parentImp sorted vals stop (i + 1) i i a inner (XF.midpoint r vl vi)
      else
        numLoopR r cut T parentImp sorted vals stop (i + 1) i i a best splitf
  else some (best, splitf, a)
termination_by stop - i

/-- `DenseNumFeature.BestNumSplit` (densenumfeature.go:285-371) as `bestNumSplit`, but with rounded comparisons and
thresholds; `cut` is the rounded `constant_cutoff` (featureinterfaces.go:9). -/
def NumFeature.bestNumSplitR (r : K → XF K) (cut : XF K) (f : NumFeature K) (T : Target K) (parentImp : XF K)
    (leafSize : Nat) (randomSplit : Bool) (w : Work K) : Option (Found K × Work K) :=
  if 2 * leafSize ≤ w.cases.length then do
    let vals ← f.load w.cases
    let s ← SortBy.sortBy ⟨w.cases, vals⟩
    let v0 ← s.vs[0]?
    let vn ← s.vs[w.cases.length - 1]?
    let stop := w.cases.length - leafSize
    if vn ≤ XF.plusCut r v0 cut then
      some (⟨none, minImp, true⟩, { w with cases := s.cs })
    else do
      let (first, stop, rng) ← scanRange leafSize stop randomSplit w.rng
      if first = 0 ∧ first < stop then none
      else do
        let (best, splitf, a) ←
          numLoopR r cut T parentImp s.cs s.vs stop first (first - 1) 0 w.allocs minImp (.fin 0)
        some (⟨some (.num splitf), best, false⟩, ⟨s.cs, a, rng⟩)
  else some (⟨some (.num (.fin 0)), minImp, false⟩, w)

/-- `constant_cutoff` as a `float64` (featureinterfaces.go:9). -/
def F64.cutoff : XF ℚ := F64.round (1 / 10000000)

end CloudForest
