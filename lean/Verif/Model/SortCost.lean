import Verif.Model.SortBy

/-!
# sortby/sortby.go: counting comparisons and exchanges

The functions of Model/SortBy again, with a count of every comparison of two values and every exchange of two places, and
for `quickSort` the number of calls that are open at the same time. Loops whose end is not evident get a number of rounds
that is never used up.
-/

set_option linter.unusedVariables false

namespace CloudForest
namespace SortBy

variable {K : Type} [LinearOrder K]

/-- A result with the number of steps it took, or an index out of range panic (sortby/sortby.go:11-22). -/
def Counted (α : Type) : Type := Option (α × Nat)

instance : Monad Counted where
  pure x := some (x, 0)
  bind m f :=
    match m with
    | none => none
    | some (x, n) =>
      match f x with
      | none => none
      | some (y, k) => some (y, n + k)

/-- Reading a value, not counted (sortby/sortby.go:85). -/
def readT (s : SV K) (i : Nat) : Counted (XF K) := s.vs[i]?.map (·, 0)

/-- `x < y`, one step (sortby/sortby.go:91, 111, 205-213, 249, 263). -/
def lessT (x y : XF K) : Counted Bool := some (decide (x < y), 1)

/-- `x >= y`, one step (sortby/sortby.go:268). -/
def atLeastT (x y : XF K) : Counted Bool := some (decide (y ≤ x), 1)

/-- `x == y`, one step (sortby/sortby.go:93, 113). -/
def equalT (x y : XF K) : Counted Bool := some (XF.feq x y, 1)

/-- An exchange, one step (sortby/sortby.go:25-36 and its inlined copies). -/
def swapT (s : SV K) (i j : Nat) : Counted (SV K) := (swap s i j).map (·, 1)

/-- A loop that ran out of rounds; not reached. The Go loops have no such bound (sortby/sortby.go:88-155, 260-273). -/
def neverT {α : Type} : Counted α := none

/-- Inner loop of `insertionSort` (sortby/sortby.go:249-251). -/
def insInnerT (s : SV K) (a : Nat) : Nat → Counted (SV K)
  | 0 => pure s
  | j + 1 =>
    if a < j + 1 then do
      let x ← readT s (j + 1)
      let y ← readT s j
      if ← lessT x y then
        let s' ← swapT s (j + 1) j
        insInnerT s' a j
      else pure s
    else pure s

/-- Outer loop of `insertionSort` (sortby/sortby.go:248-252), `n` rounds. -/
def insOuterT (s : SV K) (a i : Nat) : Nat → Counted (SV K)
  | 0 => pure s
  | n + 1 => do
    let s' ← insInnerT s a i
    insOuterT s' a (i + 1) n

/-- `insertionSort` (sortby/sortby.go:245-253). -/
def insertionSortT (s : SV K) (a b : Nat) : Counted (SV K) := insOuterT s a (a + 1) (b - (a + 1))

/-- The choice of the larger child in `siftDown` (sortby/sortby.go:261-267). -/
def pickChildT (s : SV K) (root hi first : Nat) : Counted Nat :=
  if 2 * root + 1 + 1 < hi then do
    let x ← readT s (first + (2 * root + 1))
    let y ← readT s (first + (2 * root + 1) + 1)
    if ← lessT x y then pure (2 * root + 1 + 1) else pure (2 * root + 1)
  else pure (2 * root + 1)

/-- `siftDown` (sortby/sortby.go:257-274). -/
def siftDownT (hi first : Nat) : Nat → SV K → Nat → Counted (SV K)
  | 0, _, _ => neverT
  | fuel + 1, s, root =>
    if 2 * root + 1 < hi then do
      let child ← pickChildT s root hi first
      let x ← readT s (first + root)
      let y ← readT s (first + child)
      if ← atLeastT x y then pure s
      else
        let s' ← swapT s (first + root) (first + child)
        siftDownT hi first fuel s' child
    else pure s

/-- Heap construction loop (sortby/sortby.go:282-284). -/
def buildHeapT (s : SV K) (hi first : Nat) : Nat → Counted (SV K)
  | 0 => pure s
  | k + 1 => do
    let s' ← siftDownT hi first (hi + 1) s k
    buildHeapT s' hi first k

/-- Pop loop (sortby/sortby.go:287-290). -/
def popHeapT (s : SV K) (first : Nat) : Nat → Counted (SV K)
  | 0 => pure s
  | k + 1 => do
    let s' ← swapT s first (first + k)
    let s'' ← siftDownT k first (k + 1) s' 0
    popHeapT s'' first k

/-- `heapSort` (sortby/sortby.go:276-291). -/
def heapSortT (s : SV K) (a b : Nat) : Counted (SV K) := do
  let s' ← buildHeapT s (b - a) a ((b - a - 1) / 2 + 1)
  popHeapT s' a (b - a)

/-- One compare-and-exchange of `medianOfThree` (sortby/sortby.go:205-213). -/
def cmpSwapT (s : SV K) (i j : Nat) : Counted (SV K) := do
  let x ← readT s i
  let y ← readT s j
  if ← lessT x y then swapT s i j else pure s

/-- `medianOfThree` (sortby/sortby.go:198-215). -/
def medianOfThreeT (s : SV K) (a b c : Nat) : Counted (SV K) := do
  let s1 ← cmpSwapT s a b
  let s2 ← cmpSwapT s1 c a
  cmpSwapT s2 a b

/-- First inner loop of `doPivot` (sortby/sortby.go:89-107). -/
def scanUpT (p : XF K) (c : Nat) : Nat → SV K → Nat → Nat → Counted (SV K × Nat × Nat)
  | 0, _, _, _ => neverT
  | fuel + 1, s, a, b =>
    if b < c then do
      let x ← readT s b
      if ← lessT x p then scanUpT p c fuel s a (b + 1)
      else if ← equalT p x then
        let s' ← swapT s a b
        scanUpT p c fuel s' (a + 1) (b + 1)
      else pure (s, a, b)
    else pure (s, a, b)

/-- Second inner loop of `doPivot` (sortby/sortby.go:108-139). -/
def scanDownT (p : XF K) (b : Nat) : Nat → SV K → Nat → Nat → Counted (SV K × Nat × Nat)
  | 0, _, _, _ => neverT
  | fuel + 1, s, c, d =>
    if b < c then do
      let x ← readT s (c - 1)
      if ← lessT p x then scanDownT p b fuel s (c - 1) d
      else if ← equalT x p then
        let s' ← swapT s (c - 1) (d - 1)
        scanDownT p b fuel s' (c - 1) (d - 1)
      else pure (s, c, d)
    else pure (s, c, d)

/-- Outer loop of `doPivot` (sortby/sortby.go:88-155). -/
def pivotLoopT (p : XF K) : Nat → SV K → Nat → Nat → Nat → Nat → Counted (SV K × Nat × Nat × Nat × Nat)
  | 0, _, _, _, _, _ => neverT
  | fuel + 1, s, a, b, c, d => do
    let (s1, a1, b1) ← scanUpT p c (c - b + 1) s a b
    let (s2, c1, d1) ← scanDownT p b1 (c - b1 + 1) s1 c d
    if b1 < c1 then
      let s3 ← swapT s2 (c1 - 1) b1
      pivotLoopT p fuel s3 a1 (b1 + 1) (c1 - 1) d1
    else pure (s2, a1, b1, c1, d1)

/-- The range exchange loops (sortby/sortby.go:160-174 and 178-192). -/
def swapRangeT (s : SV K) (a b : Nat) : Nat → Counted (SV K)
  | 0 => pure s
  | n + 1 => do
    let s' ← swapT s a b
    swapRangeT s' (a + 1) (b + 1) n

/-- Pivot selection (sortby/sortby.go:66-74). -/
def choosePivotT (s : SV K) (lo hi : Nat) : Counted (SV K) :=
  let m := lo + (hi - lo) / 2
  if 40 < hi - lo then do
    let t := (hi - lo) / 8
    let s1 ← medianOfThreeT s lo (lo + t) (lo + 2 * t)
    let s2 ← medianOfThreeT s1 m (m - t) (m + t)
    let s3 ← medianOfThreeT s2 (hi - 1) (hi - 1 - t) (hi - 1 - 2 * t)
    medianOfThreeT s3 lo m (hi - 1)
  else medianOfThreeT s lo m (hi - 1)

/-- `doPivot` (sortby/sortby.go:61-195). -/
def doPivotT (s : SV K) (lo hi : Nat) : Counted (SV K × Nat × Nat) := do
  let s1 ← choosePivotT s lo hi
  let p ← readT s1 lo
  let (s2, a, b, c, d) ← pivotLoopT p (hi - lo + 1) s1 (lo + 1) (lo + 1) hi hi
  let s3 ← swapRangeT s2 lo (b - min (b - a) (a - lo)) (min (b - a) (a - lo))
  let s4 ← swapRangeT s3 c (hi - min (hi - d) (d - c)) (min (hi - d) (d - c))
  pure (s4, lo + b - a, hi - (d - c))

/-- `quickSort` (sortby/sortby.go:38-59), with the number of further calls of `quickSort` that are open at the same time.
The smaller part is sorted by a call, the larger one by the next round of the loop, in the same call. -/
def quickSortT (s : SV K) (a b : Nat) : Nat → Counted (SV K × Nat)
  | 0 => do
    if 7 < b - a then
      let s' ← heapSortT s a b
      pure (s', 0)
    else if 1 < b - a then
      let s' ← insertionSortT s a b
      pure (s', 0)
    else pure (s, 0)
  | d + 1 => do
    if 7 < b - a then
      let (s1, mlo, mhi) ← doPivotT s a b
      if mlo - a < b - mhi then
        let (s2, open1) ← quickSortT s1 a mlo d
        let (s3, open2) ← quickSortT s2 mhi b d
        pure (s3, max (open1 + 1) open2)
      else
        let (s2, open1) ← quickSortT s1 mhi b d
        let (s3, open2) ← quickSortT s2 a mlo d
        pure (s3, max (open1 + 1) open2)
    else if 1 < b - a then
      let s' ← insertionSortT s a b
      pure (s', 0)
    else pure (s, 0)

/-- `SortBy` (sortby/sortby.go:11-22): the sorted slices, the number of open calls and the number of comparisons and
exchanges. -/
def sortByT (s : SV K) : Counted (SV K × Nat) :=
  quickSortT s 0 s.cs.length (2 * bitLen s.cs.length)

end SortBy
end CloudForest
