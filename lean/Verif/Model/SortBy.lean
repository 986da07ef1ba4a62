import Verif.Model.XF
import Verif.Model.Go

/-!
# sortby/sortby.go: sorting cases by values

Slices of cases and values; every access is checked (`none` = index out of range panic).
-/

set_option linter.unusedVariables false

namespace CloudForest
namespace SortBy

variable {K : Type} [LinearOrder K]

/-- The two slices `*cases` and `*vals` (sortby/sortby.go:11). -/
structure SV (K : Type) where
  cs : List Nat
  vs : List (XF K)
  deriving DecidableEq

/-- `swap` (sortby/sortby.go:25-36) and the inlined exchanges of `doPivot`. -/
def swap (s : SV K) (i j : Nat) : Option (SV K) :=
  match swp s.cs i j, swp s.vs i j with
  | some c, some v => some ⟨c, v⟩
  | _, _ => none

/-- Inner loop of `insertionSort` (sortby/sortby.go:249-251) from position `j` down to `a`. -/
def insInner (s : SV K) (a : Nat) : Nat → Option (SV K)
  | 0 => some s
  | j + 1 =>
    if a < j + 1 then
      match s.vs[j + 1]?, s.vs[j]? with
      | some x, some y =>
        if x < y then
          match swap s (j + 1) j with
          | some s' => insInner s' a j
          | none => none
        else some s
      | _, _ => none
    else some s

/-- Outer loop of `insertionSort` (sortby/sortby.go:248-252). -/
def insOuter (s : SV K) (a b i : Nat) : Option (SV K) :=
  if i < b then
    match insInner s a i with
    | some s' => insOuter s' a b (i + 1)
    | none => none
  else some s
termination_by b - i

/-- `insertionSort` (sortby/sortby.go:245-253). -/
def insertionSort (s : SV K) (a b : Nat) : Option (SV K) := insOuter s a b (a + 1)

/-- The choice of the larger child in `siftDown` (sortby/sortby.go:261-267). -/
def pickChild (s : SV K) (root hi first : Nat) : Option Nat :=
  if 2 * root + 1 + 1 < hi then
    match s.vs[first + (2 * root + 1)]?, s.vs[first + (2 * root + 1) + 1]? with
    | some x, some y => some (if x < y then 2 * root + 1 + 1 else 2 * root + 1)
    | _, _ => none
  else some (2 * root + 1)

theorem pickChild_gt {s : SV K} {root hi first child : Nat}
    (h : pickChild s root hi first = some child) : root < child := by
  unfold pickChild at h
  split at h
  · split at h
    · cases h; split <;> omega
    · cases h
  · cases h; omega

/-- `siftDown` (sortby/sortby.go:257-274); `root` starts as the argument `lo`. -/
def siftDown (s : SV K) (root hi first : Nat) : Option (SV K) :=
  if 2 * root + 1 < hi then
    match h : pickChild s root hi first with
    | none => none
    | some child =>
      match s.vs[first + root]?, s.vs[first + child]? with
      | some x, some y =>
        if y ≤ x then some s
        else
          match swap s (first + root) (first + child) with
          | some s' => siftDown s' child hi first
          | none => none
      | _, _ => none
  else some s
termination_by hi - root
decreasing_by have := pickChild_gt h; omega

/-- Heap construction loop (sortby/sortby.go:282-284): `k` is `i+1`. -/
def buildHeap (s : SV K) (hi first : Nat) : Nat → Option (SV K)
  | 0 => some s
  | k + 1 =>
    match siftDown s k hi first with
    | some s' => buildHeap s' hi first k
    | none => none

/-- Pop loop (sortby/sortby.go:287-290): `k` is `i+1`. -/
def popHeap (s : SV K) (first : Nat) : Nat → Option (SV K)
  | 0 => some s
  | k + 1 =>
    match swap s first (first + k) with
    | some s' =>
      match siftDown s' 0 k first with
      | some s'' => popHeap s'' first k
      | none => none
    | none => none

/-- `heapSort` (sortby/sortby.go:276-291). -/
def heapSort (s : SV K) (a b : Nat) : Option (SV K) :=
  match buildHeap s (b - a) a ((b - a - 1) / 2 + 1) with
  | some s' => popHeap s' a (b - a)
  | none => none

/-- One compare-and-exchange of `medianOfThree`: `if vs[i] < vs[j] { swap(i, j) }` (sortby/sortby.go:205-213). -/
def cmpSwap (s : SV K) (i j : Nat) : Option (SV K) :=
  match s.vs[i]?, s.vs[j]? with
  | some x, some y => if x < y then swap s i j else some s
  | _, _ => none

/-- `medianOfThree` (sortby/sortby.go:198-215): m0 = b, m1 = a, m2 = c. -/
def medianOfThree (s : SV K) (a b c : Nat) : Option (SV K) :=
  match cmpSwap s a b with
  | none => none
  | some s1 =>
    match cmpSwap s1 c a with
    | none => none
    | some s2 => cmpSwap s2 a b

/-- First inner loop of `doPivot` (sortby/sortby.go:89-107). Returns slices, `a`, `b`. -/
def scanUp (s : SV K) (p : XF K) (a b c : Nat) : Option (SV K × Nat × Nat) :=
  if b < c then
    match s.vs[b]? with
    | none => none
    | some x =>
      if x < p then scanUp s p a (b + 1) c
      else if XF.feq p x then
        match swap s a b with
        | some s' => scanUp s' p (a + 1) (b + 1) c
        | none => none
      else some (s, a, b)
  else some (s, a, b)
termination_by c - b

/-- Second inner loop of `doPivot` (sortby/sortby.go:108-139). Returns slices, `c`, `d`. -/
def scanDown (s : SV K) (p : XF K) (b c d : Nat) : Option (SV K × Nat × Nat) :=
  if b < c then
    match s.vs[c - 1]? with
    | none => none
    | some x =>
      if p < x then scanDown s p b (c - 1) d
      else if XF.feq x p then
        match swap s (c - 1) (d - 1) with
        | some s' => scanDown s' p b (c - 1) (d - 1)
        | none => none
      else some (s, c, d)
  else some (s, c, d)
termination_by c - b

theorem scanUp_ge (s : SV K) (p : XF K) (a b c : Nat) (r : SV K × Nat × Nat)
    (h : scanUp s p a b c = some r) : b ≤ r.2.2 := by
  fun_induction scanUp s p a b c with
  | case1 => simp at h
  | case2 s a b hlt x hx hp ih => have := ih h; omega
  | case3 s a b hlt x hx hp he s' hs ih => have := ih h; omega
  | case4 => simp at h
  | case5 => cases h; exact Nat.le_refl _
  | case6 => cases h; exact Nat.le_refl _

theorem scanDown_le (s : SV K) (p : XF K) (b c d : Nat) (r : SV K × Nat × Nat)
    (h : scanDown s p b c d = some r) : r.2.1 ≤ c := by
  fun_induction scanDown s p b c d with
  | case1 => simp at h
  | case2 s c d hlt x hx hp ih => have := ih h; omega
  | case3 s c d hlt x hx hp he s' hs ih => have := ih h; omega
  | case4 => simp at h
  | case5 => cases h; exact Nat.le_refl _
  | case6 => cases h; exact Nat.le_refl _

/-- Outer loop of `doPivot` (sortby/sortby.go:88-155). Returns slices, `a`, `b`, `c`, `d`. -/
def pivotLoop (s : SV K) (p : XF K) (a b c d : Nat) : Option (SV K × Nat × Nat × Nat × Nat) :=
  match h1 : scanUp s p a b c with
  | none => none
  | some (s1, a1, b1) =>
    match h2 : scanDown s1 p b1 c d with
    | none => none
    | some (s2, c1, d1) =>
      if b1 < c1 then
        match swap s2 (c1 - 1) b1 with
        | some s3 => pivotLoop s3 p a1 (b1 + 1) (c1 - 1) d1
        | none => none
      else some (s2, a1, b1, c1, d1)
termination_by c - b
decreasing_by
  have e1 := scanUp_ge s p a b c _ h1
  have e2 := scanDown_le s1 p b1 c d _ h2
  simp only at e1 e2
  omega

/-- The range exchange loops (sortby/sortby.go:160-174 and 178-192, also `swapRange`
217-242). -/
def swapRange (s : SV K) (a b : Nat) : Nat → Option (SV K)
  | 0 => some s
  | n + 1 =>
    match swap s a b with
    | some s' => swapRange s' (a + 1) (b + 1) n
    | none => none

/-- Pivot selection (sortby/sortby.go:66-74). -/
def choosePivot (s : SV K) (lo hi : Nat) : Option (SV K) :=
  let m := lo + (hi - lo) / 2
  if 40 < hi - lo then
    let t := (hi - lo) / 8
    match medianOfThree s lo (lo + t) (lo + 2 * t) with
    | none => none
    | some s1 =>
      match medianOfThree s1 m (m - t) (m + t) with
      | none => none
      | some s2 =>
        match medianOfThree s2 (hi - 1) (hi - 1 - t) (hi - 1 - 2 * t) with
        | none => none
        | some s3 => medianOfThree s3 lo m (hi - 1)
  else medianOfThree s lo m (hi - 1)

/-- `doPivot` (sortby/sortby.go:61-195). Returns slices, `midlo`, `midhi`. -/
def doPivot (s : SV K) (lo hi : Nat) : Option (SV K × Nat × Nat) :=
  match choosePivot s lo hi with
  | none => none
  | some s1 =>
    match s1.vs[lo]? with
    | none => none
    | some p =>
      match pivotLoop s1 p (lo + 1) (lo + 1) hi hi with
      | none => none
      | some (s2, a, b, c, d) =>
        match swapRange s2 lo (b - min (b - a) (a - lo)) (min (b - a) (a - lo)) with
        | none => none
        | some s3 =>
          match swapRange s3 c (hi - min (hi - d) (d - c)) (min (hi - d) (d - c)) with
          | none => none
          | some s4 => some (s4, lo + b - a, hi - (d - c))

/-- `quickSort` (sortby/sortby.go:38-59). The Go loop continues with the larger part and the
decremented depth, which is the second call here. -/
def quickSort (s : SV K) (a b : Nat) : Nat → Option (SV K)
  | 0 =>
    if 7 < b - a then heapSort s a b
    else if 1 < b - a then insertionSort s a b else some s
  | d + 1 =>
    if 7 < b - a then
      match doPivot s a b with
      | none => none
      | some (s1, mlo, mhi) =>
        if mlo - a < b - mhi then
          match quickSort s1 a mlo d with
          | some s2 => quickSort s2 mhi b d
          | none => none
        else
          match quickSort s1 mhi b d with
          | some s2 => quickSort s2 a mlo d
          | none => none
    else if 1 < b - a then insertionSort s a b else some s

/-- The depth loop `for i := n; i > 0; i >>= 1 { maxDepth++ }` (sortby/sortby.go:14-17). -/
def bitLen (n : Nat) : Nat := if 0 < n then bitLen (n / 2) + 1 else 0
termination_by n

/-- `SortBy` (sortby/sortby.go:11-22). -/
def sortBy (s : SV K) : Option (SV K) :=
  quickSort s 0 s.cs.length (2 * bitLen s.cs.length)

end SortBy
end CloudForest
