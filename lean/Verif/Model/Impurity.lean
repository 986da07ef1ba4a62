import Verif.Model.Feature

/-!
# Targets: impurity of case sets, from scratch and incrementally
(densecatfeature.go:945-1078, densenumfeature.go:394-495, entropytarget.go, featureinterfaces.go)
-/

namespace CloudForest
variable {K : Type} [Field K] [LinearOrder K] [IsStrictOrderedRing K]

/-- Go's conversion `float64(i)` of an `int` (e.g. densecatfeature.go:948-955). Exact. -/
def XF.ofInt (i : Int) : XF K := .fin (i : K)

/-- The parts of `BestSplitAllocs` (splitallocations.go:9-33) that targets keep values in. The
scratch slices `Left`, `Right`, `NonMissing`, `LM`, `RM`, `MM` and the sort buffers are not kept:
every use overwrites them first. -/
structure Allocs (K : Type) where
  counter : List Int
  lcounter : List Int
  rcounter : List Int
  lsum : XF K
  rsum : XF K
  msum : XF K
  lsumSqr : XF K
  rsumSqr : XF K
  msumSqr : XF K
  deriving DecidableEq

/-- The part of the `Target` interface (featureinterfaces.go:81-88) used by the split searches.
The last argument of `splitImpurity` is the missing block (`none` = nil pointer). `none` as a
result is a panic. -/
structure Target (K : Type) where
  impurity : Allocs K → List Nat → Option (XF K × Allocs K)
  splitImpurity : Allocs K → List Nat → List Nat → Option (List Nat) → Option (XF K × Allocs K)
  updateSImp : Allocs K → List Nat → List Nat → Option (List Nat) → List Nat →
    Option (XF K × Allocs K)

/-- `counter[k] += d` (densecatfeature.go:964-975, 1032-1048). Panics out of range. -/
def bump (counter : List Int) (k : Nat) (d : Int) : Option (List Int) := do
  let x ← counter[k]?
  some (counter.set k (x + d))

/-- `CountPerCat` (densecatfeature.go:1032-1049): zero the counter, then count. -/
def CatFeature.countPerCat (f : CatFeature) (cases : List Nat) (counter : List Int) :
    Option (List Int) :=
  cases.foldlM (fun acc c => do
    let k ← f.catData[c]?
    bump acc k 1) (counter.map fun _ => 0)

/-- `MoveCountsRtoL` (densecatfeature.go:964-977) and the same loop in `UpdateSImpFromAllocs`
(densecatfeature.go:986-994). -/
def CatFeature.moveCounts (f : CatFeature) (moved : List Nat) (l r : List Int) :
    Option (List Int × List Int) :=
  moved.foldlM (fun acc c => do
    let k ← f.catData[c]?
    let l ← bump acc.1 k 1
    let r ← bump acc.2 k (-1)
    some (l, r)) (l, r)

/-- `ImpFromCounts` (densecatfeature.go:1070-1078) and the end of `GiniWithoutAlocate`
(densecatfeature.go:1061-1066): Gini impurity from counts. -/
def giniFromCounts (total : Nat) (counts : List Int) : XF K :=
  counts.foldl (fun e i => e - XF.ofInt (i * i) / XF.ofNat (total * total)) (.fin 1)

/-- The missing block counted by a split impurity: only a non-nil, non-empty one
(densecatfeature.go:954, 1001). -/
def missBlock : Option (List Nat) → List Nat
  | none => []
  | some m => m

/-- `SplitImpurity` of the count based targets (densecatfeature.go:945-961 with
`GiniWithoutAlocate`, entropytarget.go:23-37), given how an impurity is computed from counts. -/
def countSplitImpurity (f : CatFeature) (imp : Nat → List Int → XF K) (a : Allocs K)
    (l r : List Nat) (m : Option (List Nat)) : Option (XF K × Allocs K) := do
  let lc ← f.countPerCat l a.lcounter
  let rc ← f.countPerCat r a.rcounter
  let nl : XF K := .ofNat l.length
  let nr : XF K := .ofNat r.length
  let d := nl * imp l.length lc + nr * imp r.length rc
  if 0 < (missBlock m).length then
    let mc ← f.countPerCat (missBlock m) a.counter
    let nm : XF K := .ofNat (missBlock m).length
    some ((d + nm * imp (missBlock m).length mc) / (nl + nr + nm),
      { a with lcounter := lc, rcounter := rc, counter := mc })
  else
    some (d / (nl + nr + .fin 0), { a with lcounter := lc, rcounter := rc })

/-- `UpdateSImpFromAllocs` of the count based targets (densecatfeature.go:981-1009,
entropytarget.go:41-56). Simplified: the Gini version adds the missing count to the left one
before the right one, which is the same sum in exact arithmetic. -/
def countUpdateSImp (f : CatFeature) (imp : Nat → List Int → XF K) (a : Allocs K)
    (l r : List Nat) (m : Option (List Nat)) (moved : List Nat) : Option (XF K × Allocs K) := do
  let (lc, rc) ← f.moveCounts moved a.lcounter a.rcounter
  let nl : XF K := .ofNat l.length
  let nr : XF K := .ofNat r.length
  let d := nl * imp l.length lc + nr * imp r.length rc
  if 0 < (missBlock m).length then
    let nm : XF K := .ofNat (missBlock m).length
    some ((d + nm * imp (missBlock m).length a.counter) / (nl + nr + nm),
      { a with lcounter := lc, rcounter := rc })
  else
    some (d / (nl + nr + .fin 0), { a with lcounter := lc, rcounter := rc })

/-- `Impurity` of the count based targets (densecatfeature.go:1013-1019 with 1056-1067,
entropytarget.go:72-88). -/
def countImpurity (f : CatFeature) (imp : Nat → List Int → XF K) (a : Allocs K)
    (cases : List Nat) : Option (XF K × Allocs K) := do
  let c ← f.countPerCat cases a.counter
  some (imp cases.length c, { a with counter := c })

/-- A count based target: its impurity is a function of the number of cases and the counts
(densecatfeature.go:945-1078, entropytarget.go). -/
def countTarget (f : CatFeature) (imp : Nat → List Int → XF K) : Target K :=
  ⟨countImpurity f imp, countSplitImpurity f imp, countUpdateSImp f imp⟩

/-- `DenseCatFeature` as a target: Gini impurity (densecatfeature.go:945-1078). -/
def giniTarget (f : CatFeature) : Target K := countTarget f giniFromCounts

/-- `SumAndSumSquares` (densenumfeature.go:470-477). Panics out of range. -/
def NumFeature.sums (f : NumFeature K) (cases : List Nat) : Option (XF K × XF K) :=
  cases.foldlM (fun acc c => do
    let x ← f.numData[c]?
    some (acc.1 + x, acc.2 + x * x)) (.fin 0, .fin 0)

/-- Sum of squared deviations by the shortcut (densenumfeature.go:410, 454, 491). -/
def sseFrom (n : Nat) (sum sumSqr : XF K) : XF K := sumSqr - sum * sum / .ofNat n

/-- `DenseNumFeature.SplitImpurity` (densenumfeature.go:394-431). -/
def NumFeature.splitImpurity (f : NumFeature K) (a : Allocs K) (l r : List Nat)
    (m : Option (List Nat)) : Option (XF K × Allocs K) := do
  let (ls, lq) ← f.sums l
  let (rs, rq) ← f.sums r
  let nl : XF K := .ofNat l.length
  let nr : XF K := .ofNat r.length
  let d := nl * sseFrom l.length ls lq + nr * sseFrom r.length rs rq
  let a := { a with lsum := ls, lsumSqr := lq, rsum := rs, rsumSqr := rq }
  if 0 < (missBlock m).length then
    let (ms, mq) ← f.sums (missBlock m)
    let nm : XF K := .ofNat (missBlock m).length
    some ((d + nm * sseFrom (missBlock m).length ms mq) / (nl + nr + nm),
      { a with msum := ms, msumSqr := mq })
  else
    some (d / (nl + nr + .fin 0), a)

/-- `DenseNumFeature.UpdateSImpFromAllocs` (densenumfeature.go:435-468). -/
def NumFeature.updateSImp (f : NumFeature K) (a : Allocs K) (l r : List Nat)
    (m : Option (List Nat)) (moved : List Nat) : Option (XF K × Allocs K) := do
  let (s, q) ← f.sums moved
  let a := { a with lsum := a.lsum + s, rsum := a.rsum - s,
                    lsumSqr := a.lsumSqr + q, rsumSqr := a.rsumSqr - q }
  let nl : XF K := .ofNat l.length
  let nr : XF K := .ofNat r.length
  let d := nl * sseFrom l.length a.lsum a.lsumSqr + nr * sseFrom r.length a.rsum a.rsumSqr
  if 0 < (missBlock m).length then
    let nm : XF K := .ofNat (missBlock m).length
    some ((d + nm * sseFrom (missBlock m).length a.msum a.msumSqr) / (nl + nr + nm), a)
  else
    some (d / (nl + nr + .fin 0), a)

/-- `DenseNumFeature.Impurity` (densenumfeature.go:481-495). -/
def NumFeature.impurity (f : NumFeature K) (a : Allocs K) (cases : List Nat) :
    Option (XF K × Allocs K) := do
  let (s, q) ← f.sums cases
  some (sseFrom cases.length s q, a)

/-- `DenseNumFeature` as a target: sum of squared deviations (densenumfeature.go:394-494). -/
def sseTarget (f : NumFeature K) : Target K := ⟨f.impurity, f.splitImpurity, f.updateSImp⟩

end CloudForest
