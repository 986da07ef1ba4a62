import Verif.Model.Boost
import Verif.Model.Impurity

/-!
# The other targets
(entropytarget.go, dentropytarget.go, wrftarget.go, regrettarget.go, NPtarget.go, hdistancetarget.go,
adaboosttarget.go, adacosttarget.go, gradboosttarget.go, transduction.go)
-/

namespace CloudForest
variable {K : Type} [Field K] [LinearOrder K] [IsStrictOrderedRing K]

/-- `EntropyTarget.ImpFromCounts` and the end of `EntropyTarget.Impurity` (entropytarget.go:58-69, 77-86). -/
def entropyFromCounts (log : XF K → XF K) (total : Nat) (counts : List Int) : XF K :=
  counts.foldl (fun e i =>
    if 0 < i then
      let p := XF.ofInt i / .ofNat total
      e - p * log p
    else e) (.fin 0)

/-- `EntropyTarget` (entropytarget.go). -/
def entropyTarget (log : XF K → XF K) (f : CatFeature) : Target K := countTarget f (entropyFromCounts log)

/-- `DEntropyTarget.ImpFromCounts` (dentropytarget.go:73-83). Simplified: costs beyond the end of the list, which Go
would panic on, do not count; `NewDEntropyTarget` makes as many costs as counters. -/
def dEntropyFromCounts (log : XF K → XF K) (costs : List (XF K)) (total : Nat) (counts : List Int) : XF K :=
  (counts.zip costs).foldl (fun e (ic : Int × XF K) =>
    if 0 < ic.1 then
      let p := XF.ofInt ic.1 / .ofNat total
      e - ic.2 * p * log p
    else e) (.fin 0)

/-- `DEntropyTarget` (dentropytarget.go:38-83, 118-134): `SplitImpurity` calls `Impurity`, which does not use the
costs, and `UpdateSImpFromAllocs` calls `ImpFromCounts`, which does. -/
def dEntropyTarget (log : XF K → XF K) (costs : List (XF K)) (f : CatFeature) : Target K :=
  ⟨countImpurity f (entropyFromCounts log), countSplitImpurity f (entropyFromCounts log),
    countUpdateSImp f (dEntropyFromCounts log costs)⟩

/-- `WRFTarget.ImpFromCounts` (wrftarget.go:82-97). Simplified like `dEntropyFromCounts`. -/
def wrfFromCounts (weights : List (XF K)) (_total : Nat) (counts : List Int) : XF K :=
  let (total, e) := (counts.zip weights).foldl (fun (acc : XF K × XF K) (vw : Int × XF K) =>
    (acc.1 + .ofInt vw.1 * vw.2, acc.2 - .ofInt (vw.1 * vw.1) * vw.2 * vw.2)) (.fin 0, .fin 0)
  e / (total * total) + .fin 1

/-- `WRFTarget` (wrftarget.go:27-97). -/
def wrfTarget (weights : List (XF K)) (f : CatFeature) : Target K := countTarget f (wrfFromCounts weights)

/-- The search for the largest value, the first of them if there are several; category 0 if none is positive
(wrftarget.go:110-116, regrettarget.go:95-101, 113-122, NPtarget.go:102-111). -/
def argmaxX : List (XF K) → Nat → Nat → XF K → Nat
  | [], _, m, _ => m
  | v :: vs, k, m, max => if max < v then argmaxX vs (k + 1) k v else argmaxX vs (k + 1) m max

/-- The counts times their weights (wrftarget.go:111, regrettarget.go:96, 114). Simplified like
`dEntropyFromCounts`. -/
def weighted (weights : List (XF K)) (counts : List Int) : List (XF K) :=
  (counts.zip weights).map fun vw => .ofInt vw.1 * vw.2

/-- `WRFTarget.FindPredicted` (wrftarget.go:100-123), as a category number. -/
def wrfPredict (weights : List (XF K)) (f : CatFeature) (cases : List Nat) : Option Nat := do
  let counts ← f.modeCounts cases
  some (argmaxX (weighted weights counts) 0 0 (.fin 0))

/-- `RegretTarget.FindPredicted` (regrettarget.go:87-105), as a category number. -/
def regretPredict (costs : List (XF K)) (f : CatFeature) (cases : List Nat) : Option Nat := do
  let counts ← f.countPerCat cases (List.replicate f.cm.nCats 0)
  some (argmaxX (weighted costs counts) 0 0 (.fin 0))

/-- `RegretTarget.ImpFromCounts` (regrettarget.go:108-136): `t`, already the number of cases, is increased by every
count. Simplified like `dEntropyFromCounts`. -/
def regretFromCounts (costs : List (XF K)) (t : Nat) (counts : List Int) : XF K :=
  let mi := argmaxX (weighted costs counts) 0 0 (.fin 0)
  let (t, e) := (counts.zip costs).zipIdx.foldl (fun (acc : Int × XF K) (vc : (Int × XF K) × Nat) =>
    (acc.1 + vc.1.1, if vc.2 ≠ mi then acc.2 + vc.1.2 * .ofInt vc.1.1 else acc.2)) ((t : Int), .fin 0)
  e / .ofInt t

/-- `RegretTarget` (regrettarget.go:39-147). -/
def regretTarget (costs : List (XF K)) (f : CatFeature) : Target K := countTarget f (regretFromCounts costs)

/-- Go's `math.Max` for arguments that are not NaN (used at NPtarget.go:143). -/
def XF.max (a b : XF K) : XF K := if a < b then b else a

/-- The counts, the constrained category's divided by alpha (NPtarget.go:102-106, 123-131). -/
def npWeighted (posi : Nat) (alpha : XF K) (counts : List Int) : List (XF K) :=
  counts.zipIdx.map fun ik => if ik.2 = posi then .ofInt ik.1 / alpha else .ofInt ik.1

/-- `NPTarget.FindPredicted` (NPtarget.go:95-116), as a category number. -/
def npPredict (posi : Nat) (alpha : XF K) (f : CatFeature) (cases : List Nat) : Option Nat := do
  let counts ← f.countPerCat cases (List.replicate f.cm.nCats 0)
  some (argmaxX (npWeighted posi alpha counts) 0 0 (.fin 0))

/-- `NPTarget.ImpFromCounts` (NPtarget.go:119-151). -/
def npFromCounts (posi : Nat) (alpha kappa : XF K) (t : Nat) (counts : List Int) : XF K :=
  let totalpos := ((counts.zipIdx.filter fun ik => ik.2 = posi).map (·.1)).sum
  let totalneg := ((counts.zipIdx.filter fun ik => ik.2 ≠ posi).map (·.1)).sum
  if posi = argmaxX (npWeighted posi alpha counts) 0 0 (.fin 0) then
    kappa * XF.max (.ofInt totalneg / .ofNat t - alpha) (.fin 0)
  else .ofInt totalpos / .ofNat t

/-- `NPTarget` (NPtarget.go:47-163). -/
def npTarget (posi : Nat) (alpha kappa : XF K) (f : CatFeature) : Target K := countTarget f (npFromCounts posi alpha kappa)

/-- `HDistanceTarget.HDist` (hdistancetarget.go:38-63). Panics with fewer than two counters. -/
def hDist (l r : List Int) : Option (XF K) := do
  let l0 ← l[0]?
  let r0 ← r[0]?
  let l1 ← l[1]?
  let r1 ← r[1]?
  let total0 : XF K := .ofInt (l0 + r0)
  let total1 : XF K := .ofInt (l1 + r1)
  let inner := .ofInt l0 / total0 - .ofInt l1 / total1
  let inner' := .ofInt r0 / total0 - .ofInt r1 / total1
  some (inner * inner + inner' * inner')

/-- `HDistanceTarget` (hdistancetarget.go:24-36, 83-87). The missing block does not count. -/
def hDistTarget (f : CatFeature) : Target K where
  impurity a _ := some (.fin (-1), a)
  splitImpurity a l r _ := do
    let lc ← f.countPerCat l a.lcounter
    let rc ← f.countPerCat r a.rcounter
    let d ← hDist lc rc
    some (d, { a with lcounter := lc, rcounter := rc })
  updateSImp a _ _ _ moved := do
    let (lc, rc) ← f.moveCounts moved a.lcounter a.rcounter
    let d ← hDist lc rc
    some (d, { a with lcounter := lc, rcounter := rc })

/-- `HDistanceTarget.FindPredicted` (hdistancetarget.go:65-80) before it is printed: the fraction of the positive
class. -/
def hDistPredict (f : CatFeature) (pos : Nat) (cases : List Nat) : Option (XF K) := do
  let count ← cases.foldlM (fun (n : Nat) c => do
    let k ← f.catData[c]?
    some (if k = pos then n + 1 else n)) 0
  some (.ofNat count / .ofNat cases.length)

/-- The `SplitImpurity` of targets whose impurity looks at the cases too (adaboosttarget.go:31-45,
adacosttarget.go:47-61). -/
def caseSplitImpurity (f : CatFeature) (imp : List Nat → List Int → Option (XF K)) (a : Allocs K)
    (l r : List Nat) (m : Option (List Nat)) : Option (XF K × Allocs K) := do
  let lc ← f.countPerCat l a.lcounter
  let il ← imp l lc
  let rc ← f.countPerCat r a.rcounter
  let ir ← imp r rc
  let nl : XF K := .ofNat l.length
  let nr : XF K := .ofNat r.length
  let d := nl * il + nr * ir
  if 0 < (missBlock m).length then
    let mc ← f.countPerCat (missBlock m) a.counter
    let im ← imp (missBlock m) mc
    let nm : XF K := .ofNat (missBlock m).length
    some ((d + nm * im) / (nl + nr + nm), { a with lcounter := lc, rcounter := rc, counter := mc })
  else
    some (d / (nl + nr + .fin 0), { a with lcounter := lc, rcounter := rc })

/-- Their `UpdateSImpFromAllocs` (adaboosttarget.go:49-75, adacosttarget.go:65-91). -/
def caseUpdateSImp (f : CatFeature) (imp : List Nat → List Int → Option (XF K)) (a : Allocs K)
    (l r : List Nat) (m : Option (List Nat)) (moved : List Nat) : Option (XF K × Allocs K) := do
  let (lc, rc) ← f.moveCounts moved a.lcounter a.rcounter
  let il ← imp l lc
  let ir ← imp r rc
  let nl : XF K := .ofNat l.length
  let nr : XF K := .ofNat r.length
  let d := nl * il + nr * ir
  if 0 < (missBlock m).length then
    let im ← imp (missBlock m) a.counter
    let nm : XF K := .ofNat (missBlock m).length
    some ((d + nm * im) / (nl + nr + nm), { a with lcounter := lc, rcounter := rc })
  else
    some (d / (nl + nr + .fin 0), { a with lcounter := lc, rcounter := rc })

/-- Their `Impurity` (adaboosttarget.go:78-86, adacosttarget.go:94-102). -/
def caseImpurity (f : CatFeature) (imp : List Nat → List Int → Option (XF K)) (a : Allocs K) (cases : List Nat) :
    Option (XF K × Allocs K) := do
  let c ← f.countPerCat cases a.counter
  let e ← imp cases c
  some (e, { a with counter := c })

/-- `AdaBoostTarget` as a target (adaboosttarget.go:31-111). -/
def adaTarget (weights : List (XF K)) (f : CatFeature) : Target K :=
  let imp := adaImpFromCounts f weights
  ⟨caseImpurity f imp, caseSplitImpurity f imp, caseUpdateSImp f imp⟩

/-- `AdaCostTarget.ImpFromCounts` (adacosttarget.go:105-127). -/
def adaCostImpFromCounts (f : CatFeature) (weights costs : List (XF K)) (cases : List Nat) (counter : List Int) :
    Option (XF K) :=
  cases.foldlM (fun (e : XF K) c => do
    let k ← f.catData[c]?
    if k ≠ firstMost counter then do
      let w ← weights[c]?
      let x ← costs[k]?
      some (e + w * x)
    else some e) (.fin 0)

/-- `AdaCostTarget` as a target (adacosttarget.go:47-127). -/
def adaCostTarget (weights costs : List (XF K)) (f : CatFeature) : Target K :=
  let imp := adaCostImpFromCounts f weights costs
  ⟨caseImpurity f imp, caseSplitImpurity f imp, caseUpdateSImp f imp⟩

/-- `GradBoostTarget.Sum` (gradboosttarget.go:74-80). -/
def NumFeature.sum (f : NumFeature K) (cases : List Nat) : Option (XF K) :=
  cases.foldlM (fun s c => do
    let x ← f.numData[c]?
    some (s + x)) (.fin 0)

/-- `FriedmanScore` (gradboosttarget.go:82-93). -/
def friedmanScore (a : Allocs K) (l r : List Nat) : XF K :=
  let nl : XF K := .ofNat l.length
  let nr : XF K := .ofNat r.length
  let diff := a.lsum / nl - a.rsum / nr
  diff * diff * nl * nr / (nl + nr)

/-- `GradBoostTarget` as a target (gradboosttarget.go:64-72, 97-115), on a dense numerical feature. The missing block
does not count. -/
def gradTarget (f : NumFeature K) : Target K where
  impurity a cases := do
    let (e, a) ← f.impurity a cases
    if e ≤ minImp then some (e, a) else some (.fin (-1), a)
  splitImpurity a l r _ := do
    let ls ← f.sum l
    let rs ← f.sum r
    let a := { a with lsum := ls, rsum := rs }
    some (friedmanScore a l r, a)
  updateSImp a l r _ moved := do
    let s ← f.sum moved
    let a := { a with lsum := a.lsum + s, rsum := a.rsum - s }
    some (friedmanScore a l r, a)

/-- `TransTarget.FindPredicted` (transduction.go:137-164), as a category number. -/
def transPredict (unlabeled : Nat) (beta : XF K) (f : CatFeature) (cases : List Nat) : Option Nat := do
  let counts ← f.countPerCat cases (List.replicate f.cm.nCats 0)
  some (argmaxX (counts.zipIdx.map fun vk => if vk.2 = unlabeled then beta * .ofInt vk.1 else .ofInt vk.1) 0
    unlabeled (.fin 0))

end CloudForest
