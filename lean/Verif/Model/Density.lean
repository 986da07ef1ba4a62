import Verif.Model.Regression

/-!
# Density (densitytarget.go, transduction.go, Span in densenumfeature.go and densecatfeature.go)
-/

namespace CloudForest
variable {K : Type} [Field K] [LinearOrder K] [IsStrictOrderedRing K]

/-- The loop of `DenseNumFeature.Span` (densenumfeature.go:557-574): the state is `first`, `min` and `max`. `first` is
never made false. -/
def NumFeature.spanLoop (f : NumFeature K) : List Nat → Bool × XF K × XF K → Option (Bool × XF K × XF K)
  | [], st => some st
  | i :: is, (first, min, max) => do
    let m ← f.missing[i]?
    if m then f.spanLoop is (first, min, max) else do
      let val ← f.numData[i]?
      if first then f.spanLoop is (first, val, val)
      else if max < val then f.spanLoop is (first, min, val)
      else if val < min then f.spanLoop is (first, val, max)
      else f.spanLoop is (first, min, max)

/-- `DenseNumFeature.Span` (densenumfeature.go:552-578). -/
def NumFeature.span (f : NumFeature K) (cases : List Nat) : Option (XF K) := do
  let (_, min, max) ← f.spanLoop cases (true, .fin 0, .fin 0)
  some (max - min)

/-- The loop of `DenseCatFeature.Span` (densecatfeature.go:1090-1102). -/
def CatFeature.spanLoop (f : CatFeature) : List Nat → List Int → Nat → Option Nat
  | [], _, total => some total
  | i :: is, counter, total => do
    let m ← f.missing[i]?
    if m then f.spanLoop is counter total else do
      let c ← f.catData[i]?
      let x ← counter[c]?
      if x = 0 then
        if total + 1 = f.cm.nCats then some (total + 1)
        else f.spanLoop is (counter.set c 1) (total + 1)
      else f.spanLoop is counter total

/-- `DenseCatFeature.Span` (densecatfeature.go:1081-1105), with `n` counters. -/
def CatFeature.span (f : CatFeature) (cases : List Nat) (n : Nat) : Option (XF K) := do
  let total ← f.spanLoop cases (List.replicate n 0) 0
  some (.ofNat total)

/-- `Span` and the number of counters it is given (densitytarget.go:51-57, 69-75). -/
def Feature.span : Feature K → List Nat → Option (XF K)
  | .num f, cases => f.span cases
  | .cat f, cases => f.span cases f.cm.nCats

/-- `DensityTarget.Impurity` (densitytarget.go:47-61) of a target with `n` cases. -/
def densityImpurity (features : List (Feature K)) (n : Nat) (cases : List Nat) : Option (XF K) :=
  features.foldlM (fun (e : XF K) f => do
    let s ← f.span cases
    some (e / s)) (.ofNat (cases.length * cases.length) / .ofNat (n * n))

/-- `DensityTarget` (densitytarget.go). -/
def densityTarget (features : List (Feature K)) (n : Nat) : Target K := anewTarget (densityImpurity features n)

/-- `DensityTarget.FindPredicted` (densitytarget.go:65-80) before it is printed. -/
def densityPredict (features : List (Feature K)) (n : Nat) (cases : List Nat) : Option (XF K) :=
  features.foldlM (fun (e : XF K) f => do
    let s ← f.span cases
    some (e / s)) (.ofNat cases.length / .ofNat n)

/-- `NCats` of either kind (catmap.go:38-45, densenumfeature.go:52-54). -/
def Feature.nCats : Feature K → Nat
  | .num _ => 0
  | .cat f => f.cm.nCats

/-- `MaxCats` of `NewTransTarget` (transduction.go:43-49). -/
def maxCats (features : List (Feature K)) : Nat :=
  features.foldl (fun m f => if m < f.nCats then f.nCats else m) 0

/-- `Span` with `n` counters (transduction.go:117). -/
def Feature.spanIn (n : Nat) : Feature K → List Nat → Option (XF K)
  | .num f, cases => f.span cases
  | .cat f, cases => f.span cases n

/-- `TransTarget.Density` (transduction.go:106-132). Simplified: the counters are made anew for each feature; `Span`
zeroes them anyway. -/
def transDensity (features : List (Feature K)) (targetname : String) (cases : List Nat) : Option (XF K) :=
  features.foldlM (fun (e : XF K) f =>
    if f.name ≠ targetname then do
      let s ← f.spanIn (maxCats features) cases
      some (if (.fin 0 : XF K) < s then e * s else e)
    else some e) (.fin 1 / .ofNat (cases.length * cases.length))

/-- `TransTarget.Impurity` (transduction.go:83-92) of a target that is a categorical feature: the impurity and the
counters. -/
def transImpurity (features : List (Feature K)) (alpha : XF K) (f : CatFeature) (cases : List Nat)
    (counter : List Int) : Option (XF K × List Int) := do
  let c ← f.countPerCat cases counter
  let e := giniFromCounts cases.length c
  if alpha.feq (.fin 0) then some (e, c) else do
    let d ← transDensity features f.name cases
    some (e + alpha * d, c)

/-- `TransTarget` with a categorical feature for a target (transduction.go:57-92). With `Alpha` zero
`SplitImpurity` is that of the feature; otherwise, and whenever cases were moved, each impurity is worked out
anew. -/
def transTarget (features : List (Feature K)) (alpha : XF K) (f : CatFeature) : Target K :=
  let split := fun (a : Allocs K) (l r : List Nat) (m : Option (List Nat)) =>
    if alpha.feq (.fin 0) then (giniTarget f).splitImpurity a l r m else (do
      let nl : XF K := .ofNat l.length
      let nr : XF K := .ofNat r.length
      let (il, lc) ← transImpurity features alpha f l a.lcounter
      let (ir, rc) ← transImpurity features alpha f r a.rcounter
      let d := nl * il + nr * ir
      if 0 < (missBlock m).length then
        let nm : XF K := .ofNat (missBlock m).length
        let (im, mc) ← transImpurity features alpha f (missBlock m) a.counter
        some ((d + nm * im) / (nl + nr + nm), { a with lcounter := lc, rcounter := rc, counter := mc })
      else some (d / (nl + nr + .fin 0), { a with lcounter := lc, rcounter := rc }) : Option (XF K × Allocs K))
  { impurity := fun a cases => (transImpurity features alpha f cases a.counter).map fun r =>
      (r.1, { a with counter := r.2 })
    splitImpurity := split
    updateSImp := fun a l r m _ => split a l r m }

end CloudForest
