import Verif.Model.Rounding
import Verif.Model.Values

/-!
# A numerical target in rounded arithmetic

The impurities and the mean of `DenseNumFeature` with every operation rounded, in the order in which the code has them
and without fused multiplication and addition. Numbers of cases are taken to be exact, as they are below 2⁵³.
-/

namespace CloudForest
variable {K : Type} [Field K] [LinearOrder K] [IsStrictOrderedRing K]

/-- `SumAndSumSquares` (densenumfeature.go:470-477), rounded. Panics out of range. -/
def NumFeature.sumsR (r : K → XF K) (f : NumFeature K) (cases : List Nat) : Option (XF K × XF K) :=
  cases.foldlM (fun acc c => do
    let x ← f.numData[c]?
    some (XF.rounded r (acc.1 + x), XF.rounded r (acc.2 + XF.rounded r (x * x)))) (.fin 0, .fin 0)

/-- Sum of squared deviations by the shortcut (densenumfeature.go:410, 454, 491), rounded. -/
def sseFromR (r : K → XF K) (n : Nat) (sum sumSqr : XF K) : XF K :=
  XF.rounded r (sumSqr - XF.rounded r (XF.rounded r (sum * sum) / .ofNat n))

/-- The weighted sum of two impurities over the number of cases (densenumfeature.go:410-411, 416, 429, 454, 457, 466),
rounded. -/
def wavgR (r : K → XF K) (nl nr : Nat) (x y : XF K) : XF K :=
  XF.rounded r (XF.rounded r (XF.rounded r (.ofNat nl * x) + XF.rounded r (.ofNat nr * y)) /
    (.ofNat nl + .ofNat nr + .fin 0))

/-- `DenseNumFeature.SplitImpurity` (densenumfeature.go:394-431), rounded. Simplified: without missing cases, as the
search calls it (densenumfeature.go:336-339). -/
def NumFeature.splitImpurityR (r : K → XF K) (f : NumFeature K) (a : Allocs K) (l g : List Nat)
    (_m : Option (List Nat)) : Option (XF K × Allocs K) := do
  let (ls, lq) ← f.sumsR r l
  let (rs, rq) ← f.sumsR r g
  some (wavgR r l.length g.length (sseFromR r l.length ls lq) (sseFromR r g.length rs rq),
    { a with lsum := ls, lsumSqr := lq, rsum := rs, rsumSqr := rq })

/-- `DenseNumFeature.UpdateSImpFromAllocs` (densenumfeature.go:435-468), rounded. Simplified: without missing cases, as
the search calls it (densenumfeature.go:348-351). -/
def NumFeature.updateSImpR (r : K → XF K) (f : NumFeature K) (a : Allocs K) (l g : List Nat)
    (_m : Option (List Nat)) (moved : List Nat) : Option (XF K × Allocs K) := do
  let (s, q) ← f.sumsR r moved
  let a := { a with lsum := XF.rounded r (a.lsum + s), rsum := XF.rounded r (a.rsum - s),
                    lsumSqr := XF.rounded r (a.lsumSqr + q), rsumSqr := XF.rounded r (a.rsumSqr - q) }
  some (wavgR r l.length g.length (sseFromR r l.length a.lsum a.lsumSqr) (sseFromR r g.length a.rsum a.rsumSqr), a)

/-- `DenseNumFeature.Impurity` (densenumfeature.go:481-495), rounded. -/
def NumFeature.impurityR (r : K → XF K) (f : NumFeature K) (a : Allocs K) (cases : List Nat) :
    Option (XF K × Allocs K) := do
  let (s, q) ← f.sumsR r cases
  some (sseFromR r cases.length s q, a)

/-- `DenseNumFeature` as a target (densenumfeature.go:394-495), rounded. -/
def sseTargetR (r : K → XF K) (f : NumFeature K) : Target K :=
  ⟨f.impurityR r, f.splitImpurityR r, f.updateSImpR r⟩

/-- `DenseNumFeature.Mean` (densenumfeature.go:516-529), rounded. -/
def NumFeature.meanR (r : K → XF K) (f : NumFeature K) (cases : List Nat) : Option (XF K) := do
  let (s, n) ← cases.foldlM (fun (acc : XF K × Nat) i => do
    let m ← f.missing[i]?
    if m then some acc else do
      let x ← f.numData[i]?
      some (XF.rounded r (acc.1 + x), acc.2 + 1)) (.fin 0, 0)
  some (XF.rounded r (s / XF.ofNat n))

end CloudForest
