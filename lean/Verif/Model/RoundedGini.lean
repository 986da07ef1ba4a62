import Verif.Model.RoundedTarget

/-!
# A categorical target in rounded arithmetic

The Gini impurity of `DenseCatFeature` with every operation rounded, in the order in which the code has them and without
fused multiplication and addition. Numbers of cases are taken to be exact, as they are below 2⁵³; their squares, made as
whole numbers, are rounded when they become `float64`.
-/

namespace CloudForest
variable {K : Type} [Field K] [LinearOrder K] [IsStrictOrderedRing K]

/-- `ImpFromCounts` (densecatfeature.go:1070-1078) and the end of `GiniWithoutAlocate` (densecatfeature.go:1061-1066),
rounded. Simplified: the products of whole numbers do not overflow. -/
def giniFromCountsR (r : K → XF K) (total : Nat) (counts : List Int) : XF K :=
  let t := XF.rounded r (.ofNat (total * total))
  counts.foldl (fun e i => XF.rounded r (e - XF.rounded r (XF.rounded r (.ofInt (i * i)) / t))) (.fin 1)

/-- `DenseCatFeature.SplitImpurity` (densecatfeature.go:945-961), rounded. -/
def CatFeature.splitImpurityR (r : K → XF K) (f : CatFeature) (a : Allocs K) (l g : List Nat) (m : Option (List Nat)) :
    Option (XF K × Allocs K) := do
  let lc ← f.countPerCat l a.lcounter
  let rc ← f.countPerCat g a.rcounter
  let il := giniFromCountsR r l.length lc
  let ir := giniFromCountsR r g.length rc
  if 0 < (missBlock m).length then
    let mc ← f.countPerCat (missBlock m) a.counter
    let nm : XF K := .ofNat (missBlock m).length
    let d := XF.rounded r (XF.rounded r (.ofNat l.length * il) + XF.rounded r (.ofNat g.length * ir))
    let d := XF.rounded r (d + XF.rounded r (nm * giniFromCountsR r (missBlock m).length mc))
    some (XF.rounded r (d / (.ofNat l.length + .ofNat g.length + nm)),
      { a with lcounter := lc, rcounter := rc, counter := mc })
  else some (wavgR r l.length g.length il ir, { a with lcounter := lc, rcounter := rc })

/-- `DenseCatFeature.UpdateSImpFromAllocs` (densecatfeature.go:981-1009), rounded. Simplified: without missing cases, as
the search calls it (densenumfeature.go:348-351). -/
def CatFeature.updateSImpR (r : K → XF K) (f : CatFeature) (a : Allocs K) (l g : List Nat) (_m : Option (List Nat))
    (moved : List Nat) : Option (XF K × Allocs K) := do
  let (lc, rc) ← f.moveCounts moved a.lcounter a.rcounter
  some (wavgR r l.length g.length (giniFromCountsR r l.length lc) (giniFromCountsR r g.length rc),
    { a with lcounter := lc, rcounter := rc })

/-- `DenseCatFeature` as a target (densecatfeature.go:945-1078), rounded. -/
def giniTargetR (r : K → XF K) (f : CatFeature) : Target K :=
  ⟨countImpurity f (giniFromCountsR r), f.splitImpurityR r, f.updateSImpR r⟩

/-- A target that has divisions judged by `parentImp` minus their impurity, rounded. The searches make that difference
themselves (densenumfeature.go:335-340, 348-353, densecatfeature.go:460-465, 559-565, 731-737, 820-825, 906-911) unless
the impurity of the node is negative, in which case they compare what the target returns; so a search with a node
impurity `p ≥ 0` and with the difference rounded is the search with a negative node impurity and this target. -/
def Target.judged (r : K → XF K) (parentImp : XF K) (T : Target K) : Target K :=
  ⟨T.impurity, fun a l g m => (T.splitImpurity a l g m).map fun s => (XF.rounded r (parentImp - s.1), s.2),
    fun a l g m mv => (T.updateSImp a l g m mv).map fun s => (XF.rounded r (parentImp - s.1), s.2)⟩

/-- The choice between the searches (densecatfeature.go:208-219, densenumfeature.go:264) as `Feature.search`, but with
rounded comparisons, thresholds and differences of impurities. Simplified: `minImp` is exact. -/
def Feature.searchR (r : K → XF K) (cut : XF K) (f : Feature K) (T : Target K) (parentImp : XF K) (leafSize : Nat)
    (randomSplit : Bool) (w : Work K) : Option (Found K × Work K) :=
  let (T, parentImp) := if parentImp < .fin 0 then (T, parentImp) else (T.judged r parentImp, .fin (-1))
  match f with
  | .num f => f.bestNumSplitR r cut T parentImp leafSize randomSplit w
  | .cat f => (Feature.cat f).search T parentImp leafSize randomSplit w

end CloudForest
