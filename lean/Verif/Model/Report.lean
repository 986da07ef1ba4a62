import Verif.Model.Feature

/-!
# The report on test data in `growforest`
(growforest.go:925-965)
-/

namespace CloudForest
variable {K : Type} [Field K] [LinearOrder K] [IsStrictOrderedRing K]

/-- `s[i]++` (growforest.go:939, 945, 948, 951); out of range is a panic. -/
def incr (s : List Nat) (i : Nat) : Option (List Nat) :=
  s[i]?.map fun n => s.set i (n + 1)

/-- The counters (growforest.go:928-935). -/
structure TestReport where
  falsesByPred : List Nat
  predTotals : List Nat
  trueByTrue : List Nat
  trueTotals : List Nat
  correct : Nat
  nas : Nat
  deriving DecidableEq

/-- All counters zero, for `n` categories (growforest.go:928-935). -/
def TestReport.new (n : Nat) : TestReport :=
  ⟨List.replicate n 0, List.replicate n 0, List.replicate n 0, List.replicate n 0, 0, 0⟩

/-- One case (growforest.go:937-953). `CatToNum` adds a category it does not know to the
target; as its number is then out of the counters' range and `predtotals[predi]++` panics, the
enlarged target is never used. -/
def TestReport.count (f : CatFeature) (tally : Nat → String) (r : TestReport) (i : Nat) :
    Option TestReport :=
  f.catData[i]?.bind fun truei =>
  (incr r.trueTotals truei).bind fun tt =>
  if tally i = "NA" then some { r with trueTotals := tt, nas := r.nas + 1 }
  else
    let predi := (f.cm.catToNum (tally i)).1
    (incr r.predTotals predi).bind fun pt =>
    (f.getStr i).bind fun s =>
    if tally i = s then
      (incr r.trueByTrue truei).bind fun tbt =>
      some ⟨r.falsesByPred, pt, tbt, tt, r.correct + 1, r.nas⟩
    else
      (incr r.falsesByPred predi).bind fun fbp =>
      some ⟨fbp, pt, r.trueByTrue, tt, r.correct, r.nas⟩

/-- The loop over the cases of the test target (growforest.go:927-955); `tally` is the ballot
box's `Tally`. -/
def testReport (f : CatFeature) (tally : Nat → String) : Option TestReport :=
  (List.range f.missing.length).foldlM (TestReport.count f tally) (.new f.cm.back.length)

/-- The rate printed after "Classified" (growforest.go:956). -/
def TestReport.classified (r : TestReport) (f : CatFeature) : XF K :=
  XF.ofNat r.correct / XF.ofNat f.missing.length

/-- The rate printed after "Percision (Actuall/Predicted)" for category `k`
(growforest.go:958). -/
def TestReport.precision (r : TestReport) (k : Nat) : Option (XF K) := do
  let a ← r.falsesByPred[k]?
  let b ← r.predTotals[k]?
  some (XF.ofNat a / XF.ofNat b)

/-- The rate printed after "Missed/Actuall Rate" for category `k` (growforest.go:959-960).
Simplified: the difference is of machine integers. -/
def TestReport.missed (r : TestReport) (k : Nat) : Option (XF K) := do
  let a ← r.trueTotals[k]?
  let b ← r.trueByTrue[k]?
  some ((XF.ofNat a - XF.ofNat b) / XF.ofNat a)

end CloudForest
