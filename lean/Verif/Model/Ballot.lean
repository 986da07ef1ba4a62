import Verif.Model.Tree

/-!
# Ballot boxes and running means
(catballotbox.go, numballotbox.go, sumballotbox.go, utils.go:20-93), used by one goroutine
-/

namespace CloudForest
variable {K : Type} [Field K] [LinearOrder K] [IsStrictOrderedRing K]

/-- `RunningMean` without its mutex (utils.go:22-26). -/
structure RunningMean (K : Type) where
  mean : XF K
  count : XF K
  deriving DecidableEq

/-- `new(RunningMean)` (utils.go:62, numballotbox.go:21). -/
def RunningMean.new : RunningMean K := ⟨.fin 0, .fin 0⟩

/-- `RunningMean.WeightedAdd` (utils.go:33-48). Log messages are left out. -/
def RunningMean.weightedAdd (m : RunningMean K) (val weight : XF K) : RunningMean K :=
  if val.isNaN = false ∧ weight.isNaN = false then
    ⟨(m.mean * m.count + weight * val) / (m.count + weight), m.count + weight⟩
  else m

/-- `RunningMean.Add` (utils.go:28-30). -/
def RunningMean.add (m : RunningMean K) (val : XF K) : RunningMean K := m.weightedAdd val (.fin 1)

/-- Go's `m[k] += w` on a map whose entries are listed in any order; an absent entry is zero
(catballotbox.go:44-47). -/
def addEntry (k : Nat) (w : XF K) : List (Nat × XF K) → List (Nat × XF K)
  | [] => [(k, .fin 0 + w)]
  | (k', x) :: m => if k' = k then (k', x + w) :: m else (k', x) :: addEntry k w m

/-- `CatBallotBox` (catballotbox.go:22-25): the category map and the vote map of each case. -/
structure CatBox (K : Type) where
  cm : CatMap
  box : List (List (Nat × XF K))

/-- `NewCatBallotBox` (catballotbox.go:28-37). -/
def CatBox.new (size : Nat) : CatBox K := ⟨.empty, List.replicate size []⟩

/-- `CatBallotBox.Vote` (catballotbox.go:41-49). Panics for an unknown case. -/
def CatBox.vote (bb : CatBox K) (casei : Nat) (pred : String) (weight : XF K) : Option (CatBox K) := do
  let (n, cm) := bb.cm.catToNum pred
  let m ← bb.box[casei]?
  some ⟨cm, bb.box.set casei (addEntry n weight m)⟩

/-- The loop of `Tally` (catballotbox.go:55-65), over the entries in the order of iteration. -/
def tallyLoop : List (Nat × XF K) → Nat → XF K → Nat × XF K
  | [], n, votes => (n, votes)
  | (k, v) :: es, n, votes => if votes < v then tallyLoop es k v else tallyLoop es n votes

/-- `CatBallotBox.Tally` (catballotbox.go:54-75), iterating over the map of the case in the order
`es`. -/
def CatBox.tallyIn (bb : CatBox K) (es : List (Nat × XF K)) : Option String :=
  let r := tallyLoop es 0 (.fin 0)
  if .fin 0 < r.2 then bb.cm.back[r.1]? else some "NA"

/-- A result `Tally` can return: that of some order of iteration, which Go leaves open (catballotbox.go:54-75). -/
def CatBox.Tallies (bb : CatBox K) (i : Nat) (res : Option String) : Prop :=
  ∃ m es, bb.box[i]? = some m ∧ es.Perm m ∧ res = bb.tallyIn es

/-- `CatBallotBox.TallyError` (catballotbox.go:90-119) given what `Tally` returned for each case:
the counts of correct and of all cases per class. -/
def catErrorCounts (f : CatFeature) (tally : Nat → Option String) (c : List Nat × List Nat)
    (i : Nat) : Option (List Nat × List Nat) := do
  let value ← f.catData[i]?
  let predicted ← tally i
  let m ← f.missing[i]?
  if m then some c else do
    let t ← c.2[value]?
    let name ← f.cm.back[value]?
    let n ← c.1[value]?
    some (if name = predicted then c.1.set value (n + 1) else c.1, c.2.set value (t + 1))

/-- `CatBallotBox.TallyError` (catballotbox.go:90-119). -/
def catTallyError (f : CatFeature) (tally : Nat → Option String) : Option (XF K) := do
  let c ← (List.range f.missing.length).foldlM (catErrorCounts f tally)
    (List.replicate f.cm.nCats 0, List.replicate f.cm.nCats 0)
  let e := (c.1.zip c.2).foldl (fun e nt => e + XF.ofNat nt.1 / XF.ofNat nt.2) (.fin 0)
  some (.fin 1 - e / XF.ofNat f.cm.nCats)

/-- `NumBallotBox` (numballotbox.go:12-14). -/
abbrev NumBox (K : Type) := List (RunningMean K)

/-- `NewNumBallotBox` (numballotbox.go:17-24). -/
def NumBox.new (size : Nat) : NumBox K := List.replicate size .new

/-- `NumBallotBox.Vote` (numballotbox.go:27-33). `parse` is `strconv.ParseFloat`, `none` an
error. -/
def NumBox.vote (parse : String → Option (XF K)) (bb : NumBox K) (casei : Nat) (pred : String)
    (weight : XF K) : Option (NumBox K) :=
  match parse pred with
  | none => some bb
  | some v => do
    let m ← bb[casei]?
    some (bb.set casei (m.weightedAdd v weight))

/-- `NumBallotBox.TallyNum` (numballotbox.go:37-40). -/
def NumBox.tallyNum (bb : NumBox K) (i : Nat) : Option (XF K) := do
  let m ← bb[i]?
  some m.mean

/-- `NumBallotBox.Tally` (numballotbox.go:42-50). `fmt` is `fmt.Sprintf("%v", ·)`. -/
def NumBox.tally (fmt : XF K → String) (bb : NumBox K) (i : Nat) : Option String := do
  let m ← bb[i]?
  some (if .fin 0 < m.count then fmt m.mean else "NA")

/-- One case of `TallySquaredError` (numballotbox.go:65-74). -/
def squaredErrorStep (f : NumFeature K) (bb : NumBox K) (acc : XF K × Nat) (i : Nat) :
    Option (XF K × Nat) := do
  let predicted ← bb.tallyNum i
  let m ← f.missing[i]?
  if m = false ∧ predicted.isNaN = false then do
    let value ← f.numData[i]?
    let d := value - predicted
    some (acc.1 + d * d, acc.2 + 1)
  else some acc

/-- `NumBallotBox.TallySquaredError` (numballotbox.go:59-82). `log.Fatal` is a panic. -/
def NumBox.tallySquaredError (bb : NumBox K) (f : NumFeature K) : Option (XF K) := do
  let (e, c) ← (List.range f.missing.length).foldlM (squaredErrorStep f bb) (.fin 0, 0)
  if c = 0 then none else some (e / XF.ofNat c)

/-- The mean in `TallyError` (numballotbox.go:86-95). -/
def knownMean (f : NumFeature K) : Option (XF K × Nat) := do
  let (s, n) ← (List.range f.missing.length).foldlM (fun (acc : XF K × Nat) i => do
    let m ← f.missing[i]?
    if m then some acc else do
      let v ← f.numData[i]?
      some (acc.1 + v, acc.2 + 1)) (.fin 0, 0)
  some (s / XF.ofNat n, n)

/-- The variance in `TallyError` (numballotbox.go:97-105). -/
def knownVariance (f : NumFeature K) (mean : XF K) (total : Nat) : Option (XF K) := do
  let r ← (List.range f.missing.length).foldlM (fun (acc : XF K) i => do
    let m ← f.missing[i]?
    if m then some acc else do
      let v ← f.numData[i]?
      let d := v - mean
      some (acc + d * d)) (.fin 0)
  some (r / XF.ofNat total)

/-- `NumBallotBox.TallyError` (numballotbox.go:85-111). -/
def NumBox.tallyError (bb : NumBox K) (f : NumFeature K) : Option (XF K) := do
  let (mean, total) ← knownMean f
  let r2 ← knownVariance f mean total
  let e ← bb.tallySquaredError f
  some (e / r2)

/-- `NumBallotBox.TallyR2Score` (numballotbox.go:114-120). -/
def NumBox.tallyR2 (bb : NumBox K) (f : NumFeature K) : Option (XF K) := do
  let e ← bb.tallyError f
  some (.fin 1 - e)

/-- `SumBallotBox` (sumballotbox.go:26-28): the sum of each case. -/
abbrev SumBox (K : Type) := List (XF K)

/-- `NewSumBallotBox` (sumballotbox.go:31-38). -/
def SumBox.new (size : Nat) : SumBox K := List.replicate size (.fin 0)

/-- `SumBallotBox.Vote` (sumballotbox.go:42-50). -/
def SumBox.vote (parse : String → Option (XF K)) (bb : SumBox K) (casei : Nat) (pred : String)
    (weight : XF K) : Option (SumBox K) :=
  match parse pred with
  | none => some bb
  | some v => do
    let s ← bb[casei]?
    some (bb.set casei (s + v * weight))

/-- `SumBallotBox.TallyNum` (sumballotbox.go:63-70). -/
def SumBox.tallyNum (bb : SumBox K) (i : Nat) : Option (XF K) := bb[i]?

/-- `SumBallotBox.Tally` (sumballotbox.go:55-61): never "NA". -/
def SumBox.tally (fmt : XF K → String) (bb : SumBox K) (i : Nat) : Option String := do
  let s ← bb.tallyNum i
  some (fmt s)

/-- Casting a sequence of ballots (tree.go:416-420, in the order cast). -/
def castAll {β : Type} (vote : β → Nat → String → XF K → Option β) (bb : β)
    (ballots : List (Ballot K)) : Option β :=
  ballots.foldlM (fun bb b => vote bb b.case b.pred b.weight) bb

end CloudForest
