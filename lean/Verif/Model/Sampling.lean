import Verif.Model.Search

/-!
# Drawing candidate features and cases
(sampeling.go, growforest/growforest.go:605-662)
-/

namespace CloudForest

/-- The loop of `SampleFirstN` (sampeling.go:115-128) from round `i` on; `nnon` is
`nnonconstant`, `last` is `lastSample`, `drawn` is `nDrawnConstants`. The global `rand.Intn` is an
arbitrary stream. -/
def sampleLoop (n nnon : Nat) (cards : List Nat) (i last drawn : Nat) (rng : Rng) :
    Option (List Nat × Nat × Rng) :=
  if i < n ∧ i < nnon then
    match rng.intn (cards.length - drawn - last) with
    | none => none
    | some (x, rng) =>
      if nnon ≤ last + x then sampleLoop n nnon cards (i + 1) last (drawn + 1) rng
      else
        match swp cards last (last + x) with
        | none => none
        | some cards => sampleLoop n nnon cards (i + 1) (last + 1) drawn rng
  else some (cards, last, rng)
termination_by n - i

/-- `SampleFirstN` (sampeling.go:107-133): the deck afterwards and the samples, which are a prefix
of it. -/
def sampleFirstN (deck : List Nat) (n nconstants : Nat) (rng : Rng) :
    Option (List Nat × List Nat × Rng) := do
  let (cards, last, rng) ← sampleLoop n (deck.length - nconstants) deck 0 0 0 rng
  some (cards, cards.take last, rng)

/-- `SampleWithReplacment` (sampeling.go:139-145). -/
def sampleWithReplacement (totalCases : Nat) : Nat → Rng → Option (List Nat × Rng)
  | 0, rng => some ([], rng)
  | n + 1, rng => do
    let (x, rng) ← rng.intn totalCases
    let (xs, rng) ← sampleWithReplacement totalCases n rng
    some (x :: xs, rng)

/-- Go's `s[i] = append(s[i], x)` on a slice of slices (sampeling.go:28, 73). Panics out of range. -/
def appendAt {α : Type} (s : List (List α)) (i : Nat) (x : α) : Option (List (List α)) := do
  let b ← s[i]?
  some (s.set i (b ++ [x]))

/-- `NewBalancedSampler` (sampeling.go:19-32): the cases of each class. -/
def newBalancedSampler (f : CatFeature) : Option (List (List Nat)) :=
  f.catData.zipIdx.foldlM (fun acc vi => do
    let m ← f.missing[vi.2]?
    if m then some acc else appendAt acc vi.1 vi.2) (List.replicate f.cm.nCats [])

/-- `BalancedSampler.Sample` (sampeling.go:35-44). -/
def balancedSample (buckets : List (List Nat)) : Nat → Rng → Option (List Nat × Rng)
  | 0, rng => some ([], rng)
  | n + 1, rng => do
    let (c, rng) ← rng.intn buckets.length
    let b ← buckets[c]?
    let (k, rng) ← rng.intn b.length
    let x ← b[k]?
    let (xs, rng) ← balancedSample buckets n rng
    some (x :: xs, rng)

/-- `SecondaryBalancedSampler` (sampeling.go:48-52). -/
structure SecondarySampler where
  total : Nat
  counts : List Nat
  samplers : List (List (List Nat))

/-- `NewSecondaryBalancedSampler` (sampeling.go:55-78). -/
def newSecondarySampler (target by_ : CatFeature) : Option SecondarySampler :=
  (List.range target.missing.length).foldlM (fun s i => do
    let tm ← target.missing[i]?
    if tm then some s else
      let bm ← by_.missing[i]?
      if bm then some s else
        let b ← by_.catData[i]?
        let t ← target.catData[i]?
        let n ← s.counts[b]?
        let row ← s.samplers[b]?
        let row ← appendAt row t i
        some ⟨s.total + 1, s.counts.set b (n + 1), s.samplers.set b row⟩)
    ⟨0, List.replicate by_.cm.nCats 0,
      List.replicate by_.cm.nCats (List.replicate target.cm.nCats [])⟩

/-- Choosing the class of the second feature by its counts (sampeling.go:87-93), from class `j`
on, with `b` not yet counted off. Without classes `b` stays. -/
def pickByCount : List Nat → Nat → Int → Int
  | [], _, b => b
  | v :: vs, j, b => if b - v < 0 ∨ vs = [] then j else pickByCount vs (j + 1) (b - v)

/-- `SecondaryBalancedSampler.Sample` (sampeling.go:80-99). A negative index panics. -/
def SecondarySampler.sample (s : SecondarySampler) : Nat → Rng → Option (List Nat × Rng)
  | 0, rng => some ([], rng)
  | n + 1, rng => do
    let (b, rng) ← rng.intn s.total
    let row ← s.samplers[(pickByCount s.counts 0 b).toNat]?
    let (c, rng) ← rng.intn row.length
    let bucket ← row[c]?
    let (k, rng) ← rng.intn bucket.length
    let x ← bucket[k]?
    let (xs, rng) ← s.sample n rng
    some (x :: xs, rng)

/-- Plain bagging in growforest (growforest/growforest.go:630-635): draw until there are
`nSamples` cases with known target. `fuel` bounds the draws; out of fuel is `none`. -/
def bagLoop (isMissing : Nat → Option Bool) (nCases nSamples : Nat) :
    Nat → List Nat → Rng → Option (List Nat × Rng)
  | 0, cases, rng => if cases.length < nSamples then none else some (cases, rng)
  | fuel + 1, cases, rng =>
    if cases.length < nSamples then do
      let (r, rng) ← rng.intn nCases
      let m ← isMissing r
      bagLoop isMissing nCases nSamples fuel (if m then cases else cases ++ [r]) rng
    else some (cases, rng)

/-- The case list without bagging (growforest/growforest.go:605-611), made once per worker: the
loop runs up to the number of cases with known target. -/
def nobagCases (isMissing : Nat → Option Bool) (nNonMissing : Nat) : Option (List Nat) :=
  (List.range nNonMissing).foldlM (fun acc i => do
    let m ← isMissing i
    some (if m then acc else acc ++ [i])) []

/-- Marking the in-bag cases (growforest/growforest.go:652-655). -/
def markCases (nCases : Nat) (cases : List Nat) : Option (List Bool) :=
  cases.foldlM (fun b c => wr b c true) (List.replicate nCases false)

/-- The out-of-bag cases (growforest/growforest.go:651-662). -/
def oobCases (nCases : Nat) (cases : List Nat) : Option (List Nat) := do
  let marks ← markCases nCases cases
  some (marks.zipIdx.filterMap fun vi => if vi.1 then none else some vi.2)

end CloudForest
