import Verif.Model.Impurity
import Verif.Model.SortBy

/-!
# Searching one feature for a split
(densenumfeature.go:225-371, densecatfeature.go:168-226 and 403-922, sortablefeature.go:55-63)
-/

namespace CloudForest
variable {K : Type} [Field K] [LinearOrder K] [IsStrictOrderedRing K]

/-- The random stream `allocs.Rnd` (splitallocations.go:32): arbitrary numbers. -/
abbrev Rng := Nat → Nat

/-- `rand.Rand.Intn(n)` (used at densenumfeature.go:316, featurematrix.go:201): an arbitrary
number below `n`, panics for `n = 0`. -/
def Rng.intn (g : Rng) (n : Nat) : Option (Nat × Rng) :=
  if n = 0 then none else some (g 0 % n, fun k => g (k + 1))

/-- `rand.Rand.Int()` (densecatfeature.go:660): an arbitrary non-negative 63 bit number. -/
def Rng.int63 (g : Rng) : Nat × Rng := (g 0 % 2 ^ 63, fun k => g (k + 1))

/-- `big.Int.Rand(rnd, n)` (densecatfeature.go:882): an arbitrary number below `n > 0`. -/
def Rng.below (g : Rng) (n : Nat) : Nat × Rng := (g 0 % n, fun k => g (k + 1))

/-- `minImp` (featureinterfaces.go:8). -/
def minImp : XF K := .fin (1 / 10000000)

/-- `constant_cutoff` (featureinterfaces.go:9). -/
def cutoff : K := 1 / 10000000

/-- How a split impurity becomes the value compared (densenumfeature.go:335-340 and the same
lines of the other searches). -/
def gain (parentImp s : XF K) : XF K := if parentImp < .fin 0 then s else parentImp - s

/-- What a search returns (densecatfeature.go:168-173, densenumfeature.go:225-230). `code = none` is the nil
interface. -/
structure Found (K : Type) where
  code : Option (Coded K)
  imp : XF K
  constant : Bool
  deriving DecidableEq

/-- The mutable things a search works on: the case slice, the scratch values and the random stream
(splitallocations.go:9-33). -/
structure Work (K : Type) where
  cases : List Nat
  allocs : Allocs K
  rng : Rng

/-! ## Numerical features -/

/-- `SortableFeature.Load` (sortablefeature.go:55-63): values in case order. Simplified: the
value buffer, as long as the matrix, is cut to the loaded part (a case list longer than the
matrix would panic). -/
def NumFeature.load (f : NumFeature K) (cases : List Nat) : Option (List (XF K)) :=
  cases.mapM fun c => f.numData[c]?

/-- Impurity of cutting the sorted cases at `i` (densenumfeature.go:332-354): from scratch the
first time, then by moving the cases since the last cut. -/
def cutImpurity (T : Target K) (a : Allocs K) (sorted : List Nat) (lastsplit i : Nat) :
    Option (XF K × Allocs K) :=
  if lastsplit = 0 then T.splitImpurity a (sorted.take i) (sorted.drop i) none
  else T.updateSImp a (sorted.take i) (sorted.drop i) none ((sorted.take i).drop lastsplit)

/-- The scan over the gaps (densenumfeature.go:322-366) from position `i` on. -/
def numLoop (T : Target K) (parentImp : XF K) (sorted : List Nat) (vals : List (XF K))
    (stop i lasti lastsplit : Nat) (a : Allocs K) (best splitf : XF K) :
    Option (XF K × XF K × Allocs K) :=
  if i < stop then do
    let vi ← vals[i]?
    let vl ← vals[lasti]?
    if vi ≤ vl + .fin cutoff then
      numLoop T parentImp sorted vals stop (i + 1) lasti lastsplit a best splitf
    else do
      let (s, a) ← cutImpurity T a sorted lastsplit i
      let inner := gain parentImp s
      if best < inner then
        numLoop T parentImp sorted vals stop (i + 1) i i a inner ((vl + vi) / .fin 2)
      else
        numLoop T parentImp sorted vals stop (i + 1) i i a best splitf
  else some (best, splitf, a)
termination_by stop - i

/-- The positions scanned, first and end (densenumfeature.go:307, 315-320): all between the two
leaf sizes, or a single random one. -/
def scanRange (leafSize stop : Nat) (randomSplit : Bool) (rng : Rng) : Option (Nat × Nat × Rng) :=
  if randomSplit ∧ leafSize < stop then do
    let (d, rng) ← rng.intn (stop - leafSize)
    some (leafSize + d, leafSize + d + 1, rng)
  else some (leafSize, stop, rng)

/-- `DenseNumFeature.BestNumSplit` (densenumfeature.go:285-371). A leaf size of zero makes the
scan read index -1. -/
def NumFeature.bestNumSplit (f : NumFeature K) (T : Target K) (parentImp : XF K) (leafSize : Nat)
    (randomSplit : Bool) (w : Work K) : Option (Found K × Work K) :=
  if 2 * leafSize ≤ w.cases.length then do
    let vals ← f.load w.cases
    let s ← SortBy.sortBy ⟨w.cases, vals⟩
    let v0 ← s.vs[0]?
    let vn ← s.vs[w.cases.length - 1]?
    let stop := w.cases.length - leafSize
    if vn ≤ v0 + .fin cutoff then
      some (⟨none, minImp, true⟩, { w with cases := s.cs })
    else do
      let (first, stop, rng) ← scanRange leafSize stop randomSplit w.rng
      if first = 0 ∧ first < stop then none
      else do
        let (best, splitf, a) ←
          numLoop T parentImp s.cs s.vs stop first (first - 1) 0 w.allocs minImp (.fin 0)
        some (⟨some (.num splitf), best, false⟩, ⟨s.cs, a, rng⟩)
  else some (⟨some (.num (.fin 0)), minImp, false⟩, w)

/-! ## Categorical features -/

/-- Dividing cases into two lists (densecatfeature.go:444-453, 543-552, 890-899). -/
def sift (test : Nat → Option Bool) : List Nat → Option (List Nat × List Nat)
  | [] => some ([], [])
  | c :: cs => do
    let b ← test c
    let (l, r) ← sift test cs
    some (if b then (c :: l, r) else (l, c :: r))

/-- One extension step of `BestCatSplitIter` (densecatfeature.go:534-571): try to add category
`i` to `best`. -/
def iterStep (f : CatFeature) (T : Target K) (parentImp : XF K) (leafSize : Nat)
    (cases : List Nat) (best : Nat) (st : XF K × Nat × Allocs K) (i : Nat) :
    Option (XF K × Nat × Allocs K) :=
  if best &&& (1 <<< i) ≠ 0 then some st
  else
    let next := best ||| (1 <<< i)
    do
    let (l, r) ← sift (fun c => do
      let k ← f.catData[c]?
      some (decide (next &&& (1 <<< k) ≠ 0))) cases
    if l.length < leafSize ∨ r.length < leafSize then some st
    else do
      let (s, a) ← T.splitImpurity st.2.2 l r none
      if st.1 < gain parentImp s then some (gain parentImp s, next, a)
      else some (st.1, st.2.1, a)

/-- The rounds of `BestCatSplitIter` (densecatfeature.go:527-582); `rounds` of them are left. -/
def iterRounds (f : CatFeature) (T : Target K) (parentImp : XF K) (leafSize : Nat)
    (cases : List Nat) : Nat → Nat → XF K → Allocs K → Option (Nat × XF K × Allocs K)
  | 0, best, imp, a => some (best, imp, a)
  | rounds + 1, best, imp, a => do
    let (inner, split, a) ← (List.range f.cm.nCats).foldlM
      (iterStep f T parentImp leafSize cases best) (imp, 0, a)
    if imp < inner then iterRounds f T parentImp leafSize cases rounds split inner a
    else some (best, imp, a)

/-- `BestCatSplitIter` (densecatfeature.go:502-585). -/
def CatFeature.bestCatSplitIter (f : CatFeature) (T : Target K) (parentImp : XF K)
    (leafSize : Nat) (w : Work K) : Option (Found K × Work K) := do
  let (b, imp, a) ← iterRounds f T parentImp leafSize w.cases f.cm.nCats 0 minImp w.allocs
  some (⟨some (.int b), imp, false⟩, { w with allocs := a })

/-- `big.Int.SetBit(x, i, 1)` (densecatfeature.go:442). -/
def setBit (b i : Nat) : Nat := if b.testBit i then b else b + 2 ^ i

/-- One extension step of `BestCatSplitIterBig` (densecatfeature.go:435-471). -/
def iterStepBig (f : CatFeature) (T : Target K) (parentImp : XF K) (leafSize : Nat)
    (cases : List Nat) (best : Nat) (st : XF K × Nat × Allocs K) (i : Nat) :
    Option (XF K × Nat × Allocs K) :=
  if best.testBit i then some st
  else
    let next := setBit best i
    do
    let (l, r) ← sift (fun c => do
      let k ← f.catData[c]?
      some (next.testBit k)) cases
    if l.length < leafSize ∨ r.length < leafSize then some st
    else do
      let (s, a) ← T.splitImpurity st.2.2 l r none
      if st.1 < gain parentImp s then some (gain parentImp s, next, a)
      else some (st.1, st.2.1, a)

/-- The rounds of `BestCatSplitIterBig` (densecatfeature.go:428-482). -/
def iterRoundsBig (f : CatFeature) (T : Target K) (parentImp : XF K) (leafSize : Nat)
    (cases : List Nat) : Nat → Nat → XF K → Allocs K → Option (Nat × XF K × Allocs K)
  | 0, best, imp, a => some (best, imp, a)
  | rounds + 1, best, imp, a => do
    let (inner, split, a) ← (List.range f.cm.nCats).foldlM
      (iterStepBig f T parentImp leafSize cases best) (imp, 0, a)
    if imp < inner then iterRoundsBig f T parentImp leafSize cases rounds split inner a
    else some (best, imp, a)

/-- `BestCatSplitIterBig` (densecatfeature.go:403-485). -/
def CatFeature.bestCatSplitIterBig (f : CatFeature) (T : Target K) (parentImp : XF K)
    (leafSize : Nat) (w : Work K) : Option (Found K × Work K) := do
  let (b, imp, a) ← iterRoundsBig f T parentImp leafSize w.cases f.cm.nCats 0 minImp w.allocs
  some (⟨some (.big b), imp, false⟩, { w with allocs := a })

/-- The in-place two-way division of cases and cached category bits
(densecatfeature.go:693-716). `nl` is `l+1`; Go's `j--` before the loop's `j++` is "same `j`". -/
def catPart (bits : Nat) (cs cached : List Nat) (j nl r : Nat) :
    Option (List Nat × List Nat × Nat × Nat) :=
  if j < r then
    match cached[j]? with
    | none => none
    | some v =>
      if bits &&& v ≠ 0 then catPart bits cs cached (j + 1) (nl + 1) r
      else
        match swp cs j (r - 1), swp cached j (r - 1) with
        | some cs, some cached => catPart bits cs cached j nl (r - 1)
        | _, _ => none
  else some (cs, cached, nl, r)
termination_by r - j

/-- The running values of `BestCatSplit` (densecatfeature.go:615-651). -/
structure CatState (K : Type) where
  cs : List Nat
  cached : List Nat
  best : Nat
  imp : XF K
  constant : Bool
  allocs : Allocs K
  rng : Rng

/-- One partition tried by `BestCatSplit` (densecatfeature.go:655-745). -/
def catStep (T : Target K) (parentImp : XF K) (leafSize : Nat) (exhaustive : Bool)
    (st : CatState K) (i : Nat) : Option (CatState K) := do
  let (bits, rng) := if exhaustive then (i, st.rng) else st.rng.int63
  let (cs, cached, l, r) ← catPart bits st.cs st.cached 0 0 st.cs.length
  let st := { st with cs := cs, cached := cached, rng := rng }
  if l < leafSize ∨ cs.length - r < leafSize then some st
  else do
    let (s, a) ← T.splitImpurity st.allocs (cs.take l) (cs.drop r) none
    let st := { st with constant := false, allocs := a }
    if st.imp < gain parentImp s then some { st with best := bits, imp := gain parentImp s }
    else some st

/-- Number of partitions tried (densecatfeature.go:637-645). For fewer than two categories the
shift count wraps round to a huge unsigned number and Go's shift gives zero. -/
def nPartitions (nCats maxEx : Nat) : Nat :=
  if nCats ≤ maxEx then (if nCats < 2 then 0 else 2 * 2 ^ (nCats - 2)) else 2 * 2 ^ (maxEx - 2)

/-- `BestCatSplit` (densecatfeature.go:608-748). -/
def CatFeature.bestCatSplit (f : CatFeature) (T : Target K) (parentImp : XF K) (maxEx : Nat)
    (leafSize : Nat) (w : Work K) : Option (Found K × Work K) := do
  let cats ← w.cases.mapM fun c => f.catData[c]?
  let st ← (List.range' 1 (nPartitions f.cm.nCats maxEx - 1)).foldlM
    (catStep T parentImp leafSize (decide (f.cm.nCats ≤ maxEx)))
    ⟨w.cases, cats.map fun k => 1 <<< k, 0, minImp, true, w.allocs, w.rng⟩
  some (⟨some (.int st.best), st.imp, st.constant⟩, ⟨st.cs, st.allocs, st.rng⟩)

/-- The in-place two-way division of `BestBinSplit` (densecatfeature.go:788-807). -/
def binPart (f : CatFeature) (cs : List Nat) (i nl r : Nat) : Option (List Nat × Nat × Nat) :=
  if i < r then
    match cs[i]? with
    | none => none
    | some c =>
      match f.catData[c]? with
      | none => none
      | some k =>
        if k = 1 then binPart f cs (i + 1) (nl + 1) r
        else
          match swp cs i (r - 1) with
          | some cs => binPart f cs i nl (r - 1)
          | none => none
  else some (cs, nl, r)
termination_by r - i

/-- `BestBinSplit` (densecatfeature.go:771-830). -/
def CatFeature.bestBinSplit (f : CatFeature) (T : Target K) (parentImp : XF K) (leafSize : Nat)
    (w : Work K) : Option (Found K × Work K) := do
  let (cs, l, r) ← binPart f w.cases 0 0 w.cases.length
  if l < leafSize ∨ cs.length - r < leafSize then
    some (⟨some (.int 0), .fin 0, true⟩, { w with cases := cs })
  else do
    let (s, a) ← T.splitImpurity w.allocs (cs.take l) (cs.drop r) none
    some (⟨some (.int 1), gain parentImp s, false⟩, { w with cases := cs, allocs := a })

/-- One partition tried by `BestCatSplitBig` (densecatfeature.go:877-919). -/
def bigStep (f : CatFeature) (T : Target K) (parentImp : XF K) (leafSize : Nat)
    (exhaustive : Bool) (cases : List Nat) (st : Nat × XF K × Allocs K × Rng) (i : Nat) :
    Option (Nat × XF K × Allocs K × Rng) := do
  let (bits, rng) := if exhaustive then (i, st.2.2.2) else st.2.2.2.below (2 * 2 ^ (f.cm.nCats - 2))
  let (l, r) ← sift (fun c => do
    let k ← f.catData[c]?
    some (bits.testBit k)) cases
  if l.length < leafSize ∨ r.length < leafSize then some (st.1, st.2.1, st.2.2.1, rng)
  else do
    let (s, a) ← T.splitImpurity st.2.2.1 l r none
    if st.2.1 < gain parentImp s then some (bits, gain parentImp s, a, rng)
    else some (st.1, st.2.1, a, rng)

/-- `BestCatSplitBig` (densecatfeature.go:846-922). Simplified: for fewer than two categories,
which the caller excludes, the shift by a negative count is taken to give zero partitions. -/
def CatFeature.bestCatSplitBig (f : CatFeature) (T : Target K) (parentImp : XF K) (maxEx : Nat)
    (leafSize : Nat) (w : Work K) : Option (Found K × Work K) := do
  let (b, imp, a, rng) ← (List.range' 1 (nPartitions f.cm.nCats maxEx - 1)).foldlM
    (bigStep f T parentImp leafSize (decide (f.cm.nCats ≤ maxEx)) w.cases)
    (0, minImp, w.allocs, w.rng)
  some (⟨some (.big b), imp, false⟩, { w with allocs := a, rng := rng })

/-! ## Either kind, with missing values -/

/-- The choice between the searches (densecatfeature.go:208-219, densenumfeature.go:264), with
`maxExhaustiveCats` = 5, `maxNonRandomExahustive` = 10 and `maxNonBigCats` = 30
(featureinterfaces.go:5-7). -/
def Feature.search (f : Feature K) (T : Target K) (parentImp : XF K) (leafSize : Nat)
    (randomSplit : Bool) (w : Work K) : Option (Found K × Work K) :=
  match f with
  | .num f => f.bestNumSplit T parentImp leafSize randomSplit w
  | .cat f =>
    if f.randomSearch = false ∧ 30 < f.cm.nCats then f.bestCatSplitIterBig T parentImp leafSize w
    else if f.randomSearch = false ∧ 5 < f.cm.nCats then f.bestCatSplitIter T parentImp leafSize w
    else if 30 < f.cm.nCats then f.bestCatSplitBig T parentImp 10 leafSize w
    else if f.cm.nCats = 2 then f.bestBinSplit T parentImp leafSize w
    else f.bestCatSplit T parentImp 10 leafSize w

/-- The impurity of the missing cases, if any (densecatfeature.go:198-200,
densenumfeature.go:255-257). -/
def missingImpurity (T : Target K) (a : Allocs K) (miss : List Nat) : Option (XF K × Allocs K) :=
  if 0 < miss.length then T.impurity a miss else some (.fin 0, a)

/-- `BestSplit` (densecatfeature.go:168-226, densenumfeature.go:225-271). Without missing values
the search rearranges the caller's cases; with missing values it works on a copy of the known
ones. -/
def Feature.bestSplit (f : Feature K) (T : Target K) (parentImp : XF K) (leafSize : Nat)
    (randomSplit : Bool) (w : Work K) : Option (Found K × Work K) :=
  if f.missingVals then do
    let (miss, known) ← sift f.isMissing w.cases
    if known.length = 0 then some (⟨none, .fin 0, false⟩, w)
    else do
      let (ki, a) ← T.impurity w.allocs known
      let (mi, a) ← missingImpurity T a miss
      let (r, w') ← f.search T ki leafSize randomSplit ⟨known, a, w.rng⟩
      let w' := { w' with cases := w.cases }
      if 0 < miss.length ∧ minImp < r.imp then
        some ({ r with imp := parentImp + (XF.ofNat known.length * (r.imp - ki) -
          XF.ofNat miss.length * mi) / XF.ofNat w.cases.length }, w')
      else some (r, w')
  else f.search T parentImp leafSize randomSplit w

end CloudForest
