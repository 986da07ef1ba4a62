import Verif.Model.Splitter

/-!
# The scratch space of the searches

The values that a numerical search sorts and the category bits that the exhaustive search goes through are kept in
slices of the length given to `NewBestSplitAllocs`. The searches of `Verif.Model.Search` with those lengths checked.
-/

namespace CloudForest
variable {K : Type} [Field K] [LinearOrder K] [IsStrictOrderedRing K]

/-- The counters and sums made by `NewBestSplitAllocs` (splitallocations.go:38-73) for a target with `nCats`
categories. -/
def newAllocs (nCats : Nat) : Allocs K :=
  ⟨.replicate nCats 0, .replicate nCats 0, .replicate nCats 0, .fin 0, .fin 0, .fin 0, .fin 0, .fin 0, .fin 0⟩

/-- How many elements of scratch slices of fixed length a search of `n` cases writes: `Load` one value for each case
(sortablefeature.go:55-63, called at densenumfeature.go:296-299), `BestCatSplit` one bit pattern for each case
(densecatfeature.go:621-627, called at densecatfeature.go:208-219). The other searches only append. -/
def Feature.scratch (f : Feature K) (leafSize n : Nat) : Nat :=
  match f with
  | .num _ => if 2 * leafSize ≤ n then n else 0
  | .cat f =>
    if f.randomSearch = false ∧ 5 < f.cm.nCats then 0
    else if 30 < f.cm.nCats ∨ f.cm.nCats = 2 then 0
    else n

/-- The search in scratch slices of length `size` (densecatfeature.go:208-219, densenumfeature.go:264): writing past
their end panics. -/
def Feature.searchIn (size : Nat) (f : Feature K) (T : Target K) (parentImp : XF K) (leafSize : Nat)
    (randomSplit : Bool) (w : Work K) : Option (Found K × Work K) :=
  if f.scratch leafSize w.cases.length ≤ size then f.search T parentImp leafSize randomSplit w else none

/-- `BestSplit` (densecatfeature.go:168-226, densenumfeature.go:225-271) in scratch slices of length `size`. -/
def Feature.bestSplitIn (size : Nat) (f : Feature K) (T : Target K) (parentImp : XF K) (leafSize : Nat)
    (randomSplit : Bool) (w : Work K) : Option (Found K × Work K) :=
  if f.missingVals then do
    let (miss, known) ← sift f.isMissing w.cases
    if known.length = 0 then some (⟨none, .fin 0, false⟩, w)
    else do
      let (ki, a) ← T.impurity w.allocs known
      let (mi, a) ← missingImpurity T a miss
      let (r, w') ← f.searchIn size T ki leafSize randomSplit ⟨known, a, w.rng⟩
      let w' := { w' with cases := w.cases }
      if 0 < miss.length ∧ minImp < r.imp then
        some ({ r with imp := parentImp + (XF.ofNat known.length * (r.imp - ki) -
          XF.ofNat miss.length * mi) / XF.ofNat w.cases.length }, w')
      else some (r, w')
  else f.searchIn size T parentImp leafSize randomSplit w

/-- Vetting (featurematrix.go:231-240) in scratch slices of length `size`. -/
def vetStepIn {τ : Type} (size : Nat) (f : Feature K) (C : Contrast K τ) (o : SplitOpts) (parentImp best imp : XF K)
    (s : Searching K τ) : Option (XF K × Searching K τ) :=
  if o.vet = true ∧ best < imp then do
    let cs := if o.evaloob then s.oob else s.work.cases
    let (c, rng) ← C.shuffle s.contrast cs s.work.rng
    let (v, w) ← f.bestSplitIn size (C.target c) parentImp o.leafSize o.extraRandom
      ⟨cs, s.work.allocs, rng⟩
    some (imp - v.imp,
      if o.evaloob then ⟨⟨s.work.cases, w.allocs, w.rng⟩, w.cases, c⟩ else ⟨w, s.oob, c⟩)
  else some (imp, s)

/-- The value of feature `i` (featurematrix.go:215-240) in scratch slices of length `size`. -/
def evalFeatureIn {τ : Type} (size : Nat) (fm : FeatureMatrix K) (T : Target K) (C : Contrast K τ) (o : SplitOpts)
    (parentImp : XF K) (s : Searching K τ) (best : XF K) (i : Nat) :
    Option (Found K × Searching K τ) := do
  let f ← fm.data[i]?
  let (r, w) ← f.bestSplitIn size T parentImp o.leafSize o.extraRandom s.work
  let s := { s with work := w }
  let (imp, s) ← oobStep f T o best r s
  let (imp, s) ← vetStepIn size f C o parentImp best imp s
  some ({ r with imp := imp }, s)

/-- `BestSplitter` (featurematrix.go:148-256) in scratch slices of length `size`. -/
def bestSplitterIn {τ : Type} (size : Nat) (fm : FeatureMatrix K) (T : Target K) (C : Contrast K τ) (o : SplitOpts)
    (st : SplitState K) (cases : List Nat) (nc : Nat) : Option (Draw K (Searching K τ)) :=
  match T.impurity st.allocs cases with
  | none => none
  | some (parentImp, a) =>
    let d : Draw K (Searching K τ) :=
      ⟨st.cans, 0, 0, nc, 0, none, minImp, [], ⟨⟨cases, a, st.rng⟩, st.oob, C.start⟩⟩
    if parentImp ≤ minImp ∧ .fin 0 ≤ parentImp then some d
    else bestLoop (evalFeatureIn size fm T C o parentImp) Searching.intn o.mTry o.force
      (o.mTry + 2 * st.cans.length + 1) 0 d

/-- `BestSplitter` as called by `Tree.Grow` (tree.go:133), in scratch slices of length `size`. -/
def treeGrowerIn {τ : Type} (size : Nat) (fm : FeatureMatrix K) (T : Target K) (C : Contrast K τ) (o : SplitOpts)
    (findPredicted : List Nat → String) (maxDepth : Int) (splitmissing : Bool) :
    Grower K (SplitState K) where
  best st cases nc := do
    let d ← bestSplitterIn size fm T C o st cases nc
    some (⟨d.st.work.allocs, d.st.work.rng, d.cans, d.st.oob⟩,
      ⟨d.st.work.cases, d.fi, d.split, d.nConst⟩)
  findPredicted := findPredicted
  leafSize := o.leafSize
  maxDepth := maxDepth
  splitmissing := splitmissing

end CloudForest
