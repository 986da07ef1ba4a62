import Verif.Model.Search
import Verif.Model.Tree

/-!
# Searching the candidate features of a node
(featurematrix.go:148-256 and tree.go:133)
-/

namespace CloudForest
variable {K : Type} [Field K] [LinearOrder K] [IsStrictOrderedRing K]

/-- The running values of the loop of `BestSplitter` (featurematrix.go:163-183): the candidate
slice, `lastSample`, `nDrawnConstants`, `nConstants`, the three best values and what the
evaluation of a feature works on. `log` is not in the code: it records the features evaluated
and what came out, latest first. -/
structure Draw (K : Type) (σ : Type) where
  cans : List Nat
  lastSample : Nat
  nDrawn : Nat
  nConst : Nat
  fi : Nat
  split : Option (Coded K)
  imp : XF K
  log : List (Nat × Found K)
  st : σ

/-- Evaluating the candidate at `lastSample` (featurematrix.go:213-246). `eval st best i` stands
for lines 215-240 apart from the bookkeeping of constants: the value of feature `i` given the
best value so far. -/
def evalAt {σ : Type} (eval : σ → XF K → Nat → Option (Found K × σ)) (d : Draw K σ) :
    Option (Draw K σ) :=
  match d.cans[d.lastSample]? with
  | none => none
  | some i =>
    match eval d.st d.imp i with
    | none => none
    | some (r, st) =>
      let best := if d.imp < r.imp then (i, r.code, r.imp) else (d.fi, d.split, d.imp)
      if r.constant then
        match swp d.cans (d.cans.length - (d.nConst + 1)) d.lastSample with
        | none => none
        | some cans => some ⟨cans, d.lastSample, d.nDrawn + 1, d.nConst + 1, best.1, best.2.1, best.2.2,
            (i, r) :: d.log, st⟩
      else some ⟨d.cans, d.lastSample + 1, d.nDrawn, d.nConst, best.1, best.2.1, best.2.2,
            (i, r) :: d.log, st⟩

/-- The loop of `BestSplitter` (featurematrix.go:190-248) from round `j` on, with the random
stream kept apart. `fuel` bounds the rounds; out of fuel is `none`, like a panic. -/
def bestLoop {σ : Type} (eval : σ → XF K → Nat → Option (Found K × σ))
    (intn : σ → Nat → Option (Nat × σ)) (mTry : Nat) (force : Bool) :
    Nat → Nat → Draw K σ → Option (Draw K σ)
  | 0, _, _ => none
  | fuel + 1, j, d =>
    if (force = true ∧ mTry ≤ j ∧ j ≤ d.nDrawn) ∨ j < mTry then
      if d.cans.length ≤ d.nConst then some d
      else if d.nDrawn + d.lastSample < d.cans.length then
        match intn d.st (d.cans.length - d.nDrawn - d.lastSample) with
        | none => none
        | some (x, st) =>
          if d.cans.length - d.nConst ≤ d.lastSample + x then
            bestLoop eval intn mTry force fuel (j + 1) { d with nDrawn := d.nDrawn + 1, st := st }
          else
            match swp d.cans (d.lastSample + x) d.lastSample with
            | none => none
            | some cans =>
              match evalAt eval { d with cans := cans, st := st } with
              | none => none
              | some d => bestLoop eval intn mTry force fuel (j + 1) d
      else
        match evalAt eval d with
        | none => none
        | some d => bestLoop eval intn mTry force fuel (j + 1) d
    else some d

/-- The options of `BestSplitter` (featurematrix.go:148-159). -/
structure SplitOpts where
  mTry : Nat
  leafSize : Nat
  force : Bool
  vet : Bool
  evaloob : Bool
  extraRandom : Bool

/-- The shuffled stand-in for the target used for vetting (featurematrix.go:169-171, 231-240):
a copy of the target, how its values are shuffled among some cases, and its impurity. -/
structure Contrast (K : Type) (τ : Type) where
  start : τ
  shuffle : τ → List Nat → Rng → Option (τ × Rng)
  target : τ → Target K

/-- What `BestSplitter` works on besides the candidates: the case and out-of-bag slices, scratch space and random
stream, and the shuffled target (featurematrix.go:148-165). -/
structure Searching (K : Type) (τ : Type) where
  work : Work K
  oob : List Nat
  contrast : τ

/-- Judging a split by the out-of-bag cases (featurematrix.go:225-229). -/
def oobStep {τ : Type} (f : Feature K) (T : Target K) (o : SplitOpts) (best : XF K) (r : Found K)
    (s : Searching K τ) : Option (XF K × Searching K τ) :=
  if o.evaloob = true ∧ best < r.imp then do
    let code ← r.code
    let sp ← f.split code s.oob
    let (p, a) ← T.impurity s.work.allocs sp.cases
    let (q, a) ← T.splitImpurity a sp.left sp.right (some sp.missing)
    some (p - q, ⟨{ s.work with allocs := a }, sp.cases, s.contrast⟩)
  else some (r.imp, s)

/-- Vetting a split against the shuffled target (featurematrix.go:231-240). -/
def vetStep {τ : Type} (f : Feature K) (C : Contrast K τ) (o : SplitOpts) (parentImp best imp : XF K)
    (s : Searching K τ) : Option (XF K × Searching K τ) :=
  if o.vet = true ∧ best < imp then do
    let cs := if o.evaloob then s.oob else s.work.cases
    let (c, rng) ← C.shuffle s.contrast cs s.work.rng
    let (v, w) ← f.bestSplit (C.target c) parentImp o.leafSize o.extraRandom
      ⟨cs, s.work.allocs, rng⟩
    some (imp - v.imp,
      if o.evaloob then ⟨⟨s.work.cases, w.allocs, w.rng⟩, w.cases, c⟩ else ⟨w, s.oob, c⟩)
  else some (imp, s)

/-- The value of feature `i` (featurematrix.go:215-240). -/
def evalFeature {τ : Type} (fm : FeatureMatrix K) (T : Target K) (C : Contrast K τ) (o : SplitOpts)
    (parentImp : XF K) (s : Searching K τ) (best : XF K) (i : Nat) :
    Option (Found K × Searching K τ) := do
  let f ← fm.data[i]?
  let (r, w) ← f.bestSplit T parentImp o.leafSize o.extraRandom s.work
  let s := { s with work := w }
  let (imp, s) ← oobStep f T o best r s
  let (imp, s) ← vetStep f C o parentImp best imp s
  some ({ r with imp := imp }, s)

/-- Drawing from the random stream of the search (featurematrix.go:201). -/
def Searching.intn {τ : Type} (s : Searching K τ) (n : Nat) : Option (Nat × Searching K τ) := do
  let (x, rng) ← s.work.rng.intn n
  some (x, { s with work := { s.work with rng := rng } })

/-- The state kept between the calls of `BestSplitter` for one tree (tree.go:96-113): scratch
space, random stream, candidates, out-of-bag cases. -/
structure SplitState (K : Type) where
  allocs : Allocs K
  rng : Rng
  cans : List Nat
  oob : List Nat

/-- `FeatureMatrix.BestSplitter` (featurematrix.go:148-256), with the running values of its loop
at the end. `nc` is `nConstantsBefore`. The copying of the target into the shuffled target
(170-172) is `C.start`. -/
def bestSplitter {τ : Type} (fm : FeatureMatrix K) (T : Target K) (C : Contrast K τ) (o : SplitOpts)
    (st : SplitState K) (cases : List Nat) (nc : Nat) : Option (Draw K (Searching K τ)) :=
  match T.impurity st.allocs cases with
  | none => none
  | some (parentImp, a) =>
    let d : Draw K (Searching K τ) :=
      ⟨st.cans, 0, 0, nc, 0, none, minImp, [], ⟨⟨cases, a, st.rng⟩, st.oob, C.start⟩⟩
    if parentImp ≤ minImp ∧ .fin 0 ≤ parentImp then some d
    else bestLoop (evalFeature fm T C o parentImp) Searching.intn o.mTry o.force
      (o.mTry + 2 * st.cans.length + 1) 0 d

/-- `BestSplitter` as called by `Tree.Grow` (tree.go:133). -/
def treeGrower {τ : Type} (fm : FeatureMatrix K) (T : Target K) (C : Contrast K τ) (o : SplitOpts)
    (findPredicted : List Nat → String) (maxDepth : Int) (splitmissing : Bool) :
    Grower K (SplitState K) where
  best st cases nc := do
    let d ← bestSplitter fm T C o st cases nc
    some (⟨d.st.work.allocs, d.st.work.rng, d.cans, d.st.oob⟩,
      ⟨d.st.work.cases, d.fi, d.split, d.nConst⟩)
  findPredicted := findPredicted
  leafSize := o.leafSize
  maxDepth := maxDepth
  splitmissing := splitmissing

end CloudForest
