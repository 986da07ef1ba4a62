import Verif.Model.RoundedGini
import Verif.Model.Splitter

/-!
# Growing trees in rounded arithmetic

The chain from `BestSplit` to `Tree.Grow` as in `Verif.Model.Search` and `Verif.Model.Splitter`, with every operation on
`float64` rounded, in the order in which the code has them and without fused multiplication and addition. `minImp` is exact.
-/

namespace CloudForest
variable {K : Type} [Field K] [LinearOrder K] [IsStrictOrderedRing K]

/-- The decrease that is reported when there are cases with missing values (densenumfeature.go:266-268,
densecatfeature.go:221-223), rounded. Simplified: numbers of cases are exact. -/
def penaltyR (r : K → XF K) (parentImp dec ki mi : XF K) (nk nm n : Nat) : XF K :=
  XF.rounded r (parentImp + XF.rounded r (XF.rounded r (XF.rounded r (.ofNat nk * XF.rounded r (dec - ki)) -
    XF.rounded r (.ofNat nm * mi)) / .ofNat n))

/-- `BestSplit` (densecatfeature.go:168-226, densenumfeature.go:225-271) as `bestSplit`, rounded. -/
def Feature.bestSplitR (r : K → XF K) (cut : XF K) (f : Feature K) (T : Target K) (parentImp : XF K) (leafSize : Nat)
    (randomSplit : Bool) (w : Work K) : Option (Found K × Work K) :=
  if f.missingVals then do
    let (miss, known) ← sift f.isMissing w.cases
    if known.length = 0 then some (⟨none, .fin 0, false⟩, w)
    else do
      let (ki, a) ← T.impurity w.allocs known
      let (mi, a) ← missingImpurity T a miss
      let (res, w') ← f.searchR r cut T ki leafSize randomSplit ⟨known, a, w.rng⟩
      let w' := { w' with cases := w.cases }
      if 0 < miss.length ∧ minImp < res.imp then
        some ({ res with imp := penaltyR r parentImp res.imp ki mi known.length miss.length w.cases.length }, w')
      else some (res, w')
  else f.searchR r cut T parentImp leafSize randomSplit w

/-- Judging a split by the out-of-bag cases (featurematrix.go:225-229), rounded. -/
def oobStepR {τ : Type} (r : K → XF K) (f : Feature K) (T : Target K) (o : SplitOpts) (best : XF K) (res : Found K)
    (s : Searching K τ) : Option (XF K × Searching K τ) :=
  (oobStep f T o best res s).map fun x =>
    (if o.evaloob = true ∧ best < res.imp then XF.rounded r x.1 else x.1, x.2)

/-- Vetting a split against the shuffled target (featurematrix.go:231-240), rounded. -/
def vetStepR {τ : Type} (r : K → XF K) (cut : XF K) (f : Feature K) (C : Contrast K τ) (o : SplitOpts)
    (parentImp best imp : XF K) (s : Searching K τ) : Option (XF K × Searching K τ) :=
  if o.vet = true ∧ best < imp then do
    let cs := if o.evaloob then s.oob else s.work.cases
    let (c, rng) ← C.shuffle s.contrast cs s.work.rng
    let (v, w) ← f.bestSplitR r cut (C.target c) parentImp o.leafSize o.extraRandom
      ⟨cs, s.work.allocs, rng⟩
    some (XF.rounded r (imp - v.imp),
      if o.evaloob then ⟨⟨s.work.cases, w.allocs, w.rng⟩, w.cases, c⟩ else ⟨w, s.oob, c⟩)
  else some (imp, s)

/-- The value of feature `i` (featurematrix.go:215-240), rounded. -/
def evalFeatureR {τ : Type} (r : K → XF K) (cut : XF K) (fm : FeatureMatrix K) (T : Target K) (C : Contrast K τ)
    (o : SplitOpts) (parentImp : XF K) (s : Searching K τ) (best : XF K) (i : Nat) :
    Option (Found K × Searching K τ) := do
  let f ← fm.data[i]?
  let (res, w) ← f.bestSplitR r cut T parentImp o.leafSize o.extraRandom s.work
  let s := { s with work := w }
  let (imp, s) ← oobStepR r f T o best res s
  let (imp, s) ← vetStepR r cut f C o parentImp best imp s
  some ({ res with imp := imp }, s)

/-- `BestSplitter` (featurematrix.go:148-256), rounded. -/
def bestSplitterR {τ : Type} (r : K → XF K) (cut : XF K) (fm : FeatureMatrix K) (T : Target K) (C : Contrast K τ)
    (o : SplitOpts) (st : SplitState K) (cases : List Nat) (nc : Nat) : Option (Draw K (Searching K τ)) :=
  match T.impurity st.allocs cases with
  | none => none
  | some (parentImp, a) =>
    let d : Draw K (Searching K τ) :=
      ⟨st.cans, 0, 0, nc, 0, none, minImp, [], ⟨⟨cases, a, st.rng⟩, st.oob, C.start⟩⟩
    if parentImp ≤ minImp ∧ .fin 0 ≤ parentImp then some d
    else bestLoop (evalFeatureR r cut fm T C o parentImp) Searching.intn o.mTry o.force
      (o.mTry + 2 * st.cans.length + 1) 0 d

/-- `BestSplitter` as called by `Tree.Grow` (tree.go:133), rounded. -/
def treeGrowerR {τ : Type} (r : K → XF K) (cut : XF K) (fm : FeatureMatrix K) (T : Target K) (C : Contrast K τ)
    (o : SplitOpts) (findPredicted : List Nat → String) (maxDepth : Int) (splitmissing : Bool) :
    Grower K (SplitState K) where
  best st cases nc := do
    let d ← bestSplitterR r cut fm T C o st cases nc
    some (⟨d.st.work.allocs, d.st.work.rng, d.cans, d.st.oob⟩,
      ⟨d.st.work.cases, d.fi, d.split, d.nConst⟩)
  findPredicted := findPredicted
  leafSize := o.leafSize
  maxDepth := maxDepth
  splitmissing := splitmissing

end CloudForest
