import Verif.Model.Tree
import Verif.Model.Ballot
import Verif.Model.Values
import Verif.Model.Impurity

/-!
# Boosting (gradboosttarget.go, adaboosttarget.go, adacosttarget.go, forrest.go:55-67)
-/

namespace CloudForest
variable {K : Type} [Field K] [LinearOrder K] [IsStrictOrderedRing K]

/-- `GradBoostTarget` (gradboosttarget.go:10-14); `f` holds the residuals. -/
structure GradBoost (K : Type) where
  f : NumFeature K
  learnRate : XF K
  mean : XF K

/-- `NewGradBoostTarget` (gradboosttarget.go:16-37): reads and writes every case, missing or not. -/
def newGradBoost (f : NumFeature K) (learnRate : XF K) : Option (GradBoost K) := do
  let n := f.missing.length
  let sum ← (List.range n).foldlM (fun (s : XF K) i => do
    let x ← f.numData[i]?
    some (s + x)) (.fin 0)
  let prior := sum / .ofNat n
  let f ← (List.range n).foldlM (fun (f : NumFeature K) i => do
    let x ← f.numData[i]?
    f.put i (x - prior)) f
  some ⟨f, learnRate, prior⟩

/-- `GradBoostTarget.Update` (gradboosttarget.go:54-60). -/
def GradBoost.update (g : GradBoost K) (cases : List Nat) (predicted : XF K) : Option (GradBoost K) :=
  cases.foldlM (fun (g : GradBoost K) i => do
    let m ← g.f.missing[i]?
    if m then some g else do
      let x ← g.f.numData[i]?
      let f ← g.f.put i (x - g.learnRate * predicted)
      some { g with f := f }) g

/-- `GradBoostTarget.Boost` (gradboosttarget.go:44-50) with `ParseFloat` (utils.go:13-17), which ignores errors.
Simplified: a number out of range, for which strconv gives an infinity and an error, counts as zero. -/
def GradBoost.boost (parse : String → Option (XF K)) (g : GradBoost K) (leaves : List (List Nat))
    (preds : List String) : Option (GradBoost K × XF K) := do
  let g ← leaves.zipIdx.foldlM (fun (g : GradBoost K) ci => do
    let p ← preds[ci.2]?
    g.update ci.1 ((parse p).getD (.fin 0))) g
  some (g, g.learnRate)

/-- What follows when a tree has been grown (forrest.go:62-66, growforest.go:680-692). The target shares its data
with feature `ti` of the matrix. -/
def GradBoost.round (parse : String → Option (XF K)) (ti : Nat) (st : FeatureMatrix K × GradBoost K) (t : Tree K) :
    Option ((FeatureMatrix K × GradBoost K) × Tree K) := do
  let (ls, ps) ← t.partition st.1
  let (g, w) ← st.2.boost parse ls ps
  some (({ st.1 with data := st.1.data.set ti (.num g.f) }, g), { t with weight := w })

/-- The loop over trees (forrest.go:55-67), given the trees as they are grown. -/
def GradBoost.rounds (parse : String → Option (XF K)) (ti : Nat) :
    FeatureMatrix K × GradBoost K → List (Tree K) → Option ((FeatureMatrix K × GradBoost K) × List (Tree K))
  | st, [] => some (st, [])
  | st, t :: ts => do
    let (st, t) ← GradBoost.round parse ti st t
    let (st, ts) ← GradBoost.rounds parse ti st ts
    some (st, t :: ts)

/-- The predictions of `applyforest -sum` (applyforest/applyforest.go:58-93): each tree votes on all cases, and
the forest's intercept is added to the sum. -/
def applySum (parse : String → Option (XF K)) (intercept : XF K) (trees : List (Tree K)) (fm : FeatureMatrix K) :
    Option (List (XF K)) := do
  let f ← fm.data[0]?
  let bb ← trees.foldlM (fun (bb : SumBox K) t => do
    let votes ← t.vote fm
    castAll (SumBox.vote parse) bb votes) (SumBox.new f.length)
  some (bb.map (· + intercept))

/-- `math.Exp` and `math.Log` (adaboosttarget.go:124, 144-146). -/
structure ExpLog (K : Type) where
  exp : XF K → XF K
  log : XF K → XF K

/-- The category with the most cases, the first of them if there are several
(adaboosttarget.go:91-98, 130-136, adacosttarget.go:104-111, 147-153). -/
def firstMost (counter : List Int) : Nat := argmax counter 0 0 0

/-- `AdaBoostTarget.ImpFromCounts` (adaboosttarget.go:89-111). -/
def adaImpFromCounts (f : CatFeature) (weights : List (XF K)) (cases : List Nat) (counter : List Int) :
    Option (XF K) :=
  cases.foldlM (fun (e : XF K) c => do
    let k ← f.catData[c]?
    if k ≠ firstMost counter then do
      let w ← weights[c]?
      some (e + w)
    else some e) (.fin 0)

/-- The factor by which a leaf changes the weight of one of its cases (adaboosttarget.go:138-149). -/
def adaReweigh (el : ExpLog K) (f : CatFeature) (alpha : XF K) (m : Nat) (weights : List (XF K)) (c : Nat) :
    Option (List (XF K)) := do
  let miss ← f.missing[c]?
  if miss then some weights else do
    let k ← f.catData[c]?
    let w ← weights[c]?
    wr weights c (w * (if k ≠ m then el.exp alpha else el.exp (-alpha)))

/-- `AdaBoostTarget.Boost` (adaboosttarget.go:115-159): the new case weights and the tree's weight. -/
def adaBoost (el : ExpLog K) (f : CatFeature) (weights : List (XF K)) (leaves : List (List Nat)) :
    Option (List (XF K) × XF K) := do
  let (err, counter) ← leaves.foldlM (fun (acc : XF K × List Int) cases => do
    let counter ← f.countPerCat cases acc.2
    let e ← adaImpFromCounts f weights cases counter
    some (acc.1 + e, counter)) (.fin 0, List.replicate f.cm.nCats 0)
  if (.fin (1 / 2) : XF K) ≤ err then some (weights, .fin 0) else do
    let alpha := .fin (1 / 2) * el.log ((.fin 1 - err) / err)
    let (weights, _) ← leaves.foldlM (fun (acc : List (XF K) × List Int) cases => do
      let counter ← f.countPerCat cases acc.2
      let weights ← cases.foldlM (adaReweigh el f alpha (firstMost counter)) acc.1
      some (weights, counter)) (weights, counter)
    let norm := weights.foldl (· + ·) (.fin 0)
    some (weights.map (· / norm), alpha)

/-- `NewAdaBoostTarget` (adaboosttarget.go:19-26): the case weights. -/
def newAdaWeights (f : CatFeature) : List (XF K) :=
  List.replicate f.missing.length (.fin 1 / .ofNat f.missing.length)

end CloudForest
