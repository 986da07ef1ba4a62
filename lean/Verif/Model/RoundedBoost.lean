import Verif.Model.Boost
import Verif.Model.RoundedVotes

/-!
# Gradient boosting in floating point (gradboosttarget.go, sumballotbox.go, forrest.go:55-67)

Simplified: every product is rounded before it is added or subtracted, as on amd64; where the machine has a fused
operation (arm64 for example) Go may use it in `f.Get(i)-f.LearnRate*predicted` (gradboosttarget.go:57) and
`Sum += v * weight` (sumballotbox.go:47).
-/

namespace CloudForest
variable {K : Type} [Field K] [LinearOrder K] [IsStrictOrderedRing K]

/-- `NewGradBoostTarget` (gradboosttarget.go:16-37) with sum, quotient and differences rounded. -/
def newGradBoostR (r : K → XF K) (f : NumFeature K) (learnRate : XF K) : Option (GradBoost K) := do
  let n := f.missing.length
  let sum ← (List.range n).foldlM (fun (s : XF K) i => do
    let x ← f.numData[i]?
    some (XF.rounded r (s + x))) (.fin 0)
  let prior := XF.rounded r (sum / .ofNat n)
  let f ← (List.range n).foldlM (fun (f : NumFeature K) i => do
    let x ← f.numData[i]?
    f.put i (XF.rounded r (x - prior))) f
  some ⟨f, learnRate, prior⟩

/-- `GradBoostTarget.Update` (gradboosttarget.go:54-60) with product and difference rounded. -/
def GradBoost.updateR (r : K → XF K) (g : GradBoost K) (cases : List Nat) (predicted : XF K) : Option (GradBoost K) :=
  cases.foldlM (fun (g : GradBoost K) i => do
    let m ← g.f.missing[i]?
    if m then some g else do
      let x ← g.f.numData[i]?
      let f ← g.f.put i (XF.rounded r (x - XF.rounded r (g.learnRate * predicted)))
      some { g with f := f }) g

/-- `GradBoostTarget.Boost` (gradboosttarget.go:44-50) as `GradBoost.boost`, with rounded updates. -/
def GradBoost.boostR (r : K → XF K) (parse : String → Option (XF K)) (g : GradBoost K) (leaves : List (List Nat))
    (preds : List String) : Option (GradBoost K × XF K) := do
  let g ← leaves.zipIdx.foldlM (fun (g : GradBoost K) ci => do
    let p ← preds[ci.2]?
    g.updateR r ci.1 ((parse p).getD (.fin 0))) g
  some (g, g.learnRate)

/-- What follows when a tree has been grown (forrest.go:62-66, growforest.go:680-692), as `GradBoost.round`. -/
def GradBoost.roundR (r : K → XF K) (parse : String → Option (XF K)) (ti : Nat) (st : FeatureMatrix K × GradBoost K)
    (t : Tree K) : Option ((FeatureMatrix K × GradBoost K) × Tree K) := do
  let (ls, ps) ← t.partition st.1
  let (g, w) ← st.2.boostR r parse ls ps
  some (({ st.1 with data := st.1.data.set ti (.num g.f) }, g), { t with weight := w })

/-- The loop over trees (forrest.go:55-67), given the trees as they are grown, as `GradBoost.rounds`. -/
def GradBoost.roundsR (r : K → XF K) (parse : String → Option (XF K)) (ti : Nat) :
    FeatureMatrix K × GradBoost K → List (Tree K) → Option ((FeatureMatrix K × GradBoost K) × List (Tree K))
  | st, [] => some (st, [])
  | st, t :: ts => do
    let (st, t) ← GradBoost.roundR r parse ti st t
    let (st, ts) ← GradBoost.roundsR r parse ti st ts
    some (st, t :: ts)

/-- `SumBallotBox.Vote` (sumballotbox.go:42-50) with product and sum rounded. -/
def SumBox.voteR (r : K → XF K) (parse : String → Option (XF K)) (bb : SumBox K) (casei : Nat) (pred : String)
    (weight : XF K) : Option (SumBox K) :=
  match parse pred with
  | none => some bb
  | some v => do
    let s ← bb[casei]?
    some (bb.set casei (XF.rounded r (s + XF.rounded r (v * weight))))

/-- The predictions of `applyforest -sum` (applyforest/applyforest.go:58-93), as `applySum`, with rounded sums. -/
def applySumR (r : K → XF K) (parse : String → Option (XF K)) (intercept : XF K) (trees : List (Tree K))
    (fm : FeatureMatrix K) : Option (List (XF K)) := do
  let f ← fm.data[0]?
  let bb ← trees.foldlM (fun (bb : SumBox K) t => do
    let votes ← t.vote fm
    castAll (SumBox.voteR r parse) bb votes) (SumBox.new f.length)
  some (bb.map fun s => XF.rounded r (s + intercept))

end CloudForest
