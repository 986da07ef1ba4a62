import Verif.Model.Commands
import Verif.Model.Boost

/-!
# growforest with `-gbt` on a numerical target, as a command (growforest.go:216-219, 239-427, 516-754)
-/

namespace CloudForest
variable {K : Type} [Field K] [LinearOrder K] [IsStrictOrderedRing K]

/-- What one tree is grown with (growforest.go:427, 664-668): `f` are the residuals, which are also what `fm` has for the target.
Simplified: no `-l1`, which would judge by the absolute error whether a node is pure (gradboosttarget.go:65). -/
def GrowArgs.boostRun (a : GrowArgs) (nt : NumText K) (mTry leafSize nSamples draws : Nat) (order : List Nat → List Nat)
    (fm : FeatureMatrix K) (f : NumFeature K) : RunSetup K (NumFeature K) :=
  { a.numRun nt fm f mTry leafSize nSamples draws order with T := gradTarget f }

/-- The trees from tree number `started` on (growforest.go:620-742), `left` of them. After a tree is grown the residuals are
reduced and the tree gets its weight (680-692). Only then is it recorded, and with `-test` a new tree object is taken while
`treesStarted < nTrees-1` (713-721). Simplified: the learning rate is finite, so that no weight ends the run (685-689). -/
def GrowArgs.boostTrees (a : GrowArgs) (nt : NumText K) (mTry leafSize nSamples draws : Nat) (order : List Nat → List Nat)
    (ti : Nat) : Nat → Nat → FeatureMatrix K × GradBoost K → WorkerState K → Option (List (Tree K × List Nat))
  | 0, _, _, _ => some []
  | left + 1, started, b, s => do
    let r := a.boostRun nt mTry leafSize nSamples draws order b.1 b.2.f
    let (x, s) ← r.tree r.grower s
    let (b, t) ← GradBoost.round (fun p => nt.parse p.toList) ti b x.1
    let s := if a.dotest && started + 1 < a.nTrees then { s with root := .fresh } else s
    let rest ← a.boostTrees nt mTry leafSize nSamples draws order ti left (started + 1) b s
    some ((t, x.2) :: rest)

/-- growforest with `-gbt lr` (growforest.go:216-219, 239-427, 516-754). The number of known cases is counted before the target is
made (349-385), the target replaces the values of its feature by residuals (427, gradboosttarget.go:16-37), and its mean is
the intercept in the file (524-528). Simplified: one worker, a numerical target, a learning rate other than zero. -/
def boostCommand [FloorRing K] (nt : NumText K) (ord : Splitter K → List String) (a : GrowArgs) (lr : K) (draws : Nat)
    (order : List Nat → List Nat) (text : Text) (own global : Rng) : Option Text := do
  let fm ← parseAFM nt text
  let (ti, b) ← chooseFeatures fm a.blacklist a.target a.block a.incl
  let mTry ← inferMTry nt a.mTry (b.nFeatures fm).toNat
  let target ← fm.data[ti]?
  match target with
  | .cat _ => none
  | .num f => do
    if a.balance then none
    let leafSize ← inferLeafSize nt a.leafSize true 0 (nKnown f.missing)
    let nSamples ← inferNSamples nt a.nSamples (nKnown f.missing)
    let g ← newGradBoost f (.fin lr)
    let fm' : FeatureMatrix K := { fm with data := fm.data.set ti (.num g.f) }
    let s ← (a.boostRun nt mTry.toNat leafSize.toNat nSamples.toNat draws order fm' g.f).start (nKnown f.missing) 0
      (candidates fm ti b.marks) own global
    let trees ← a.boostTrees nt mTry.toNat leafSize.toNat nSamples.toNat draws order ti (max 1 a.nTrees) 1 (fm', g) s
    growforestFile nt ord a.progress a.target (some g.mean) (trees.map (·.1))

end CloudForest
