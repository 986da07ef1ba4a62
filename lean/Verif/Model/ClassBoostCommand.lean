import Verif.Model.BoostCommand
import Verif.Model.ClassBoost

/-!
# growforest with `-gbt` on a target with classes, as a command (growforest.go:216-219, 239-411, 435-441, 500-502, 516-754)
-/

namespace CloudForest
variable {K : Type} [Field K] [LinearOrder K] [IsStrictOrderedRing K]

/-- `GradBoostClassTarget.FindPredicted` (gradboostclasstarget.go:103-107). -/
def ClassBoost.findPredicted (nt : NumText K) (g : ClassBoost K) (cases : List Nat) : Option String :=
  (g.predicted cases).map fun x => String.ofList (nt.fmt x)

/-- What one tree is grown with (growforest.go:502, 664-668): the residuals, as a numerical target, which are no feature of `fm`. -/
def GrowArgs.classBoostRun (a : GrowArgs) (nt : NumText K) (mTry leafSize nSamples draws : Nat) (order : List Nat → List Nat)
    (fm : FeatureMatrix K) (how : Bagging) (g : ClassBoost K) : RunSetup K (NumFeature K) :=
  { a.numRun nt fm g.res mTry leafSize nSamples draws order with
    T := gradTarget g.res, how := how, findPredicted := fun cs => (g.findPredicted nt cs).getD "" }

/-- The trees from tree number `started` on (growforest.go:620-742), `left` of them, as in `GrowArgs.boostTrees`. -/
def GrowArgs.classBoostTrees (a : GrowArgs) (nt : NumText K) (tanh : XF K → XF K) (mTry leafSize nSamples draws : Nat)
    (order : List Nat → List Nat) (fm : FeatureMatrix K) (how : Bagging) :
    Nat → Nat → ClassBoost K → WorkerState K → Option (List (Tree K × List Nat))
  | 0, _, _, _ => some []
  | left + 1, started, g, s => do
    let r := a.classBoostRun nt mTry leafSize nSamples draws order fm how g
    let (x, s) ← r.tree r.grower s
    let (ls, ps) ← x.1.partition fm
    let (g, w) ← g.boost tanh (fun p => nt.parse p.toList) ls ps
    let s := if a.dotest && started + 1 < a.nTrees then { s with root := .fresh } else s
    let rest ← a.classBoostTrees nt tanh mTry leafSize nSamples draws order fm how left (started + 1) g s
    some (({ x.1 with weight := w }, x.2) :: rest)

/-- growforest with `-gbt lr` and `-positive pos` on classes (growforest.go:216-219, 239-411, 435-441, 500-502, 516-754). The sampler
of `-balance` and the number of known cases are taken before the target is made (344-385), which clears the missing marks of its feature
(gradboostclasstarget.go:42-49). The intercept in the file is the prior (524-528, gradboostclasstarget.go:74-76). With `-entropy` the
target is one that cannot boost (487-489), and the first `Boost` panics (680). Simplified: one worker, a learning rate other than zero. -/
def classBoostCommand [FloorRing K] (nt : NumText K) (tanh log : XF K → XF K) (ord : Splitter K → List String) (a : GrowArgs) (lr : K)
    (pos : String) (draws : Nat) (order : List Nat → List Nat) (text : Text) (own global : Rng) : Option Text := do
  let fm ← parseAFM nt text
  let (ti, b) ← chooseFeatures fm a.blacklist a.target a.block a.incl
  let mTry ← inferMTry nt a.mTry (b.nFeatures fm).toNat
  let target ← fm.data[ti]?
  match target with
  | .num _ => none
  | .cat f => do
    let how ← a.bagging f
    let leafSize ← inferLeafSize nt a.leafSize true f.cm.nCats (nKnown f.missing)
    let nSamples ← inferNSamples nt a.nSamples (nKnown f.missing)
    if a.entropy then none
    let (g, f') ← newClassBoost tanh log f (.fin lr) pos
    let fm' : FeatureMatrix K := { fm with data := fm.data.set ti (.cat f') }
    let s ← (a.classBoostRun nt mTry.toNat leafSize.toNat nSamples.toNat draws order fm' how g).start (nKnown f.missing) 0
      (candidates fm ti b.marks) own global
    let trees ← a.classBoostTrees nt tanh mTry.toNat leafSize.toNat nSamples.toNat draws order fm' how (max 1 a.nTrees) 1 g s
    growforestFile nt ord a.progress a.target (some g.prior) (trees.map (·.1))

end CloudForest
