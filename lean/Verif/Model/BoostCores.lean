import Verif.Model.BoostRun

/-!
# Gradient boosting with several workers (growforest/growforest.go:594-754 with `-gbt` and `-nCores`)
-/

namespace CloudForest
variable {K : Type} [Field K] [LinearOrder K] [IsStrictOrderedRing K]

/-- What the workers share and hold (growforest.go:427, 591-619): the matrix, whose target holds the residuals, the target, the
candidates, work space and random numbers of each worker, the tree each has grown and not yet boosted with, and the trees that
are recorded. -/
structure BoostPool (K : Type) where
  fm : FeatureMatrix K
  g : GradBoost K
  sts : List (SplitState K)
  held : List (Option (Node K))
  out : List (Tree K)

/-- What a worker does next (growforest.go:620-742): it grows a tree from the cases `bag` (664-668), or it takes `boostMutex`,
partitions the cases, updates the residuals and records the tree (680-709). -/
inductive PoolStep where
  | grow (w : Nat) (bag : List Nat)
  | boost (w : Nat)

/-- One step of the worker it names (growforest.go:664-709). Simplified: a tree is grown from the residuals of one moment,
although `Grow` is not under `boostMutex` and may see them change; each tree is a new object, as with `-test`; and trees are
recorded in the order in which they update the residuals. A worker that has a tree cannot grow another, and one that has none
cannot boost. -/
def BoostSetup.poolStep {τ : Type} (b : BoostSetup K τ) (nt : NumText K) (p : BoostPool K) :
    PoolStep → Option (BoostPool K)
  | .grow w bag => do
    let st ← p.sts[w]?
    match p.held[w]? with
    | some none => do
      let (root, st) ← CloudForest.grow (treeGrower p.fm (gradTarget p.g.f) (b.C p.g.f) b.o
        (fun S => (p.g.f.findPredicted nt S).getD "") b.maxDepth b.splitmissing) p.fm (bag.length + 1) .fresh st bag 0 0
      some { p with sts := p.sts.set w st, held := p.held.set w (some root) }
    | _ => none
  | .boost w =>
    match p.held[w]? with
    | some (some root) => do
      let ((fm, g), t) ← GradBoost.round (fun x => nt.parse x.toList) b.ti (p.fm, p.g) ⟨root, b.target, .fin (-1)⟩
      some { p with fm := fm, g := g, held := p.held.set w none, out := p.out ++ [t] }
    | _ => none

/-- The run (growforest.go:427, 516-528, 579-754), for one order of the workers' steps: the target is replaced by its residuals,
and the workers, one for each of `sts`, start without a tree. -/
def BoostSetup.poolRun {τ : Type} (b : BoostSetup K τ) (nt : NumText K) (fm : FeatureMatrix K) (lr : XF K)
    (sts : List (SplitState K)) (steps : List PoolStep) : Option (BoostPool K) := do
  let F ← fm.data[b.ti]?
  match F with
  | .cat _ => none
  | .num f => do
    let g ← newGradBoost f lr
    steps.foldlM (b.poolStep nt) ⟨{ fm with data := fm.data.set b.ti (.num g.f) }, g, sts, sts.map fun _ => none, []⟩

end CloudForest
