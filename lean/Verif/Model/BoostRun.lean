import Verif.Model.Boost
import Verif.Model.Splitter
import Verif.Model.Targets

/-!
# A run of gradient boosting: trees grown from what the trees before leave over
(growforest/growforest.go:579-754 with `-gbt`, forrest.go:55-67)
-/

namespace CloudForest
variable {K : Type} [Field K] [LinearOrder K] [IsStrictOrderedRing K]

/-- What boosting keeps from tree to tree (growforest.go:427, 591-619, forrest.go:48-53): the matrix, whose target holds the
residuals, the target, and the state of the searches. -/
structure BoostState (K : Type) where
  fm : FeatureMatrix K
  g : GradBoost K
  st : SplitState K

/-- What does not change (growforest.go:43-210, forrest.go:32-44): the position of the target and the options. -/
structure BoostSetup (K : Type) (τ : Type) where
  ti : Nat
  C : NumFeature K → Contrast K τ
  o : SplitOpts
  maxDepth : Int
  splitmissing : Bool
  target : String

/-- One tree (growforest.go:664-692, forrest.go:58-66), grown on the node `old` from the cases `bag`, and the residuals after
it. The target of the searches is the residuals, and so is what leaves predict from. -/
def BoostSetup.tree {τ : Type} (b : BoostSetup K τ) (nt : NumText K) (old : Node K) (s : BoostState K) (bag : List Nat) :
    Option (Tree K × BoostState K) := do
  let (root, st) ← grow (treeGrower s.fm (gradTarget s.g.f) (b.C s.g.f) b.o (fun S => (s.g.f.findPredicted nt S).getD "")
    b.maxDepth b.splitmissing) s.fm (bag.length + 1) old s.st bag 0 0
  let ((fm, g), t) ← GradBoost.round (fun p => nt.parse p.toList) b.ti (s.fm, s.g) ⟨root, b.target, .fin (-1)⟩
  some (t, ⟨fm, g, st⟩)

/-- The trees for the given bags. Each is a new object (`fresh`, forrest.go:58, and with `-test` growforest.go:713-721) or
the one before, grown again (growforest.go:600, 664-668). -/
def BoostSetup.trees {τ : Type} (b : BoostSetup K τ) (nt : NumText K) (fresh : Bool) :
    Node K → BoostState K → List (List Nat) → Option (List (Tree K))
  | _, _, [] => some []
  | old, s, bag :: bags => do
    let (t, s) ← b.tree nt old s bag
    let ts ← b.trees nt fresh (if fresh then .fresh else t.root) s bags
    some (t :: ts)

/-- The run (growforest.go:427, 516-528, 579-754, forrest.go:45-68): the target is replaced by its residuals, and the trees are
grown. Returns the intercept and the trees. -/
def BoostSetup.run {τ : Type} (b : BoostSetup K τ) (nt : NumText K) (fresh : Bool) (fm : FeatureMatrix K) (lr : XF K)
    (st : SplitState K) (bags : List (List Nat)) : Option (XF K × List (Tree K)) := do
  let F ← fm.data[b.ti]?
  match F with
  | .cat _ => none
  | .num f => do
    let g ← newGradBoost f lr
    let ts ← b.trees nt fresh .fresh ⟨{ fm with data := fm.data.set b.ti (.num g.f) }, g, st⟩ bags
    some (g.mean, ts)

end CloudForest
