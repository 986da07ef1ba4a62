import Verif.Model.BoostRun
import Verif.Model.ClassBoostCommand

/-!
# GrowRandomForest with a target that boosts two classes (forrest.go:45-68)
-/

namespace CloudForest
variable {K : Type} [Field K] [LinearOrder K] [IsStrictOrderedRing K]

/-- The loop of `GrowRandomForest` (forrest.go:55-67) with a `GradBoostClassTarget`, given the bags: each tree is a new object, grown
from the residuals, which are no feature of the matrix, and then they are updated (gradboostclasstarget.go:79-120). -/
def BoostSetup.classTrees {τ : Type} (b : BoostSetup K τ) (nt : NumText K) (tanh : XF K → XF K) (fm : FeatureMatrix K) :
    ClassBoost K → SplitState K → List (List Nat) → Option (List (Tree K))
  | _, _, [] => some []
  | g, st, bag :: bags => do
    let (root, st) ← grow (treeGrower fm (gradTarget g.res) (b.C g.res) b.o (fun S => (g.findPredicted nt S).getD "")
      b.maxDepth b.splitmissing) fm (bag.length + 1) .fresh st bag 0 0
    let t : Tree K := ⟨root, b.target, .fin (-1)⟩
    let (ls, ps) ← t.partition fm
    let (g, w) ← g.boost tanh (fun p => nt.parse p.toList) ls ps
    let ts ← b.classTrees nt tanh fm g st bags
    some ({ t with weight := w } :: ts)

/-- The run (growforest.go:435-441, 524-528, forrest.go:45-68): the target is made of the feature with classes, whose missing marks it
clears, and the trees are grown. Returns the prior and the trees. -/
def BoostSetup.classRun {τ : Type} (b : BoostSetup K τ) (nt : NumText K) (tanh log : XF K → XF K) (fm : FeatureMatrix K) (lr : XF K)
    (pos : String) (st : SplitState K) (bags : List (List Nat)) : Option (XF K × List (Tree K)) := do
  let F ← fm.data[b.ti]?
  match F with
  | .num _ => none
  | .cat f => do
    let (g, f) ← newClassBoost tanh log f lr pos
    let ts ← b.classTrees nt tanh { fm with data := fm.data.set b.ti (.cat f) } g st bags
    some (g.prior, ts)

end CloudForest
