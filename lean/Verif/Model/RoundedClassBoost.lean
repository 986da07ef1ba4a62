import Verif.Model.ClassBoost
import Verif.Model.Rounding

/-!
# Gradient boosting of two classes in floating point (gradboostclasstarget.go)

Simplified: every product is rounded before it is added, as on amd64; where the machine has a fused operation Go may use it in
`denom += (y - r) * (1.0 - y + r)` (gradboostclasstarget.go:96) and `f.Pred.Get(i) + f.LearnRate*predicted` (113).
-/

namespace CloudForest
variable {K : Type} [Field K] [LinearOrder K] [IsStrictOrderedRing K]

/-- `Expit` (gradboostclasstarget.go:12-19) with products and sum rounded. -/
def expitR (r : K → XF K) (tanh : XF K → XF K) (x : XF K) : XF K :=
  XF.rounded r (.fin (1 / 2) * XF.rounded r (tanh (XF.rounded r (.fin (1 / 2) * x)) + .fin 1))

/-- `NewGradBoostClassTarget` (gradboostclasstarget.go:35-72) as `newClassBoost`, with sums, differences and the quotient rounded. -/
def newClassBoostR (r : K → XF K) (tanh log : XF K → XF K) (f : CatFeature) (learnRate : XF K) (pos : String) :
    Option (ClassBoost K × CatFeature) := do
  let n := f.missing.length
  let actual : NumFeature K := f.encodeFirst
  let pred := { actual with hasMissing := false }
  let (f, actual) ← markPositive pos n f actual
  let res := { actual with hasMissing := false }
  let sum ← (List.range n).foldlM (fun (s : XF K) i => do
    let x ← actual.numData[i]?
    some (XF.rounded r (s + x))) (.fin 0)
  let prior := log (XF.rounded r (sum / XF.rounded r (XF.rounded r (.ofNat n) - sum)))
  let (pred, res) ← (List.range n).foldlM (fun (pr : NumFeature K × NumFeature K) i => do
    let p ← pr.1.put i prior
    let a ← actual.numData[i]?
    let e ← pr.2.put i (XF.rounded r (a - expitR r tanh prior))
    some (p, e)) (pred, res)
  some (⟨res, actual, pred, learnRate, prior, pos⟩, f)

/-- `GradBoostClassTarget.Update` (gradboostclasstarget.go:111-120) with product, sum and difference rounded. -/
def ClassBoost.updateR (r : K → XF K) (tanh : XF K → XF K) (g : ClassBoost K) (cases : List Nat) (predicted : XF K) :
    Option (ClassBoost K) :=
  cases.foldlM (fun (g : ClassBoost K) i => do
    let p ← g.pred.numData[i]?
    let p := XF.rounded r (p + XF.rounded r (g.learnRate * predicted))
    let pred ← g.pred.put i p
    let a ← g.actual.numData[i]?
    let res ← g.res.put i (XF.rounded r (a - expitR r tanh p))
    some { g with pred := pred, res := res }) g

/-- `GradBoostClassTarget.Boost` (gradboostclasstarget.go:79-85) as `ClassBoost.boost`, with rounded updates. -/
def ClassBoost.boostR (r : K → XF K) (tanh : XF K → XF K) (parse : String → Option (XF K)) (g : ClassBoost K)
    (leaves : List (List Nat)) (preds : List String) : Option (ClassBoost K × XF K) := do
  let g ← leaves.zipIdx.foldlM (fun (g : ClassBoost K) ci => do
    let p ← preds[ci.2]?
    g.updateR r tanh ci.1 ((parse p).getD (.fin 0))) g
  some (g, g.learnRate)

/-- What follows when a tree has been grown (forrest.go:62-66, growforest.go:680-692), as `ClassBoost.rounds`. -/
def ClassBoost.roundsR (r : K → XF K) (tanh : XF K → XF K) (parse : String → Option (XF K)) (fm : FeatureMatrix K) :
    ClassBoost K → List (Tree K) → Option (ClassBoost K × List (Tree K))
  | g, [] => some (g, [])
  | g, t :: ts => do
    let (ls, ps) ← t.partition fm
    let (g, w) ← g.boostR r tanh parse ls ps
    let (g, ts) ← ClassBoost.roundsR r tanh parse fm g ts
    some (g, { t with weight := w } :: ts)

/-- `GradBoostClassTarget.Predicted` (gradboostclasstarget.go:87-101) with every operation rounded. -/
def ClassBoost.predictedR (r : K → XF K) (g : ClassBoost K) (cases : List Nat) : Option (XF K) := do
  let (num, denom) ← cases.foldlM (fun (nd : XF K × XF K) c => do
    let e ← g.res.numData[c]?
    let y ← g.actual.numData[c]?
    some (XF.rounded r (nd.1 + e), XF.rounded r (nd.2 + XF.rounded r (XF.rounded r (y - e) *
      XF.rounded r (XF.rounded r (.fin 1 - y) + e))))) (.fin 0, .fin 0)
  some (XF.rounded r (num / denom))

end CloudForest
