import Verif.Model.Boost

/-!
# Gradient boosting for two classes (gradboostclasstarget.go)
-/

namespace CloudForest
variable {K : Type} [Field K] [LinearOrder K] [IsStrictOrderedRing K]

/-- `Logit` (gradboostclasstarget.go:8-10). -/
def logit (log : XF K → XF K) (x : XF K) : XF K := log (x / (.fin 1 - x))

/-- `Expit` (gradboostclasstarget.go:12-19). -/
def expit (tanh : XF K → XF K) (x : XF K) : XF K := .fin (1 / 2) * (tanh (.fin (1 / 2) * x) + .fin 1)

/-- `GradBoostClassTarget` (gradboostclasstarget.go:26-33); `res` are the residuals of the embedded
`GradBoostTarget`. -/
structure ClassBoost (K : Type) where
  res : NumFeature K
  actual : NumFeature K
  pred : NumFeature K
  learnRate : XF K
  prior : XF K
  pos : String

/-- The first column of `DenseCatFeature.EncodeToNum` (densecatfeature.go:28-57). Its missing marks are those of the
original. -/
def CatFeature.encodeFirst (f : CatFeature) : NumFeature K :=
  if f.cm.nCats ≤ 2 then ⟨f.catData.map fun v => .ofNat v, f.missing, f.name, f.hasMissing⟩
  else ⟨f.catData.map fun v => if v = 0 then .fin 1 else .fin 0, f.missing, f.name ++ "==" ++ f.cm.back.headD "",
    f.hasMissing⟩

/-- The loop that marks the positive class (gradboostclasstarget.go:42-49). `actual` shares its missing marks with
the original feature, so writing a value of the one changes the marks of the other. -/
def markPositive (pos : String) (n : Nat) (f : CatFeature) (actual : NumFeature K) :
    Option (CatFeature × NumFeature K) :=
  (List.range n).foldlM (fun (st : CatFeature × NumFeature K) i => do
    let s ← st.1.getStr i
    let actual ← st.2.put i (if s = pos then .fin 1 else .fin 0)
    some ({ st.1 with missing := actual.missing }, actual)) (f, actual)

/-- `NewGradBoostClassTarget` (gradboostclasstarget.go:35-72): the target, and the feature it was made of as it is
left. Copies take no note of `HasMissing` (densenumfeature.go:641-655). -/
def newClassBoost (tanh log : XF K → XF K) (f : CatFeature) (learnRate : XF K) (pos : String) :
    Option (ClassBoost K × CatFeature) := do
  let n := f.missing.length
  let actual : NumFeature K := f.encodeFirst
  let pred := { actual with hasMissing := false }
  let (f, actual) ← markPositive pos n f actual
  let res := { actual with hasMissing := false }
  let sum ← (List.range n).foldlM (fun (s : XF K) i => do
    let x ← actual.numData[i]?
    some (s + x)) (.fin 0)
  let prior := log (sum / (.ofNat n - sum))
  let (pred, res) ← (List.range n).foldlM (fun (pr : NumFeature K × NumFeature K) i => do
    let p ← pr.1.put i prior
    let a ← actual.numData[i]?
    let r ← pr.2.put i (a - expit tanh prior)
    some (p, r)) (pred, res)
  some (⟨res, actual, pred, learnRate, prior, pos⟩, f)

/-- `GradBoostClassTarget.Update` (gradboostclasstarget.go:111-120). -/
def ClassBoost.update (tanh : XF K → XF K) (g : ClassBoost K) (cases : List Nat) (predicted : XF K) :
    Option (ClassBoost K) :=
  cases.foldlM (fun (g : ClassBoost K) i => do
    let p ← g.pred.numData[i]?
    let p := p + g.learnRate * predicted
    let pred ← g.pred.put i p
    let a ← g.actual.numData[i]?
    let res ← g.res.put i (a - expit tanh p)
    some { g with pred := pred, res := res }) g

/-- `GradBoostClassTarget.Boost` (gradboostclasstarget.go:79-85). Simplified like `GradBoost.boost`. -/
def ClassBoost.boost (tanh : XF K → XF K) (parse : String → Option (XF K)) (g : ClassBoost K)
    (leaves : List (List Nat)) (preds : List String) : Option (ClassBoost K × XF K) := do
  let g ← leaves.zipIdx.foldlM (fun (g : ClassBoost K) ci => do
    let p ← preds[ci.2]?
    g.update tanh ci.1 ((parse p).getD (.fin 0))) g
  some (g, g.learnRate)

/-- What follows when a tree has been grown (forrest.go:62-66, growforest.go:680-692). The residuals are no feature
of the matrix. -/
def ClassBoost.rounds (tanh : XF K → XF K) (parse : String → Option (XF K)) (fm : FeatureMatrix K) :
    ClassBoost K → List (Tree K) → Option (ClassBoost K × List (Tree K))
  | g, [] => some (g, [])
  | g, t :: ts => do
    let (ls, ps) ← t.partition fm
    let (g, w) ← g.boost tanh parse ls ps
    let (g, ts) ← ClassBoost.rounds tanh parse fm g ts
    some (g, { t with weight := w } :: ts)

/-- `GradBoostClassTarget.Predicted` (gradboostclasstarget.go:87-101). -/
def ClassBoost.predicted (g : ClassBoost K) (cases : List Nat) : Option (XF K) := do
  let (num, denom) ← cases.foldlM (fun (nd : XF K × XF K) c => do
    let r ← g.res.numData[c]?
    let y ← g.actual.numData[c]?
    some (nd.1 + r, nd.2 + (y - r) * (.fin 1 - y + r))) (.fin 0, .fin 0)
  some (num / denom)

end CloudForest
