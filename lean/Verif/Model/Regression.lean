import Verif.Model.Boost

/-!
# Other regression targets (l1target.go, ordinaltarget.go, numadaboostingtarget.go)
-/

namespace CloudForest
variable {K : Type} [Field K] [LinearOrder K] [IsStrictOrderedRing K]

/-- `math.Abs` (used at l1target.go:49-62, densenumfeature.go:113). -/
def XF.abs : XF K → XF K
  | .nan => .nan
  | .pinf => .pinf
  | .ninf => .pinf
  | .fin x => .fin |x|

/-- The `SplitImpurity` of targets that work every impurity out anew (l1target.go:17-31, ordinaltarget.go:38-52,
numadaboostingtarget.go:32-46, densitytarget.go:23-37). -/
def anewSplit (imp : List Nat → Option (XF K)) (l r : List Nat) (m : Option (List Nat)) : Option (XF K) := do
  let nl : XF K := .ofNat l.length
  let nr : XF K := .ofNat r.length
  let il ← imp l
  let ir ← imp r
  let d := nl * il + nr * ir
  if 0 < (missBlock m).length then
    let nm : XF K := .ofNat (missBlock m).length
    let im ← imp (missBlock m)
    some ((d + nm * im) / (nl + nr + nm))
  else
    some (d / (nl + nr + .fin 0))

/-- Such a target: `UpdateSImpFromAllocs` wraps `SplitImpurity` and nothing is kept in the scratch values
(l1target.go:35-37, ordinaltarget.go:56-58, numadaboostingtarget.go:50-52, densitytarget.go:41-43). -/
def anewTarget (imp : List Nat → Option (XF K)) : Target K where
  impurity a cases := (imp cases).map fun e => (e, a)
  splitImpurity a l r m := (anewSplit imp l r m).map fun e => (e, a)
  updateSImp a l r m _ := (anewSplit imp l r m).map fun e => (e, a)

/-! ## Absolute error -/

/-- `L1Target.Error` (l1target.go:49-62). -/
def NumFeature.l1Error (f : NumFeature K) (cases : List Nat) (predicted : XF K) : Option (XF K) := do
  let (e, n) ← cases.foldlM (fun (acc : XF K × Nat) i => do
    let m ← f.missing[i]?
    if m then some acc else do
      let x ← f.numData[i]?
      some (acc.1 + (predicted - x).abs, acc.2 + 1)) (.fin 0, 0)
  some (e / XF.ofNat n)

/-- `L1Target.Impurity` (l1target.go:40-45). -/
def NumFeature.l1Impurity (f : NumFeature K) (cases : List Nat) : Option (XF K) := do
  let m ← f.mean cases
  f.l1Error cases m

/-- `L1Target` (l1target.go). What it predicts for a leaf is inherited: the mean, `NumFeature.findPredicted`. -/
def l1Target (f : NumFeature K) : Target K := anewTarget f.l1Impurity

/-! ## Ordinal regression -/

/-- `OrdinalTarget` (ordinaltarget.go:12-16), without `max`, which is not used after the constructor. -/
structure Ordinal (K : Type) where
  f : NumFeature K
  nClass : Int

/-- `NewOrdinalTarget` (ordinaltarget.go:21-33); `trunc` is Go's conversion of a float64 to an int. -/
def newOrdinal (trunc : XF K → Int) (f : NumFeature K) : Option (Ordinal K) := do
  let max ← (List.range f.missing.length).foldlM (fun (max : XF K) i => do
    let v ← f.numData[i]?
    some (if max < v then v else max)) (.fin 0)
  some ⟨f, trunc max + 1⟩

/-- `OrdinalTarget.Mode` and `Predicted` (ordinaltarget.go:60-81). A negative number of counters, or a value that is
none of them, panics. -/
def Ordinal.mode (trunc : XF K → Int) (o : Ordinal K) (cases : List Nat) : Option (XF K) := do
  if o.nClass < 0 then none else
  let counts ← cases.foldlM (fun (acc : List Int) i => do
    let m ← o.f.missing[i]?
    if m then some acc else do
      let x ← o.f.numData[i]?
      if trunc x < 0 then none else bump acc (trunc x).toNat 1) (List.replicate o.nClass.toNat 0)
  some (.ofNat (argmax counts 0 0 0))

/-- `OrdinalTarget.Impurity` (ordinaltarget.go:84-89), with the `Error` of the numerical feature. -/
def Ordinal.impurity (trunc : XF K → Int) (o : Ordinal K) (cases : List Nat) : Option (XF K) := do
  let m ← o.mode trunc cases
  o.f.error cases m

/-- `OrdinalTarget` (ordinaltarget.go). -/
def ordinalTarget (trunc : XF K → Int) (o : Ordinal K) : Target K := anewTarget (o.impurity trunc)

/-- `OrdinalTarget.FindPredicted` (ordinaltarget.go:91-93). -/
def Ordinal.findPredicted (trunc : XF K → Int) (nt : NumText K) (o : Ordinal K) (cases : List Nat) :
    Option String := do
  let m ← o.mode trunc cases
  some (String.ofList (nt.fmt m))

/-! ## Adaptive boosting of regression -/

/-- `NumAdaBoostTarget` (numadaboostingtarget.go:11-15). -/
structure NumAda (K : Type) where
  f : NumFeature K
  weights : List (XF K)
  norm : XF K

/-- `NumAdaBoostTarget.Impurity` (numadaboostingtarget.go:55-65), with `DenseNumFeature.Norm`
(densenumfeature.go:112-114). -/
def NumAda.impurity (t : NumAda K) (cases : List Nat) : Option (XF K) := do
  let mean ← t.f.mean cases
  cases.foldlM (fun (e : XF K) c => do
    let m ← t.f.missing[c]?
    if m then some e else do
      let w ← t.weights[c]?
      let x ← t.f.numData[c]?
      some (e + w * (x - mean).abs)) (.fin 0)

/-- `NumAdaBoostTarget` as a target (numadaboostingtarget.go:32-65). -/
def numAdaTarget (t : NumAda K) : Target K := anewTarget t.impurity

/-- `NewNumAdaBoostTarget` (numadaboostingtarget.go:17-27). -/
def newNumAda (f : NumFeature K) : Option (NumAda K) := do
  let n := f.missing.length
  let t : NumAda K := ⟨f, List.replicate n (.fin 1 / .ofNat n), .fin 0⟩
  let e ← t.impurity (List.range n)
  some { t with norm := e * .ofNat n }

/-- The new weight of a case (numadaboostingtarget.go:99-103). -/
def NumAda.reweigh (el : ExpLog K) (t : NumAda K) (weight imp mean : XF K) (weights : List (XF K)) (c : Nat) :
    Option (List (XF K)) := do
  let m ← t.f.missing[c]?
  if m then some weights else do
    let w ← weights[c]?
    let x ← t.f.numData[c]?
    wr weights c (w * el.exp (weight * ((x - mean).abs - imp)))

/-- `NumAdaBoostTarget.Boost` (numadaboostingtarget.go:80-115): the new weights and the weight of the tree. -/
def NumAda.boost (el : ExpLog K) (t : NumAda K) (leaves : List (List Nat)) : Option (NumAda K × XF K) := do
  if leaves.length = 0 then some (t, .fin 0) else
  let imp ← leaves.foldlM (fun (e : XF K) cases => do
    let i ← t.impurity cases
    some (e + i)) (.fin 0)
  if t.norm < imp then some (t, .fin 0) else do
    let weight := el.log (t.norm / imp)
    let weights ← leaves.foldlM (fun (ws : List (XF K)) cases => do
      let mean ← t.f.mean cases
      cases.foldlM (t.reweigh el weight imp mean) ws) t.weights
    let factor := weights.foldl (· + ·) (.fin 0)
    some ({ t with weights := weights.map (· / factor) }, weight)

end CloudForest
