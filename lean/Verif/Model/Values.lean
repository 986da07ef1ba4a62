import Verif.Model.Impurity
import Verif.Model.Shuffle
import Verif.Model.Text

/-!
# Reading and changing the values of a feature
(densecatfeature.go:84-154 and 1108-1240, densenumfeature.go:20-99 and 497-590, 664-683)
-/

namespace CloudForest
variable {K : Type} [Field K] [LinearOrder K] [IsStrictOrderedRing K]

/-- The test for missing-value tokens (densecatfeature.go:87-88 and 146-147). `strings.ToLower` maps no
character outside of ASCII to a letter of the tokens, so lowering ASCII is enough. -/
def isMissingToken (v : String) : Bool :=
  let norm := v.toList.map Char.toLower
  norm = [] || norm = ['?'] || norm = ['n', 'a', 'n'] || norm = ['n', 'a'] || norm = ['n', 'u', 'l', 'l']

/-! ## Categorical features -/

/-- An empty categorical feature (featurematrix.go:374-381, 466-473). -/
def CatFeature.new (name : String) : CatFeature := ⟨.empty, [], [], name, false, false⟩

/-- `DenseCatFeature.Append` (densecatfeature.go:86-97). -/
def CatFeature.append (f : CatFeature) (v : String) : CatFeature :=
  if isMissingToken v then
    { f with catData := f.catData ++ [0], missing := f.missing ++ [true], hasMissing := true }
  else
    let (n, cm) := f.cm.catToNum v
    { f with cm := cm, catData := f.catData ++ [n], missing := f.missing ++ [false] }

/-- `DenseCatFeature.PutMissing` (densecatfeature.go:120-123). -/
def CatFeature.putMissing (f : CatFeature) (i : Nat) : Option CatFeature := do
  let miss ← wr f.missing i true
  some { f with missing := miss, hasMissing := true }

/-- `DenseCatFeature.Puti` (densecatfeature.go:131-134). -/
def CatFeature.puti (f : CatFeature) (i v : Nat) : Option CatFeature := do
  let data ← wr f.catData i v
  let miss ← wr f.missing i false
  some { f with catData := data, missing := miss }

/-- `DenseCatFeature.PutStr` (densecatfeature.go:145-154): after a missing-value token it does not
return, but goes on to store the token as a category. -/
def CatFeature.putStr (f : CatFeature) (i : Nat) (v : String) : Option CatFeature := do
  let f ← (if isMissingToken v then f.putMissing i else some f : Option CatFeature)
  let (n, cm) := f.cm.catToNum v
  CatFeature.puti { f with cm := cm } i n

/-- The counts of `DenseCatFeature.Modei` (densecatfeature.go:1116-1122). -/
def CatFeature.modeCounts (f : CatFeature) (cases : List Nat) : Option (List Int) :=
  cases.foldlM (fun acc i => do
    let m ← f.missing[i]?
    if m then some acc else do
      let k ← f.catData[i]?
      bump acc k 1) (List.replicate f.cm.nCats 0)

/-- The search for the largest count (densecatfeature.go:1123-1129), from category `k` on. -/
def argmax : List Int → Nat → Nat → Int → Nat
  | [], _, m, _ => m
  | v :: vs, k, m, max => if max < v then argmax vs (k + 1) k v else argmax vs (k + 1) m max

/-- `DenseCatFeature.Modei` (densecatfeature.go:1115-1132). -/
def CatFeature.modei (f : CatFeature) (cases : List Nat) : Option Nat := do
  let counts ← f.modeCounts cases
  some (argmax counts 0 0 0)

/-- `DenseCatFeature.FindPredicted` and `Mode` (densecatfeature.go:1108-1112, 1137-1143). -/
def CatFeature.findPredicted (f : CatFeature) (cases : List Nat) : Option String := do
  let m ← f.modei cases
  f.cm.back[m]?

/-- The loop of both `ImputeMissing` (densecatfeature.go:1230-1238, densenumfeature.go:673-681). A value
slice shorter than the missing slice panics. -/
def imputeLoop {α : Type} (x : α) : List Bool → List α → Option (List α)
  | [], data => some data
  | m :: miss, d :: data => (imputeLoop x miss data).map fun r => (if m then x else d) :: r
  | m :: miss, [] => if m then none else imputeLoop x miss []

/-- `DenseCatFeature.ImputeMissing` (densecatfeature.go:1222-1240). -/
def CatFeature.imputeMissing (f : CatFeature) : Option CatFeature := do
  let mode ← f.modei (List.range f.missing.length)
  let data ← imputeLoop mode f.missing f.catData
  some { f with catData := data, missing := f.missing.map fun _ => false, hasMissing := false }

/-! ## Numerical features -/

/-- An empty numerical feature (featurematrix.go:368-372, 451-456). -/
def NumFeature.new (name : String) : NumFeature K := ⟨[], [], name, false⟩

/-- `DenseNumFeature.Append` (densenumfeature.go:22-32). -/
def NumFeature.append (nt : NumText K) (f : NumFeature K) (v : String) : NumFeature K :=
  match nt.parse v.toList with
  | none => { f with numData := f.numData ++ [.fin 0], missing := f.missing ++ [true], hasMissing := true }
  | some x => { f with numData := f.numData ++ [x], missing := f.missing ++ [false] }

/-- `DenseNumFeature.PutMissing` (densenumfeature.go:77-80). -/
def NumFeature.putMissing (f : NumFeature K) (i : Nat) : Option (NumFeature K) := do
  let miss ← wr f.missing i true
  some { f with missing := miss, hasMissing := true }

/-- `DenseNumFeature.Put` (densenumfeature.go:96-99). -/
def NumFeature.put (f : NumFeature K) (i : Nat) (x : XF K) : Option (NumFeature K) := do
  let data ← wr f.numData i x
  let miss ← wr f.missing i false
  some { f with numData := data, missing := miss }

/-- `DenseNumFeature.PutStr` (densenumfeature.go:40-49). -/
def NumFeature.putStr (nt : NumText K) (f : NumFeature K) (i : Nat) (v : String) : Option (NumFeature K) :=
  match nt.parse v.toList with
  | none => f.putMissing i
  | some x => f.put i x

/-- `DenseNumFeature.GetStr` (densenumfeature.go:88-93). -/
def NumFeature.getStr (nt : NumText K) (f : NumFeature K) (i : Nat) : Option String := do
  let m ← f.missing[i]?
  if m then some "NA" else do
    let x ← f.numData[i]?
    some (String.ofList (nt.fmt x))

/-- `DenseNumFeature.Mean` (densenumfeature.go:516-529). -/
def NumFeature.mean (f : NumFeature K) (cases : List Nat) : Option (XF K) := do
  let (s, n) ← cases.foldlM (fun (acc : XF K × Nat) i => do
    let m ← f.missing[i]?
    if m then some acc else do
      let x ← f.numData[i]?
      some (acc.1 + x, acc.2 + 1)) (.fin 0, 0)
  some (s / XF.ofNat n)

/-- `DenseNumFeature.Error` (densenumfeature.go:499-513). -/
def NumFeature.error (f : NumFeature K) (cases : List Nat) (predicted : XF K) : Option (XF K) := do
  let (e, n) ← cases.foldlM (fun (acc : XF K × Nat) i => do
    let m ← f.missing[i]?
    if m then some acc else do
      let x ← f.numData[i]?
      let d := predicted - x
      some (acc.1 + d * d, acc.2 + 1)) (.fin 0, 0)
  some (e / XF.ofNat n)

/-- `DenseNumFeature.FindPredicted` (densenumfeature.go:583-590). The log message is left out. -/
def NumFeature.findPredicted (nt : NumText K) (f : NumFeature K) (cases : List Nat) : Option String := do
  let m ← f.mean cases
  some (String.ofList (nt.fmt m))

/-- `DenseNumFeature.ImputeMissing` (densenumfeature.go:664-683). -/
def NumFeature.imputeMissing (f : NumFeature K) : Option (NumFeature K) := do
  let mean ← f.mean (List.range f.missing.length)
  let data ← imputeLoop mean f.missing f.numData
  some { f with numData := data, missing := f.missing.map fun _ => false, hasMissing := false }

/-! ## Either kind, as a client uses it -/

/-- A call that changes a feature (featureinterfaces.go:12-44). -/
inductive FeatureOp (K : Type) where
  | append (v : String)
  | puti (i v : Nat)
  | put (i : Nat) (x : XF K)
  | putStr (i : Nat) (v : String)
  | putMissing (i : Nat)
  | impute
  | shuffle (rng : Rng)

/-- `Append`, `Puti`/`Put`, `PutStr`, `PutMissing`, `ImputeMissing` and `Shuffle` of either kind
(densecatfeature.go and densenumfeature.go, lines at the functions above). Methods that a feature
does not have are `none`. -/
def Feature.apply (nt : NumText K) : Feature K → FeatureOp K → Option (Feature K)
  | .cat f, .append v => some (.cat (f.append v))
  | .cat f, .puti i v => (f.puti i v).map .cat
  | .cat _, .put _ _ => none
  | .cat f, .putStr i v => (f.putStr i v).map .cat
  | .cat f, .putMissing i => (f.putMissing i).map .cat
  | .cat f, .impute => f.imputeMissing.map .cat
  | .num f, .append v => some (.num (f.append nt v))
  | .num _, .puti _ _ => none
  | .num f, .put i x => (f.put i x).map .num
  | .num f, .putStr i v => (f.putStr nt i v).map .num
  | .num f, .putMissing i => (f.putMissing i).map .num
  | .num f, .impute => f.imputeMissing.map .num
  | f, .shuffle rng => (f.shuffle rng).map (·.1)

/-- `GetStr` of either kind (densecatfeature.go:137-142, densenumfeature.go:88-93). -/
def Feature.getStr (nt : NumText K) : Feature K → Nat → Option String
  | .cat f, i => f.getStr i
  | .num f, i => f.getStr nt i

end CloudForest
