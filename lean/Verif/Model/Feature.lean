import Verif.Model.XF
import Verif.Model.Go
import Verif.Model.CatMap

/-!
# Features, splitters and the in-place three-way split
(splitter.go, densenumfeature.go:12-216, densecatfeature.go:9-386)
-/

namespace CloudForest

/-- `DenseCatFeature` (densecatfeature.go:17-24). -/
structure CatFeature where
  cm : CatMap
  catData : List Nat
  missing : List Bool
  name : String
  randomSearch : Bool
  hasMissing : Bool

/-- `DenseNumFeature` (densenumfeature.go:13-18). -/
structure NumFeature (K : Type) where
  numData : List (XF K)
  missing : List Bool
  name : String
  hasMissing : Bool

/-- The two implementations of the `Feature` interface (featureinterfaces.go). -/
inductive Feature (K : Type) where
  | cat (f : CatFeature)
  | num (f : NumFeature K)

/-- `Splitter` (splitter.go:10-15). `left` lists the keys of the Go map
`Left map[string]bool`; every key the code writes maps to `true`. -/
structure Splitter (K : Type) where
  feature : String
  numerical : Bool
  value : XF K
  left : List String

/-- `FeatureMatrix` (featurematrix.go:15-19). -/
structure FeatureMatrix (K : Type) where
  data : List (Feature K)
  map : String → Option Nat
  caseLabels : List String

/-- A coded split, the dynamic type behind `interface{}` (densecatfeature.go:239-259,
densenumfeature.go:127). An `int` code is non-negative and fits 63 bits, so Go's
`cat & (1 << k) != 0` and `big.Int.Bit(k) != 0` are both bit `k` of a natural number. -/
inductive Coded (K : Type) where
  | int (bits : Nat)
  | big (bits : Nat)
  | num (v : XF K)
  deriving DecidableEq

variable {K : Type} [Field K] [LinearOrder K] [IsStrictOrderedRing K]

namespace Feature

/-- `GetName` (densecatfeature.go:105-107, densenumfeature.go:57-59). -/
def name : Feature K → String
  | cat f => f.name
  | num f => f.name

/-- `Length` (densecatfeature.go:100-102, densenumfeature.go:62-64). -/
def length : Feature K → Nat
  | cat f => f.missing.length
  | num f => f.missing.length

/-- `MissingVals` (densecatfeature.go:115-117, densenumfeature.go:72-74). -/
def missingVals : Feature K → Bool
  | cat f => f.hasMissing
  | num f => f.hasMissing

/-- `IsMissing` (densecatfeature.go:110-112, densenumfeature.go:67-69); panics out of range. -/
def isMissing : Feature K → Nat → Option Bool
  | cat f, i => f.missing[i]?
  | num f, i => f.missing[i]?

/-- `GoesLeft` (densecatfeature.go:157-159, densenumfeature.go:102-104); panics out of range. -/
def goesLeft : Feature K → Nat → Splitter K → Option Bool
  | cat f, i, s => do
      let c ← f.catData[i]?
      let v ← f.cm.back[c]?
      some (s.left.contains v)
  | num f, i, s => do
      let x ← f.numData[i]?
      some (decide (x ≤ s.value))

/-- The test behind a coded split (densecatfeature.go:249-257 and 315-323,
densenumfeature.go:127,133 and 174,181). A code of the wrong dynamic type panics. -/
def codedLeft : Feature K → Coded K → Nat → Option Bool
  | cat f, .int b, i => do let c ← f.catData[i]?; some (b.testBit c)
  | cat f, .big b, i => do let c ← f.catData[i]?; some (b.testBit c)
  | num f, .num v, i => do let x ← f.numData[i]?; some (decide (x ≤ v))
  | cat _, .num _, _ => none
  | num _, .int _, _ => none
  | num _, .big _, _ => none

/-- `DecodeSplit` (densecatfeature.go:360-386, densenumfeature.go:211-216). A code of the
wrong dynamic type panics for a numerical feature and lists nothing for a categorical one. -/
def decodeSplit : Feature K → Coded K → Option (Splitter K)
  | cat f, .int b =>
      some ⟨f.name, false, .fin 0,
        (List.range f.cm.nCats).filterMap fun j => if b.testBit j then f.cm.back[j]? else none⟩
  | cat f, .big b =>
      some ⟨f.name, false, .fin 0,
        (List.range f.cm.nCats).filterMap fun j => if b.testBit j then f.cm.back[j]? else none⟩
  | cat f, .num _ => some ⟨f.name, false, .fin 0, []⟩
  | num f, .num v => some ⟨f.name, true, v, []⟩
  | num _, .int _ => none
  | num _, .big _ => none

end Feature

/-- The loop common to `Splitter.Split` (splitter.go:36-61), both `Split`
(densecatfeature.go:264-284, densenumfeature.go:129-154) and both `SplitPoints`
(densecatfeature.go:330-351, densenumfeature.go:176-202).
`miss`/`left` are the tests made on a case number (`none` = panic), `nl` is `lastleft+1`,
`lr` is `lastright`. Go's `i--` before the loop's `i++` is "same `i`". -/
def splitLoop (miss left : Nat → Option Bool) (cases : List Nat) (i nl lr : Nat) :
    Option (List Nat × Nat × Nat) :=
  if i < lr then
    match cases[i]? with
    | none => none
    | some c =>
      match miss c with
      | none => none
      | some true => splitLoop miss left cases (i + 1) nl lr
      | some false =>
        match left c with
        | none => none
        | some true =>
          if i ≠ nl then
            match h : swp cases i nl with
            | none => none
            | some cases' => splitLoop miss left cases' i (nl + 1) lr
          else splitLoop miss left cases (i + 1) (nl + 1) lr
        | some false =>
          match h : swp cases i (lr - 1) with
          | none => none
          | some cases' => splitLoop miss left cases' i nl (lr - 1)
  else some (cases, nl, lr)
termination_by (lr - i) + (cases.length - nl)
decreasing_by
  all_goals
    first
      | omega
      | (have := swp_length h; have := swp_lt h; omega)

/-- The three slices made from the loop's result: `cases[:lastleft+1]`, `cases[lastright:]`,
`cases[lastleft+1:lastright]` (splitter.go:63-65, densecatfeature.go:286-288,
densenumfeature.go:156-158). -/
structure Split3 where
  left : List Nat
  right : List Nat
  missing : List Nat
  /-- the rewritten case slice -/
  cases : List Nat
  deriving Repr, DecidableEq

/-- Slicing at the two split points (splitter.go:63-65). -/
def slice3 (r : List Nat × Nat × Nat) : Split3 :=
  ⟨r.1.take r.2.1, r.1.drop r.2.2, (r.1.drop r.2.1).take (r.2.2 - r.2.1), r.1⟩

/-- The missing test of the loops, `hasmissing && f.IsMissing(c)` (splitter.go:37). -/
def Feature.missTest (f : Feature K) (c : Nat) : Option Bool :=
  if f.missingVals then f.isMissing c else some false

/-- The feature a splitter is applied to: the one registered under its name (an unknown
name is Go's zero value, index 0; splitter.go:31). -/
def FeatureMatrix.featureOf (fm : FeatureMatrix K) (s : Splitter K) : Option (Feature K) :=
  fm.data[(fm.map s.feature).getD 0]?

/-- `GetStr` of a categorical feature (densecatfeature.go:137-142). -/
def CatFeature.getStr (f : CatFeature) (i : Nat) : Option String := do
  let m ← f.missing[i]?
  if m then some "NA" else
    let c ← f.catData[i]?
    f.cm.back[c]?

/-- `Splitter.Split` (splitter.go:24-68). `fm.Map[s.Feature]` is the Go zero value 0 for an
unknown name. -/
def Splitter.split (s : Splitter K) (fm : FeatureMatrix K) (cases : List Nat) : Option Split3 := do
  let f ← fm.featureOf s
  let r ← splitLoop f.missTest (fun c => f.goesLeft c s) cases 0 0 cases.length
  some (slice3 r)

/-- `Split` of a coded split (densecatfeature.go:230-291, densenumfeature.go:118-161).
Simplified: a code of the wrong dynamic type panics at the first case tested, not before. -/
def Feature.split (f : Feature K) (code : Coded K) (cases : List Nat) : Option Split3 := do
  let r ← splitLoop f.missTest (f.codedLeft code) cases 0 0 cases.length
  some (slice3 r)

/-- `SplitPoints` of a coded split (densecatfeature.go:295-355, densenumfeature.go:164-206):
the rewritten slice and the two indices. -/
def Feature.splitPoints (f : Feature K) (code : Coded K) (cases : List Nat) :
    Option (List Nat × Nat × Nat) :=
  splitLoop f.missTest (f.codedLeft code) cases 0 0 cases.length

end CloudForest
