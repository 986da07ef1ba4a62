import Verif.Model.Values
import Verif.Model.Csv

/-!
# Feature matrices: encoding, renaming, writing and reading
(featurematrix.go:22-135 and 303-481, densecatfeature.go:26-82)
-/

namespace CloudForest
variable {K : Type} [Field K] [LinearOrder K] [IsStrictOrderedRing K]

/-! ## Encoding -/

/-- A slice of `l` zero values with entry `i` set to `g v` for every `i, v` of the category numbers
(densecatfeature.go:32-39, 44-53, 64-76). More category numbers than `l` panic (with indicators
only if one of these is set; simplified). -/
def fillColumn {α : Type} (l : Nat) (zero : α) (g : Nat → α) (catData : List Nat) : Option (List α) :=
  if catData.length ≤ l then some (catData.map g ++ List.replicate (l - catData.length) zero) else none

/-- `DenseCatFeature.EncodeToNum` (densecatfeature.go:28-57). The columns share the feature's `Missing`
slice. -/
def CatFeature.encodeToNum (f : CatFeature) : Option (List (NumFeature K)) :=
  let l := f.missing.length
  if f.cm.nCats ≤ 2 then do
    let data ← fillColumn l (.fin 0) (fun v => XF.ofNat v) f.catData
    some [⟨data, f.missing, f.name, f.hasMissing⟩]
  else
    f.cm.back.zipIdx.mapM fun (sv, j) => do
      let data ← fillColumn l (.fin 0) (fun v => if j = v then .fin 1 else .fin 0) f.catData
      some ⟨data, f.missing, f.name ++ "==" ++ sv, f.hasMissing⟩

/-- The category map of an indicator (densecatfeature.go:64-65). -/
def boolMap : CatMap :=
  ⟨fun s => if s = "false" then some 0 else if s = "true" then some 1 else none, ["false", "true"]⟩

/-- `DenseCatFeature.OneHot` (densecatfeature.go:59-82). -/
def CatFeature.oneHot (f : CatFeature) : Option (List CatFeature) :=
  let l := f.missing.length
  if 2 < f.cm.nCats then
    f.cm.back.zipIdx.mapM fun (sv, j) => do
      let data ← fillColumn l 0 (fun v => if j = v then 1 else 0) f.catData
      some ⟨boolMap, data, f.missing, f.name ++ "==" ++ sv, f.randomSearch, f.hasMissing⟩
  else some []

/-- A matrix under construction with the keys of its map, whose number is `len(out.Map)` (featurematrix.go:63-66,
84-87). -/
structure EncodeState (K : Type) where
  data : List (Feature K)
  map : String → Option Nat
  keys : List String

/-- `out.Map[f.GetName()] = len(out.Map); out.Data = append(out.Data, f)` (featurematrix.go:71-72, 76-77). -/
def EncodeState.add (s : EncodeState K) (f : Feature K) : EncodeState K where
  data := s.data ++ [f]
  map := fun n => if n = f.name then some s.keys.length else s.map n
  keys := if f.name ∈ s.keys then s.keys else s.keys ++ [f.name]

/-- The loop of both (featurematrix.go:68-80, 89-101): `enc` encodes a categorical feature. -/
def encodeLoop (enc : CatFeature → Option (List (Feature K))) :
    List (Feature K) → EncodeState K → Option (EncodeState K)
  | [], s => some s
  | .num f :: fs, s => encodeLoop enc fs (s.add (.num f))
  | .cat f :: fs, s => do
    let cols ← enc f
    encodeLoop enc fs (cols.foldl .add s)

/-- `FeatureMatrix.EncodeToNum` (featurematrix.go:63-82). -/
def FeatureMatrix.encodeToNum (fm : FeatureMatrix K) : Option (FeatureMatrix K) := do
  let s ← encodeLoop (fun f => (f.encodeToNum (K := K)).map (·.map .num)) fm.data ⟨[], fun _ => none, []⟩
  some ⟨s.data, s.map, fm.caseLabels⟩

/-- `FeatureMatrix.OneHot` (featurematrix.go:84-103). -/
def FeatureMatrix.oneHot (fm : FeatureMatrix K) : Option (FeatureMatrix K) := do
  let s ← encodeLoop (fun f => f.oneHot.map (·.map .cat)) fm.data ⟨[], fun _ => none, []⟩
  some ⟨s.data, s.map, fm.caseLabels⟩

/-! ## Renaming -/

/-- `fmt.Sprintf("%v", n)` as a string (featurematrix.go:25, 52, 327). -/
def natStr (n : Nat) : String := String.ofList (fmtNat n)

/-- The loop that puts the target first (featurematrix.go:28-35). -/
def swapTarget (target : String) (data : List (Feature K)) : List (Feature K) :=
  match data.findIdx? (fun f => f.name == target) with
  | none => data
  | some i =>
    match data[i]?, data[0]? with
    | some f, some f0 => (data.set i f0).set 0 f
    | _, _ => data

/-- What StripStrings does to the feature with index `i` (featurematrix.go:41-57). Category `j` becomes
the string of `j`, which the new map sends to `i`. Features that share a slice `Back` write the same
strings to it. -/
def Feature.strip (i : Nat) : Feature K → Feature K
  | .num f => .num { f with name := "N:" ++ natStr i }
  | .cat f =>
    let back := (List.range f.cm.back.length).map natStr
    .cat { f with name := "C:" ++ natStr i, cm := ⟨fun s => if s ∈ back then some i else none, back⟩ }

/-- `FeatureMatrix.StripStrings` (featurematrix.go:22-61). -/
def FeatureMatrix.stripStrings (fm : FeatureMatrix K) (target : String) : FeatureMatrix K :=
  let data := (swapTarget target fm.data).zipIdx.map fun (f, i) => f.strip i
  { data := data
    map := fun s => data.zipIdx.foldl (fun m (f, i) => if s = f.name then some i else m) none
    caseLabels := (List.range fm.caseLabels.length).map natStr }

/-- `FeatureMatrix.ImputeMissing` (featurematrix.go:306-310), for features that share no slices. -/
def FeatureMatrix.imputeMissing (nt : NumText K) (fm : FeatureMatrix K) : Option (FeatureMatrix K) := do
  let data ← fm.data.mapM fun f => f.apply nt .impute
  some { fm with data := data }

/-! ## Writing and reading -/

/-- `FeatureMatrix.WriteCases` (featurematrix.go:106-135). -/
def FeatureMatrix.writeCases (nt : NumText K) (fm : FeatureMatrix K) (cases : List Nat) : Option Text := do
  let labels ← cases.mapM fun c => fm.caseLabels[c]?
  let rows ← fm.data.mapM fun f => do
    let vals ← cases.mapM fun c => f.getStr nt c
    some (f.name :: vals)
  some (("." :: labels) :: rows |>.map fun r => joinC '\t' (r.map String.toList) ++ ['\n']).flatten

/-- The first two bytes of a string are `p` (featurematrix.go:360-361, 366, 449), which is ASCII. -/
def hasPrefix2 (p : List Char) (s : String) : Bool := s.toList.take 2 = p

/-- `ParseFeature` on a record (featurematrix.go:447-481); a name of fewer than two bytes panics. -/
def parseFeature (nt : NumText K) : List String → Option (Feature K)
  | [] => none
  | name :: vals =>
    if name.utf8ByteSize < 2 then none
    else if hasPrefix2 ['N', ':'] name then
      some (.num (vals.foldl (fun f v => f.append nt v) (.new name)))
    else some (.cat (vals.foldl (fun f v => f.append v) (.new name)))

/-- The feature made for a column header (featurematrix.go:366-383). -/
def columnFeature (label : String) : Option (Feature K) :=
  if label.utf8ByteSize < 2 then none
  else if hasPrefix2 ['N', ':'] label then some (.num (.new label))
  else some (.cat (.new label))

/-- `Append` of either kind (densecatfeature.go:86-97, densenumfeature.go:22-32). -/
def Feature.append (nt : NumText K) : Feature K → String → Feature K
  | .cat f, v => .cat (f.append v)
  | .num f, v => .num (f.append nt v)

/-- One record of `LoadCases` (featurematrix.go:326-338): values are appended to the features in order;
more values than features panic. -/
def appendRecord (nt : NumText K) : List (Feature K) → List String → Option (List (Feature K))
  | fs, [] => some fs
  | [], _ :: _ => none
  | f :: fs, v :: vs => (appendRecord nt fs vs).map (f.append nt v :: ·)

/-- `LoadCases` (featurematrix.go:316-341) on the remaining records. -/
def loadCases (nt : NumText K) (rowlabels : Bool) : List (List String) → FeatureMatrix K → Nat →
    Option (FeatureMatrix K)
  | [], fm, _ => some fm
  | r :: rs, fm, count =>
    match rowlabels, r with
    | true, [] => none
    | true, l :: vs => do
      let data ← appendRecord nt fm.data vs
      loadCases nt rowlabels rs { fm with data := data, caseLabels := fm.caseLabels ++ [l] } (count + 1)
    | false, vs => do
      let data ← appendRecord nt fm.data vs
      loadCases nt rowlabels rs { fm with data := data, caseLabels := fm.caseLabels ++ [natStr count] } (count + 1)

/-- `ParseAFM` (featurematrix.go:347-408). An empty file panics, and so does a header without cases. A header that
`encoding/csv` cannot read panics too, as `Read` returns nil with the error; since Go 1.17 it returns the fields before
the error, and what it makes of such a file is then a matrix without features. -/
def parseAFM (nt : NumText K) (text : Text) : Option (FeatureMatrix K) :=
  match (csvRecords '\t' text).map (·.map String.ofList) with
  | [] => none
  | header :: rest =>
    match header.tail with
    | [] => none
    | h0 :: hs =>
      let headers := h0 :: hs
      if hasPrefix2 ['N', ':'] h0 || hasPrefix2 ['C', ':'] h0 || hasPrefix2 ['B', ':'] h0 then do
        let data ← headers.mapM columnFeature
        loadCases nt true rest (data.foldl .push ⟨[], fun _ => none, []⟩) 0
      else do
        let data ← rest.mapM (parseFeature nt)
        some (data.foldl .push ⟨[], fun _ => none, headers⟩)

end CloudForest
