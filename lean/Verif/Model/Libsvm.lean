import Verif.Model.Matrix

/-!
# libsvm and ARFF files (libsvm.go, arff.go)
-/

namespace CloudForest
variable {K : Type} [Field K] [LinearOrder K] [IsStrictOrderedRing K]

/-- Split at the characters that satisfy `p` (libsvm.go:33, arff.go:38). -/
def splitP (p : Char → Bool) : Text → List Text
  | [] => [[]]
  | c :: s =>
    if p c then [] :: splitP p s
    else
      match splitP p s with
      | [] => [[c]]
      | q :: qs => (c :: q) :: qs

/-- `strings.Fields` (libsvm.go:33, arff.go:38). -/
def fieldsC (s : Text) : List Text := (splitP isSpaceC s).filter (· ≠ [])

/-- The lines that `bufio.Reader.ReadString('\n')` returns before it reports the end, without their line
ends (libsvm.go:25-31). What follows the last line end is dropped by the caller. -/
def fullLines (s : Text) : List Text := (splitC '\n' s).dropLast

/-- A non-empty list of digits as a number (libsvm.go:68-71). -/
def digitsVal (ds : Text) : Option Nat :=
  if ds ≠ [] ∧ ds.all Char.isDigit then some (Nat.ofDigitChars 10 ds 0) else none

/-- `strconv.Atoi`, which returns zero with a syntax error (libsvm.go:68-71). Integers are unbounded. -/
def atoi : Text → Int
  | '-' :: ds => match digitsVal ds with | some n => -(n : Int) | none => 0
  | '+' :: ds => match digitsVal ds with | some n => n | none => 0
  | ds => match digitsVal ds with | some n => n | none => 0

/-! ## Reading libsvm -/

/-- A column of zeros (libsvm.go:74-80). -/
def zeroFeature (ncases k : Nat) : Feature K :=
  .num ⟨List.replicate ncases (.fin 0), List.replicate ncases false, natStr k, false⟩

/-- The loop that adds columns until there are more than `xi` (libsvm.go:73-82), `n` times. -/
def FeatureMatrix.padTo (fm : FeatureMatrix K) (ncases : Nat) : Nat → FeatureMatrix K
  | 0 => fm
  | n + 1 => (fm.push (zeroFeature ncases fm.data.length)).padTo ncases n

/-- `PutStr` of either kind (densecatfeature.go:145-154, densenumfeature.go:40-49). -/
def Feature.putStr (nt : NumText K) (f : Feature K) (i : Nat) (v : String) : Option (Feature K) :=
  f.apply nt (.putStr i v)

/-- One `index:value` entry of line `i` (libsvm.go:66-85). A negative index and an entry without colon
panic. -/
def libsvmEntry (nt : NumText K) (i : Nat) (fm : FeatureMatrix K) (v : Text) : Option (FeatureMatrix K) := do
  let parts := splitC ':' v
  let x ← parts[0]?
  let xi := atoi x
  if xi < 0 then none else
  let xi := xi.toNat
  let fm := fm.padTo (i + 1) (xi + 1 - fm.data.length)
  let f ← fm.data[xi]?
  let y ← parts[1]?
  let g ← f.putStr nt i (String.ofList y)
  some { fm with data := fm.data.set xi g }

/-- The feature made for the targets: numerical if the first one contains a point (libsvm.go:35-58). -/
def targetFeature (v : Text) : Feature K :=
  if '.' ∈ v then .num (.new "0") else .cat (.new "0")

/-- One line (libsvm.go:33-89). A line without fields panics. -/
def libsvmLine (nt : NumText K) (fm : FeatureMatrix K) (line : Text) : Option (FeatureMatrix K) :=
  let i := fm.caseLabels.length
  match fieldsC line with
  | [] => none
  | t :: entries => do
    let fm := if i = 0 then fm.push (targetFeature t) else fm
    match fm.data with
    | [] => none
    | f :: fs => do
      let fm := { fm with data := f.append nt (String.ofList t) :: fs.map fun g => g.append nt "0" }
      let fm ← entries.foldlM (libsvmEntry nt i) fm
      some { fm with caseLabels := fm.caseLabels ++ [natStr i] }

/-- `ParseLibSVM` (libsvm.go:13-97). -/
def parseLibSVM (nt : NumText K) (text : Text) : Option (FeatureMatrix K) :=
  (fullLines text).foldlM (libsvmLine nt) ⟨[], fun _ => none, []⟩

/-! ## Writing libsvm -/

/-- The matrix without its target (libsvm.go:108-116, 157-169): `cp` is `Copy` or nothing. -/
def FeatureMatrix.withoutTarget (cp : Feature K → Feature K) (fm : FeatureMatrix K) (targeti : Nat) :
    FeatureMatrix K :=
  ((fm.data.zipIdx.filter fun (_, i) => i ≠ targeti).map fun (f, _) => cp f).foldl .push
    ⟨[], fun _ => none, fm.caseLabels⟩

/-- The entries of case `i` (libsvm.go:133-138, 190-195): a zero is left out. -/
def libsvmEntries (nt : NumText K) (data : List (Feature K)) (i : Nat) : Option (List Text) := do
  let es ← data.zipIdx.mapM fun (f, j) => match f with
    | .num f => do
      let v ← f.numData[i]?
      some (if v = .fin 0 then [] else [fmtNat (j + 1) ++ ':' :: nt.fmt v])
    | .cat _ => none
  some es.flatten

/-- The target of case `i` as `WriteLibSvm` writes it (libsvm.go:125-131). -/
def libsvmTarget (nt : NumText K) (target : Feature K) (i : Nat) : Option Text :=
  match target with
  | .num f => (f.getStr nt i).map String.toList
  | .cat f => (f.catData[i]?).map fmtNat

/-- The target of case `i` as `WriteLibSvmCases` writes it (libsvm.go:182-188). -/
def libsvmTargetCases (nt : NumText K) (target : Feature K) (i : Nat) : Option Text :=
  match target with
  | .num f => (f.numData[i]?).map nt.fmt
  | .cat f => (f.catData[i]?).map fmtNat

/-- `WriteLibSvm` (libsvm.go:99-148); `none` also for a target that is not found. -/
def FeatureMatrix.writeLibSvm (nt : NumText K) (fm : FeatureMatrix K) (targetn : String) : Option Text := do
  let targeti ← fm.map targetn
  let target ← fm.data[targeti]?
  let others ← (fm.withoutTarget Feature.copy targeti).imputeMissing nt
  let encoded ← others.encodeToNum
  let rows ← (List.range target.length).mapM fun i => do
    let t ← libsvmTarget nt target i
    let es ← libsvmEntries nt encoded.data i
    some (t :: es)
  some (csvText ' ' rows)

/-- Put the features of `gs` back in the places of all features but the target: `WriteLibSvmCases` works on
the caller's features themselves (libsvm.go:166). -/
def restore (targeti : Nat) : Nat → List (Feature K) → List (Feature K) → List (Feature K)
  | _, [], _ => []
  | i, f :: fs, gs =>
    if i = targeti then f :: restore targeti (i + 1) fs gs
    else match gs with
      | [] => f :: restore targeti (i + 1) fs []
      | g :: gs => g :: restore targeti (i + 1) fs gs

/-- `NCats` of either kind is positive (libsvm.go:162; densenumfeature.go:52-54 returns zero). -/
def Feature.hasCats : Feature K → Bool
  | .num _ => false
  | .cat f => 0 < f.cm.nCats

/-- `WriteLibSvmCases` (libsvm.go:150-205): the text written and the matrix afterwards. -/
def FeatureMatrix.writeLibSvmCases (nt : NumText K) (fm : FeatureMatrix K) (cases : List Nat) (targetn : String) :
    Option (Text × FeatureMatrix K) := do
  let targeti ← fm.map targetn
  let target ← fm.data[targeti]?
  let bare := fm.withoutTarget id targeti
  let others ← bare.imputeMissing nt
  let encoded ← (if bare.data.any Feature.hasCats then others.encodeToNum else some others :
    Option (FeatureMatrix K))
  let rows ← cases.mapM fun i => do
    let t ← libsvmTargetCases nt target i
    let es ← libsvmEntries nt encoded.data i
    some (t :: es)
  some (csvText ' ' rows, { fm with data := restore targeti 0 fm.data others.data })

/-! ## ARFF -/

/-- `unicode.ToLower` as far as comparisons with ASCII words go (arff.go:31, 40): besides the ASCII capitals,
the dotted capital I and the Kelvin sign become ASCII letters. -/
def lowerC (c : Char) : Char :=
  if c = Char.ofNat 0x130 then 'i' else if c = Char.ofNat 0x212a then 'k' else c.toLower

/-- `strings.HasPrefix(strings.ToLower(line), p)` (arff.go:31, 33, 37). -/
def hasPrefixFold (p : Text) (line : Text) : Bool := (line.map lowerC).take p.length = p

/-- The feature of an `@attribute` line (arff.go:38-58); fewer than three fields panic. -/
def attributeFeature (line : Text) : Option (Feature K) :=
  match fieldsC line with
  | _ :: name :: type :: _ =>
    if type.map lowerC = "numeric".toList ∨ type.map lowerC = "real".toList then
      some (.num (.new (String.ofList name)))
    else some (.cat (.new (String.ofList name)))
  | _ => none

/-- The header (arff.go:23-62): the outer `none` is a panic, the inner one a missing `@data`. -/
def arffHeader : List Text → FeatureMatrix K → Option (Option (FeatureMatrix K × List Text))
  | [], _ => some none
  | line :: rest, fm =>
    if hasPrefixFold "@data".toList line then some (some (fm, rest))
    else if hasPrefixFold "@attribute".toList line then
      match attributeFeature line with
      | none => none
      | some f => arffHeader rest (fm.push f)
    else arffHeader rest fm

/-- `ParseARFF` (arff.go:15-73). The outer `none` is a panic, the inner one the `nil` it returns if there is
no data section. -/
def parseARFF (nt : NumText K) (text : Text) : Option (Option (FeatureMatrix K)) :=
  let lines := splitC '\n' text
  match arffHeader lines.dropLast (⟨[], fun _ => none, []⟩ : FeatureMatrix K) with
  | none => none
  | some none => some none
  | some (some (fm, rest)) =>
    let data := joinC '\n' (rest ++ [lines.getLast?.getD []])
    (loadCases nt false ((csvRecordsComment ',' '%' data).map (·.map String.ofList)) fm 0).map some

/-- The type of a feature in its `@ATTRIBUTE` line (arff.go:85-89). -/
def arffType : Feature K → Text
  | .num _ => "NUMERIC".toList
  | .cat f => '{' :: joinC ',' (f.cm.back.map String.toList) ++ ['}']

/-- The value of case `i` in the data section (arff.go:103-107). -/
def arffCell (nt : NumText K) (f : Feature K) (i : Nat) : Option Text := do
  let m ← (match f with | .num f => f.missing[i]? | .cat f => f.missing[i]? : Option Bool)
  if m then some ['?'] else (f.getStr nt i).map String.toList

/-- `WriteArffCases` (arff.go:76-119). -/
def FeatureMatrix.writeArffCases (nt : NumText K) (fm : FeatureMatrix K) (cases : List Nat) (relation : Text) :
    Option Text := do
  let rows ← cases.mapM fun i => fm.data.mapM fun f => arffCell nt f i
  some ("@RELATION ".toList ++ relation ++ "\n\n".toList ++
    (fm.data.map fun f => "@ATTRIBUTE ".toList ++ f.name.toList ++ ' ' :: arffType f ++ ['\n']).flatten ++
    "\n@DATA\n".toList ++ csvText ',' rows)

end CloudForest
