import Verif.Model.Nfold
import Verif.Model.Toafm
import Verif.Model.Density

/-!
# A run of nfold (utils/nfold/main.go)
-/

namespace CloudForest
variable {K : Type} [Field K] [LinearOrder K] [IsStrictOrderedRing K]

/-- The options of nfold (utils/nfold/main.go:44-89). `train` and `test` are the file names that the format strings
give for the number of a fold. Simplified: a negative number of folds, at which `make` panics, is left out. -/
structure NfoldOpts where
  target : String := ""
  train : Nat → String
  test : Nat → String
  unstratified : Bool := false
  writelibsvm : Bool := false
  writearff : Bool := false
  writeall : Bool := false
  folds : Nat := 5
  maxcats : Int := -1
  impute : Bool := false
  onehot : Bool := false
  num : Bool := false

/-- The features with at most `maxcats` categories, with a new map (utils/nfold/main.go:130-141). There blacklisted
features are left out in the same loop. -/
def FeatureMatrix.limitCats (fm : FeatureMatrix K) (maxcats : Int) : FeatureMatrix K :=
  let data := fm.data.filter fun f => maxcats = -1 ∨ (f.nCats : Int) ≤ maxcats
  { data := data
    map := fun s => data.zipIdx.foldl (fun m (f, i) => if s = f.name then some i else m) none
    caseLabels := fm.caseLabels }

/-- The matrix that is divided (utils/nfold/main.go:97-156). `ids` is the first column of the blacklist. The blacklist
is read as in toafm, except that the target is not taken off by it. The encoded matrix that `OneHot` returns is not
kept. -/
def nfoldMatrix (nt : NumText K) (o : NfoldOpts) (fm : FeatureMatrix K) (ids : List String) :
    Option (FeatureMatrix K) := do
  let marks ← toafmMarks fm o.target o.target ids
  let fm := (fm.without marks).limitCats o.maxcats
  let fm ← if o.impute then fm.imputeMissing nt else some fm
  let _ ← if o.onehot then fm.oneHot else some fm
  if o.num then fm.encodeToNum else some fm

/-- The folds (utils/nfold/main.go:158-217): stratified if the target is found and has categories, unless that is
switched off. -/
def nfoldFolds (o : NfoldOpts) (fm : FeatureMatrix K) (rng : Rng) : Option (List (List Nat)) :=
  match fm.map o.target with
  | none => nfoldUnstratified fm.caseLabels.length o.folds rng
  | some i =>
    match fm.data[i]? with
    | none => none
    | some (.num _) => nfoldUnstratified fm.caseLabels.length o.folds rng
    | some (.cat f) =>
      if o.unstratified then nfoldUnstratified fm.caseLabels.length o.folds rng else nfoldStratified f o.folds rng

/-- `WriteLibSvmCases` as nfold calls it (utils/nfold/main.go:257-261): the error for a target that is not found is not
looked at, and the file stays empty. -/
def nfoldLibsvm (nt : NumText K) (target : String) (enc : FeatureMatrix K) (cases : List Nat) :
    Option (Text × FeatureMatrix K) :=
  match enc.map target with
  | none => some ([], enc)
  | some _ => enc.writeLibSvmCases nt cases target

/-- The files of fold `i` (utils/nfold/main.go:231-264), in the order in which they are written. Simplified: the encoded
matrix is one of its own. In the code it shares the numerical features, and what is known to be missing of the
categorical ones, with the other, so that with `writeall` and missing values writing the first libsvm file changes the
AFM and ARFF files of the folds that follow (C61, C76). -/
def nfoldFiles (nt : NumText K) (o : NfoldOpts) (fm : FeatureMatrix K) (foldis : List (List Nat))
    (st : FeatureMatrix K × List (String × Text)) (i : Nat) : Option (FeatureMatrix K × List (String × Text)) := do
  let tr ← nfoldTrain o.folds foldis i
  let te ← foldis[i]?
  let arff ← if o.writearff || o.writeall then do
      let a ← fm.writeArffCases nt te o.target.toList
      let b ← fm.writeArffCases nt tr o.target.toList
      some [(o.test i ++ ".arff", a), (o.train i ++ ".arff", b)]
    else some []
  let afm ← if (!o.writelibsvm && !o.writearff) || o.writeall then do
      let a ← fm.writeCases nt te
      let b ← fm.writeCases nt tr
      some [(o.test i, a), (o.train i, b)]
    else some []
  if o.writelibsvm || o.writeall then do
    let (a, enc) ← nfoldLibsvm nt o.target st.1 te
    let (b, enc) ← nfoldLibsvm nt o.target enc tr
    some (enc, st.2 ++ arff ++ afm ++ [(o.test i ++ ".libsvm", a), (o.train i ++ ".libsvm", b)])
  else some (st.1, st.2 ++ arff ++ afm)

/-- The files nfold writes, with their names, for the matrix that `LoadAFM` has read (utils/nfold/main.go:44-266). -/
def nfold (nt : NumText K) (o : NfoldOpts) (fm : FeatureMatrix K) (ids : List String) (rng : Rng) :
    Option (List (String × Text)) := do
  let fm ← nfoldMatrix nt o fm ids
  let foldis ← nfoldFolds o fm rng
  let enc ← if fm.data.any Feature.hasCats && (o.writelibsvm || o.writeall) then fm.encodeToNum else some fm
  let (_, files) ← (List.range o.folds).foldlM (nfoldFiles nt o fm foldis) (enc, [])
  some files

end CloudForest
