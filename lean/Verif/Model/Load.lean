import Verif.Model.Libsvm

/-!
# Loading data files (featurematrix.go:410-439)
-/

namespace CloudForest
variable {K : Type} [Field K] [LinearOrder K] [IsStrictOrderedRing K]

/-- A file that can be opened, as `LoadAFM` (featurematrix.go:411-439) sees it: what is in it, and, if `zip.OpenReader` takes it for an archive,
the names of the files in the archive with their texts, `none` if one cannot be opened (featurematrix.go:413-415). -/
structure DiskFile where
  text : Text
  zip : Option (List (String × Option Text)) := none

/-- `LoadAFM` (featurematrix.go:411-439): the matrix, `none` for nil, and whether there is an error; the outer `none` is a panic. `file` is what is
found under the name, `none` if it cannot be opened. Errors while reading an open file are left out. -/
def loadAFM (nt : NumText K) (name : String) (file : Option DiskFile) : Option (Option (FeatureMatrix K) × Bool) :=
  match file with
  | none => some (none, true)
  | some d =>
    match d.zip with
    | some [] => none
    | some ((_, some text) :: _) => (parseAFM nt text).map fun fm => (some fm, false)
    | _ =>
      if ".arff".toList <:+ name.toList then (parseARFF nt d.text).map fun r => (r, false)
      else if ".libsvm".toList <:+ name.toList then (parseLibSVM nt d.text).map fun fm => (some fm, false)
      else (parseAFM nt d.text).map fun fm => (some fm, false)

end CloudForest
