import Verif.Model.Libsvm

/-!
# toafm (utils/toafm/main.go)
-/

namespace CloudForest
variable {K : Type} [Field K] [LinearOrder K] [IsStrictOrderedRing K]

/-- `blacklistis` (utils/toafm/main.go:39-69). `ids` is the first column of the blacklist; an index outside the data
panics. -/
def toafmMarks (fm : FeatureMatrix K) (anon libsvm : String) (ids : List String) : Option (List Bool) :=
  ids.foldlM (fun marks id =>
    if id = anon ∨ id = libsvm then some marks
    else (fm.map id).elim (some marks) fun i => marks[i]?.map fun _ => marks.set i true)
    (List.replicate fm.data.length false)

/-- The matrix without the marked features, with a new map (utils/toafm/main.go:73-84). -/
def FeatureMatrix.without (fm : FeatureMatrix K) (marks : List Bool) : FeatureMatrix K :=
  let data := ((fm.data.zip marks).filter fun x => !x.2).map (·.1)
  { data := data
    map := fun s => data.zipIdx.foldl (fun m (f, i) => if s = f.name then some i else m) none
    caseLabels := fm.caseLabels }

/-- `strings.HasPrefix` with a prefix of a letter and a colon (utils/toafm/main.go:96, 101). -/
def hasMark (c : Char) (s : String) : Bool := s.toList.take 2 == [c, ':']

/-- The name with the kind of the feature before it (utils/toafm/main.go:91-106). -/
def Feature.annotate : Feature K → Feature K
  | .num f => .num { f with name := if hasMark 'N' f.name then f.name else "N:" ++ f.name }
  | .cat f => .cat { f with name := if hasMark 'C' f.name || hasMark 'B' f.name then f.name else "C:" ++ f.name }

/-- The matrix that is written (utils/toafm/main.go:73-106). The map is not updated with the names. -/
def toafmMatrix (fm : FeatureMatrix K) (anon libsvm : String) (ids : List String) : Option (FeatureMatrix K) :=
  (toafmMarks fm anon libsvm ids).bind fun marks =>
    let fm := fm.without marks
    let fm := if anon ≠ "" then fm.stripStrings anon else fm
    some { fm with data := fm.data.map Feature.annotate }

/-- What toafm writes (utils/toafm/main.go:14-171) for the matrix that `LoadAFM` has read. An empty name is an option
that was not given; without features it panics. -/
def toafm (nt : NumText K) (fm : FeatureMatrix K) (anon libsvm : String) (ids : List String) : Option Text :=
  (toafmMatrix fm anon libsvm ids).bind fun fm =>
    fm.data[0]?.bind fun f =>
      if libsvm = "" then fm.writeCases nt (List.range f.length) else fm.writeLibSvm nt libsvm

end CloudForest
