import Verif.Model.Text

/-!
# Separated values: the parts of `encoding/csv` in use
(the standard library's `csv.Reader` and `csv.Writer`, used at featurematrix.go:316-344, 350-353, 389-401,
arff.go:66-70, 96-117 and libsvm.go:121-146, 178-203)
-/

namespace CloudForest

/-! ## Reading -/

/-- A line without the carriage return before its end (`csv.Reader.readLine`) (used at featurematrix.go:318-324,
350-353). -/
def dropCR (l : Text) : Text := if l.getLast? = some '\r' then l.dropLast else l

/-- The text as the reader sees it: the line ends `\r\n` become `\n`, in quoted fields as well (used at
featurematrix.go:318-324, 350-353). -/
def normCR (text : Text) : Text := joinC '\n' ((splitC '\n' text).map dropCR)

/-- Where the reader stands: at the beginning of a line that begins a record, in a comment, at the beginning of
another field, within a field without quotes, within a quoted field, and after a quote in a quoted field
(used at featurematrix.go:318-324, 350-353). -/
inductive CsvAt
  | line | comment | start | plain | quoted | closed
  deriving DecidableEq

/-- The records from here on: `cur` is what has been read of the field, `fields` are the fields before it
(`csv.Reader.readRecord` with `LazyQuotes` and `TrimLeadingSpace` unset; used at featurematrix.go:318-324,
350-353, 389-401 and arff.go:66-70). The list ends at the end of the text or at the first error: a quote within a
field without quotes, a quote in a quoted field that neither ends it nor is followed by another, or a quoted
field that does not end. All callers stop there. Empty lines are skipped. -/
def csvScan (comma : Char) (comment : Option Char) : CsvAt → Text → List Text → Text → List (List Text)
  | .line, _, _, [] => []
  | .comment, _, _, [] => []
  | .quoted, _, _, [] => []
  | .start, cur, fields, [] => [fields ++ [cur]]
  | .plain, cur, fields, [] => [fields ++ [cur]]
  | .closed, cur, fields, [] => [fields ++ [cur]]
  | .comment, cur, fields, c :: s => csvScan comma comment (if c = '\n' then .line else .comment) cur fields s
  | .line, cur, fields, c :: s =>
    if c = '\n' then csvScan comma comment .line [] [] s
    else if comment = some c then csvScan comma comment .comment [] [] s
    else if c = '"' then csvScan comma comment .quoted [] [] s
    else if c = comma then csvScan comma comment .start [] [[]] s
    else csvScan comma comment .plain [c] [] s
  | .start, cur, fields, c :: s =>
    if c = '"' then csvScan comma comment .quoted [] fields s
    else if c = comma then csvScan comma comment .start [] (fields ++ [[]]) s
    else if c = '\n' then (fields ++ [[]]) :: csvScan comma comment .line [] [] s
    else csvScan comma comment .plain [c] fields s
  | .plain, cur, fields, c :: s =>
    if c = '"' then []
    else if c = comma then csvScan comma comment .start [] (fields ++ [cur]) s
    else if c = '\n' then (fields ++ [cur]) :: csvScan comma comment .line [] [] s
    else csvScan comma comment .plain (cur ++ [c]) fields s
  | .quoted, cur, fields, c :: s =>
    if c = '"' then csvScan comma comment .closed cur fields s
    else csvScan comma comment .quoted (cur ++ [c]) fields s
  | .closed, cur, fields, c :: s =>
    if c = '"' then csvScan comma comment .quoted (cur ++ ['"']) fields s
    else if c = comma then csvScan comma comment .start [] (fields ++ [cur]) s
    else if c = '\n' then (fields ++ [cur]) :: csvScan comma comment .line [] [] s
    else []

/-- Records with another number of fields than the first are errors (`FieldsPerRecord` is zero; used at
featurematrix.go:318-324, 389-401). -/
def sameFields : List (List Text) → List (List Text)
  | [] => []
  | r :: rs => r :: rs.takeWhile fun q => q.length = r.length

/-- The records that `csv.Reader.Read` returns with the given `Comma` until it reports an error or the end
(featurematrix.go:350-353, 389-401, 318-324). -/
def csvRecords (comma : Char) (text : Text) : List (List Text) :=
  sameFields (csvScan comma none .line [] [] (normCR text))

/-- The same with the given `Comment`: lines that begin with it where a record could are left out
(arff.go:66-70). -/
def csvRecordsComment (comma comment : Char) (text : Text) : List (List Text) :=
  sameFields (csvScan comma (some comment) .line [] [] (normCR text))

/-! ## Writing -/

/-- `csv.Writer.fieldNeedsQuotes` (used at arff.go:111, libsvm.go:140, 197). -/
def needsQuotes (comma : Char) (f : Text) : Bool :=
  f = ['\\', '.'] || f.any (fun c => c == comma || c == '"' || c == '\n' || c == '\r') ||
    (match f with | c :: _ => isSpaceC c | [] => false)

/-- A field as `csv.Writer.Write` writes it with `UseCRLF` unset (used at arff.go:111, libsvm.go:140, 197). -/
def csvField (comma : Char) (f : Text) : Text :=
  if needsQuotes comma f then '"' :: f.flatMap (fun c => if c = '"' then ['"', '"'] else [c]) ++ ['"'] else f

/-- The lines that `csv.Writer` writes for the records (libsvm.go:121-122, 140, 146, 178-179, 197, 203,
arff.go:96-97, 111, 117). -/
def csvText (comma : Char) (rows : List (List Text)) : Text :=
  (rows.map fun r => joinC comma (r.map (csvField comma)) ++ ['\n']).flatten

end CloudForest
