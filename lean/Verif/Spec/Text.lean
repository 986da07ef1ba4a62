import Verif.Model.Text

/-!
# Names that can be written to a forest file
-/

namespace CloudForest

/-- Neither begins nor ends with white space. -/
def NoEdgeSpace (s : Text) : Prop :=
  (∀ c, s.head? = some c → isSpaceC c = false) ∧ (∀ c, s.getLast? = some c → isSpaceC c = false)

/-- A text that avoids the delimiters of the .sf format: no quote, no equals sign, no line end, and no
white space at its ends or next to a comma. Commas and inner white space are allowed. -/
structure Plain (s : Text) : Prop where
  noquote : '"' ∉ s
  noequals : '=' ∉ s
  noline : '\n' ∉ s
  edges : ∀ piece ∈ splitC ',' s, NoEdgeSpace piece

end CloudForest
