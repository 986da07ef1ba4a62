import Verif.Model.Text

/-!
# Tables as text
-/

namespace CloudForest

/-- A text with its quotes doubled. -/
def doubled (f : Text) : Text := f.flatMap fun c => if c = '"' then ['"', '"'] else [c]

/-- A text in quotes, with its quotes doubled. -/
def inQuotes (f : Text) : Text := '"' :: doubled f ++ ['"']

/-- A field without commas, quotes and line ends. -/
def PlainField (comma : Char) (f : Text) : Prop := comma ∉ f ∧ '"' ∉ f ∧ '\n' ∉ f

/-- The ways to write a field: as it is, if it has no commas, quotes and line ends, or in quotes. -/
def WritesAs (comma : Char) (w f : Text) : Prop := (w = f ∧ PlainField comma f ∧ '\r' ∉ f) ∨ w = inQuotes f

/-- The text is a way to write the table: a line for each row, with the fields in order between commas. -/
def WritesTable (comma : Char) (text : Text) (rows : List (List Text)) : Prop :=
  ∃ ws : List (List Text), List.Forall₂ (List.Forall₂ (WritesAs comma)) ws rows ∧
    text = (ws.map fun r => joinC comma r ++ ['\n']).flatten

end CloudForest
