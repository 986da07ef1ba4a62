import Verif.Model.Libsvm
import Verif.Spec.Matrix

/-!
# libsvm lines
-/

namespace CloudForest
variable {K : Type} [Field K] [LinearOrder K] [IsStrictOrderedRing K]

/-- What a line says: the target, and values for some columns. -/
structure LibLine where
  target : Text
  entries : List (Nat × Text)

/-- The line of text says this: its fields, between any white space, are the target and the entries. -/
def LibLine.In (l : LibLine) (line : Text) : Prop :=
  '\n' ∉ line ∧ fieldsC line = l.target :: l.entries.map fun e => fmtNat e.1 ++ ':' :: e.2

/-- A well formed line: columns are numbered from one and occur once at most, values are numbers. -/
structure LibLine.WellFormed (nt : NumText K) (l : LibLine) : Prop where
  columns : (l.entries.map Prod.fst).Nodup
  positive : ∀ e ∈ l.entries, 1 ≤ e.1
  numbers : ∀ e ∈ l.entries, ':' ∉ e.2 ∧ (nt.parse e.2).isSome

/-- Lines, each with its line end. -/
def unlines (lines : List Text) : Text := (lines.map (· ++ ['\n'])).flatten

/-- A number that can be written to and read from libsvm. -/
def LibNumber (nt : NumText K) (x : XF K) : Prop :=
  nt.parse (nt.fmt x) = some x ∧ ':' ∉ nt.fmt x ∧ (nt.fmt x).all (fun c => !isSpaceC c) ∧ '"' ∉ nt.fmt x

/-- A case of the feature that can be written to ARFF: it exists and, if it is known, its value is no missing-value
token, and a number is written on one line and can be parsed back. -/
def Feature.ArffCase (nt : NumText K) : Feature K → Nat → Prop
  | .cat f, c => f.missing[c]? = some true ∨ f.missing[c]? = some false ∧
      ∃ (k : Nat) (s : String), f.catData[c]? = some k ∧ f.cm.back[k]? = some s ∧ isMissingToken s = false
  | .num f, c => f.missing[c]? = some true ∨ f.missing[c]? = some false ∧
      ∃ x : XF K, f.numData[c]? = some x ∧ '\n' ∉ nt.fmt x ∧ nt.fmt x ≠ [] ∧ nt.parse (nt.fmt x) = some x

/-- A matrix of which the listed cases can be written to ARFF: there are features, their names are words, the
relation's name and the categories have no line ends, and no value of the first feature begins with `%`. -/
structure FeatureMatrix.ArffWritable (nt : NumText K) (fm : FeatureMatrix K) (cases : List Nat) (relation : Text) :
    Prop where
  nonempty : fm.data ≠ []
  relation : '\n' ∉ relation
  names : ∀ f ∈ fm.data, f.name.toList ≠ [] ∧ ∀ c ∈ f.name.toList, isSpaceC c = false
  categories : ∀ f, Feature.cat f ∈ fm.data → ∀ s ∈ f.cm.back, '\n' ∉ s.toList
  values : ∀ f ∈ fm.data, ∀ c ∈ cases, f.ArffCase nt c
  first : ∀ f, fm.data.head? = some f → ∀ c ∈ cases, ∀ s, f.getStr nt c = some s → s.toList.head? ≠ some '%'
  question : nt.parse ['?'] = none

end CloudForest
