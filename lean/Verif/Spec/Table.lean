import Verif.Spec.Csv
import Verif.Spec.Matrix

/-!
# What a table says
-/

namespace CloudForest
variable {K : Type} [Field K] [LinearOrder K] [IsStrictOrderedRing K]

/-- A table of data: labels of the cases, and features with a name and a value for each case. -/
structure Table where
  labels : List Text
  features : List (Text × List Text)

/-- Features in rows, below the labels. -/
def Table.inRows (t : Table) (corner : Text) : List (List Text) :=
  (corner :: t.labels) :: t.features.map fun f => f.1 :: f.2

/-- Features in columns: cases in rows, below the names. -/
def Table.inColumns (t : Table) (corner : Text) : List (List Text) :=
  (corner :: t.features.map Prod.fst) ::
    t.labels.zipIdx.map fun x => x.1 :: t.features.map fun f => (f.2[x.2]?).getD []

/-- The name is that of a feature: it begins with `N:`, `C:` or `B:`. -/
def Typed (name : Text) : Prop := name.take 2 ∈ [['N', ':'], ['C', ':'], ['B', ':']]

/-- The feature has the values: a number that can be parsed or a missing value, if the name begins with `N:`, and
otherwise the string or, for the tokens that say so, a missing value. -/
def Feature.Holds (nt : NumText K) (name : Text) (vals : List Text) : Feature K → Prop
  | .num g => name.take 2 = ['N', ':'] ∧ g.name = String.ofList name ∧ g.missing.length = vals.length ∧
      ∀ (j : Nat) (v : Text), vals[j]? = some v →
        (nt.parse v = none → g.missing[j]? = some true) ∧
        (∀ x, nt.parse v = some x → g.missing[j]? = some false ∧ g.numData[j]? = some x)
  | .cat g => name.take 2 ≠ ['N', ':'] ∧ g.name = String.ofList name ∧ g.missing.length = vals.length ∧
      ∀ (j : Nat) (v : Text), vals[j]? = some v →
        g.missing[j]? = some (isMissingToken (String.ofList v)) ∧
        (isMissingToken (String.ofList v) = false → g.getStr j = some (String.ofList v))

/-- A table that can be read: there are cases and features, a value for each, names of features begin with `N:`, `C:`
or `B:` and the first label does not, and there are no line ends `\r\n` within fields. -/
structure Table.Readable (t : Table) (corner : Text) : Prop where
  cases : t.labels ≠ []
  nonempty : t.features ≠ []
  square : ∀ f ∈ t.features, f.2.length = t.labels.length
  names : ∀ f ∈ t.features, Typed f.1
  first : ∀ l, t.labels.head? = some l → ¬ Typed l
  lines : ∀ s, s = corner ∨ s ∈ t.labels ∨ (∃ f ∈ t.features, s = f.1 ∨ s ∈ f.2) → ¬ ['\r', '\n'] <:+: s

end CloudForest
