import Verif.Model.Matrix
import Verif.Spec.Values

/-!
# Matrices that are indexed by name, and matrices that can be written
-/

namespace CloudForest
variable {K : Type} [Field K] [LinearOrder K] [IsStrictOrderedRing K]

/-- The map sends a name to the index of a feature of that name, and every feature's name is in the map. -/
structure FeatureMatrix.Indexed (fm : FeatureMatrix K) : Prop where
  sound : ∀ (n : String) (i : Nat), fm.map n = some i → ∃ f, fm.data[i]? = some f ∧ f.name = n
  complete : ∀ f ∈ fm.data, ∃ i, fm.map f.name = some i

/-- The columns of one feature: a numerical feature itself, a categorical one's encoding. -/
def columnsOf (enc : CatFeature → Option (List (Feature K))) : Feature K → Option (List (Feature K))
  | .num f => some [.num f]
  | .cat f => enc f

/-- The columns a matrix should be encoded to: those of its features, in order. -/
def encodedColumns (enc : CatFeature → Option (List (Feature K))) (fs : List (Feature K)) :
    Option (List (Feature K)) :=
  (fs.mapM (columnsOf enc)).map List.flatten

/-- A text that can stand in a field: no tab, quote, line end or carriage return. -/
def Tabless (s : Text) : Prop := '\t' ∉ s ∧ '"' ∉ s ∧ '\n' ∉ s ∧ '\r' ∉ s

/-- A case of the feature that can be written: it exists and, if it is known, its value can stand in a field
and be parsed back, and is no missing-value token. -/
def Feature.CaseWritable (nt : NumText K) : Feature K → Nat → Prop
  | .cat f, c => f.missing[c]? = some true ∨ f.missing[c]? = some false ∧
      ∃ (k : Nat) (s : String), f.catData[c]? = some k ∧ f.cm.back[k]? = some s ∧
        Tabless s.toList ∧ isMissingToken s = false
  | .num f, c => f.missing[c]? = some true ∨ f.missing[c]? = some false ∧
      ∃ x : XF K, f.numData[c]? = some x ∧ Tabless (nt.fmt x) ∧ nt.parse (nt.fmt x) = some x

/-- The name begins with `N:` exactly if the feature is numerical, and has two bytes at least. -/
def Feature.TypedName : Feature K → Prop
  | .cat f => 2 ≤ f.name.utf8ByteSize ∧ f.name.toList.take 2 ≠ ['N', ':']
  | .num f => f.name.toList.take 2 = ['N', ':']

/-- A matrix of which the listed cases can be written and read. The first label must not look like the
name of a feature, as `ParseAFM` would then take the columns for features. -/
structure FeatureMatrix.Writable (nt : NumText K) (fm : FeatureMatrix K) (cases : List Nat) : Prop where
  nonempty : cases ≠ []
  labels : ∀ c ∈ cases, ∃ l, fm.caseLabels[c]? = some l ∧ Tabless l.toList
  first : ∀ c l, cases.head? = some c → fm.caseLabels[c]? = some l →
    l.toList.take 2 ∉ [['N', ':'], ['C', ':'], ['B', ':']]
  names : ∀ f ∈ fm.data, Tabless f.name.toList ∧ f.TypedName
  cases : ∀ f ∈ fm.data, ∀ c ∈ cases, f.CaseWritable nt c
  na : nt.parse "NA".toList = none

/-- `g` is what was read for the listed cases of `f`: the same name and kind; case `j` is missing exactly
if the `j`-th listed case was, and has the same category or number otherwise. -/
def Feature.SameOn (cases : List Nat) : Feature K → Feature K → Prop
  | .cat f, .cat g => g.name = f.name ∧ g.missing.length = cases.length ∧
      ∀ j c : Nat, cases[j]? = some c →
        g.missing[j]? = f.missing[c]? ∧ (f.missing[c]? = some false → g.getStr j = f.getStr c)
  | .num f, .num g => g.name = f.name ∧ g.missing.length = cases.length ∧
      ∀ j c : Nat, cases[j]? = some c →
        g.missing[j]? = f.missing[c]? ∧ (f.missing[c]? = some false → g.numData[j]? = f.numData[c]?)
  | _, _ => False

end CloudForest
