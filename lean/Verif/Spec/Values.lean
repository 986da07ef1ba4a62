import Verif.Model.Values
import Verif.Spec.Feature
import Verif.Spec.Target

/-!
# Features in a consistent state
-/

namespace CloudForest
variable {K : Type} [Field K] [LinearOrder K] [IsStrictOrderedRing K]

/-- The values and the missing marks are of the same length, known category numbers are those of
categories, and `MissingVals` is true if any case is missing. -/
structure CatFeature.Consistent (f : CatFeature) : Prop where
  lengths : f.catData.length = f.missing.length
  map : f.cm.WF
  valid : ∀ i k : Nat, f.missing[i]? = some false → f.catData[i]? = some k → k < f.cm.nCats
  missing : ∀ i : Nat, f.missing[i]? = some true → f.hasMissing = true

@[inherit_doc CatFeature.Consistent]
structure NumFeature.Consistent (f : NumFeature K) : Prop where
  lengths : f.numData.length = f.missing.length
  missing : ∀ i : Nat, f.missing[i]? = some true → f.hasMissing = true

@[inherit_doc CatFeature.Consistent]
def Feature.Consistent : Feature K → Prop
  | .cat f => f.Consistent
  | .num f => f.Consistent

/-- Calls a client may make: a category number that exists, imputation only if there is a category or
nothing to impute. -/
def Feature.Allowed : Feature K → FeatureOp K → Prop
  | .cat f, .puti _ v => v < f.cm.nCats
  | .cat f, .impute => 0 < f.cm.nCats ∨ true ∉ f.missing
  | _, _ => True

/-- A sequence of allowed calls, each judged by the feature it is made on. -/
def Feature.AllowedAll (nt : NumText K) : Feature K → List (FeatureOp K) → Prop
  | _, [] => True
  | f, op :: ops => f.Allowed op ∧ ∀ f', f.apply nt op = some f' → f'.AllowedAll nt ops

/-- The listed cases whose value is known. -/
def knownOf (missing : List Bool) (cases : List Nat) : List Nat :=
  cases.filter fun i => missing[i]? == some false

/-- A category that no other occurs more often than among the listed cases. -/
def CatFeature.MostFrequent (f : CatFeature) (cases : List Nat) (m : Nat) : Prop :=
  ∀ k, f.catCount cases k ≤ f.catCount cases m

/-! ## A column of strings

What a feature is to a client that only writes and reads strings: a list of strings. `cell v` is what
should be read after `v` was stored. -/

/-- The calls such a client makes. -/
def FeatureOp.Textual : FeatureOp K → Prop
  | .append _ => True
  | .putStr _ _ => True
  | .putMissing _ => True
  | _ => False

/-- The column after a call; `none` if the case does not exist. -/
def column (cell : String → String) (col : List String) : FeatureOp K → Option (List String)
  | .append v => some (col ++ [cell v])
  | .putStr i v => if i < col.length then some (col.set i (cell v)) else none
  | .putMissing i => if i < col.length then some (col.set i "NA") else none
  | _ => some col

/-- What should be read from a categorical feature: the string, or NA for a missing-value token. -/
def catCell (v : String) : String := if isMissingToken v then "NA" else v

/-- What should be read from a numerical feature: the number as it is printed, or NA if the string is
none. -/
def numCell (nt : NumText K) (v : String) : String :=
  match nt.parse v.toList with
  | some x => String.ofList (nt.fmt x)
  | none => "NA"

end CloudForest
