import Verif.Model.NfoldRun
import Verif.Spec.Matrix

/-!
# What the files of cross-validation should hold
-/

namespace CloudForest
variable {K : Type} [Field K] [LinearOrder K] [IsStrictOrderedRing K]

/-- The features that are kept: the target, and those that are not on the list, unless they have too many categories. -/
def nfoldKept (o : NfoldOpts) (ids : List String) (data : List (Feature K)) : List (Feature K) :=
  data.filter fun f => decide ((f.name ∉ ids ∨ f.name = o.target) ∧ (o.maxcats = -1 ∨ (f.nCats : Int) ≤ o.maxcats))

/-- The text is read as a matrix of these features and the listed cases, in this order and under their labels. -/
def HoldsCases (nt : NumText K) (features : List (Feature K)) (labels : List String) (cases : List Nat) (text : Text) :
    Prop :=
  ∃ fm, parseAFM nt text = some fm ∧ fm.Indexed ∧ fm.data.length = features.length ∧
    fm.caseLabels.length = cases.length ∧ (∀ j c : Nat, cases[j]? = some c → fm.caseLabels[j]? = labels[c]?) ∧
    ∀ (i : Nat) (f : Feature K), features[i]? = some f → ∃ g, fm.data[i]? = some g ∧ f.SameOn cases g

/-- A matrix of which all cases can be written to files and read from them. -/
structure FeatureMatrix.AllWritable (nt : NumText K) (fm : FeatureMatrix K) : Prop where
  indexed : fm.Indexed
  distinct : (fm.data.map Feature.name).Nodup
  labels : ∀ l ∈ fm.caseLabels, Tabless l.toList ∧ l.toList.take 2 ∉ [['N', ':'], ['C', ':'], ['B', ':']]
  names : ∀ f ∈ fm.data, Tabless f.name.toList ∧ f.TypedName
  cases : ∀ f ∈ fm.data, ∀ c < fm.caseLabels.length, f.CaseWritable nt c
  lengths : ∀ f ∈ fm.data, f.length = fm.caseLabels.length
  consistent : ∀ f ∈ fm.data, f.Consistent
  numbers : ∀ f, Feature.cat f ∈ fm.data → ∀ k ∈ f.catData, k < f.cm.nCats
  na : nt.parse "NA".toList = none

/-- Test sets, no two of which have a case in common. -/
structure TestSets (ncases : Nat) (foldis : List (List Nat)) : Prop where
  cases : ∀ t ∈ foldis, ∀ c ∈ t, c < ncases
  nodup : ∀ t ∈ foldis, t.Nodup
  disjoint : foldis.Pairwise List.Disjoint

/-- The training set that goes with a test set: every case of the others, once. -/
structure TrainingSet (foldis : List (List Nat)) (test train : List Nat) : Prop where
  nodup : train.Nodup
  mem : ∀ c, c ∈ train ↔ (∃ t ∈ foldis, c ∈ t) ∧ c ∉ test

/-- Neither labels nor values differ for the listed cases. -/
def FeatureMatrix.AgreeOn (cases : List Nat) (fm fm' : FeatureMatrix K) : Prop :=
  (∀ c ∈ cases, fm.caseLabels[c]? = fm'.caseLabels[c]?) ∧
    List.Forall₂ (fun f g : Feature K => match f, g with
      | .num f, .num g => f.name = g.name ∧ ∀ c ∈ cases, f.missing[c]? = g.missing[c]? ∧
          (f.missing[c]? = some false → f.numData[c]? = g.numData[c]?)
      | .cat f, .cat g => f.name = g.name ∧ ∀ c ∈ cases, f.missing[c]? = g.missing[c]? ∧
          (f.missing[c]? = some false → f.getStr c = g.getStr c)
      | _, _ => False) fm.data fm'.data

end CloudForest
