import Verif.Spec.Tree

/-!
# What growing may assume of its split search, and what it is to produce
-/

namespace CloudForest
variable {K : Type} [Field K] [LinearOrder K] [IsStrictOrderedRing K]

/-- The matrix is sound for the given cases: they exist in every feature, missing flags are
honest, category maps are well formed, and features are found by their names. -/
structure MatrixOk (fm : FeatureMatrix K) (cases : List Nat) : Prop where
  valid : ∀ f ∈ fm.data, ∀ c ∈ cases, f.ValidCase c
  sound : ∀ f ∈ fm.data, f.MissingSound
  catwf : ∀ f ∈ fm.data, f.CatWF
  named : ∀ i f, fm.data[i]? = some f → fm.map f.name = some i

/-- In the states `P` and with the counts of known constants `Q`, the split search only
rearranges the cases it is given, returns codes that fit an existing feature, and stays in such
states. -/
structure SearchOk {σ : Type} (g : Grower K σ) (fm : FeatureMatrix K) (P : σ → Prop)
    (Q : Nat → Prop) (cases : List Nat) : Prop where
  perm : ∀ st cs nc st' res, P st → Q nc → (∀ c ∈ cs, c ∈ cases) →
    g.best st cs nc = some (st', res) → res.cases.Perm cs
  fits : ∀ st cs nc st' res code, P st → Q nc → (∀ c ∈ cs, c ∈ cases) →
    g.best st cs nc = some (st', res) →
    res.split = some code → ∃ f, fm.data[res.fi]? = some f ∧ f.CodeFits code
  keeps : ∀ st cs nc st' res, P st → Q nc → (∀ c ∈ cs, c ∈ cases) →
    g.best st cs nc = some (st', res) → P st' ∧ Q res.nconstants

/-- How many of the listed cases are known in feature `f` and go left (right) by `code`. -/
def leftCount (f : Feature K) (code : Coded K) (cs : List Nat) : Nat :=
  (cs.filter fun c => f.isMissing c == some false && f.codedLeft code c == some true).length

@[inherit_doc leftCount]
def rightCount (f : Feature K) (code : Coded K) (cs : List Nat) : Nat :=
  (cs.filter fun c => f.isMissing c == some false && f.codedLeft code c == some false).length

/-- Every split the search returns leaves at least `leafSize` of the cases on either side. -/
def Admissible {σ : Type} (g : Grower K σ) (fm : FeatureMatrix K) (P : σ → Prop)
    (Q : Nat → Prop) (cases : List Nat) : Prop :=
  ∀ st cs nc st' res code f, P st → Q nc → (∀ c ∈ cs, c ∈ cases) →
    g.best st cs nc = some (st', res) → res.split = some code → fm.data[res.fi]? = some f →
    g.leafSize ≤ leftCount f code cs ∧ g.leafSize ≤ rightCount f code cs

end CloudForest
