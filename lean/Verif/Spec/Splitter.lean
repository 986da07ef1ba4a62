import Verif.Model.Splitter
import Verif.Spec.Search

/-!
# What `BestSplitter` may assume
-/

namespace CloudForest
variable {K : Type} [Field K] [LinearOrder K] [IsStrictOrderedRing K] {τ : Type}

/-- The shuffled target behaves like the target: it starts in a good state, shuffling some of the
cases succeeds and keeps it good, and in good states it measures impurity consistently, with
the same scratch values. -/
structure ContrastOk {T : Target K} {cases : List Nat} (L : TargetLaws T cases) (C : Contrast K τ)
    (good : τ → Prop) : Prop where
  start : good C.start
  shuffle : ∀ c cs rng, good c → (∀ x ∈ cs, x ∈ cases) →
    ∃ c' rng', C.shuffle c cs rng = some (c', rng') ∧ good c'
  laws : ∀ c, good c → ∃ L' : TargetLaws (C.target c) cases, L'.Ok = L.Ok

/-- The feature can be searched and split on the given cases: they exist in it, its missing flag
is honest and its known values are finite numbers or existing categories. -/
structure FeatOk (F : Feature K) (cases : List Nat) : Prop where
  valid : ∀ c ∈ cases, F.ValidCase c
  sound : F.MissingSound
  vals : F.Searchable (F.knowns cases)

/-- The setting of a call: a matrix of searchable features, a target that measures impurity
consistently (also with a missing block if out-of-bag cases are used, and with a well behaved
shuffled copy if vetting), a leaf size of at least one, existing candidate features and no more
tries than candidates. -/
structure SplitSetting {T : Target K} {cases : List Nat} (L : TargetLaws T cases)
    (fm : FeatureMatrix K) (C : Contrast K τ) (good : τ → Prop) (o : SplitOpts)
    (cans oob : List Nat) : Prop where
  feats : ∀ f ∈ fm.data, FeatOk f cases
  total3 : o.evaloob = true → L.Total3
  contrast : o.vet = true → ContrastOk L C good
  start : good C.start
  leafSize : 1 ≤ o.leafSize
  exist : ∀ i ∈ cans, i < fm.data.length
  mTry : o.mTry ≤ cans.length
  oobs : ∀ c ∈ oob, c ∈ cases

end CloudForest
