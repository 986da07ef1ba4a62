import Verif.Model.Impurity
import Mathlib.Algebra.BigOperators.Group.List.Basic

/-!
# What it means to measure impurity correctly
-/

namespace CloudForest
variable {K : Type} [Field K] [LinearOrder K] [IsStrictOrderedRing K]

/-- How many of the listed cases have category number `k`. -/
def CatFeature.catCount (f : CatFeature) (cases : List Nat) (k : Nat) : Nat :=
  cases.countP fun c => f.catData[c]? == some k

/-- The listed cases have values, and these are below `n`. -/
def CatFeature.InRange (f : CatFeature) (n : Nat) (cases : List Nat) : Prop :=
  ∀ c ∈ cases, ∃ k, f.catData[c]? = some k ∧ k < n

/-- The class frequencies of the listed cases. -/
def CatFeature.counts (f : CatFeature) (n : Nat) (cases : List Nat) : List Int :=
  (List.range n).map fun k => (f.catCount cases k : Int)

/-- Gini impurity by its textbook definition: one minus the sum of squared class fractions. -/
def CatFeature.gini (K : Type) [Field K] (f : CatFeature) (n : Nat) (cases : List Nat) : K :=
  1 - ((List.range n).map fun k => ((f.catCount cases k : K) / (cases.length : K)) ^ 2).sum

/-- The finite value of a case. -/
def NumFeature.value (f : NumFeature K) (c : Nat) : K :=
  match f.numData[c]? with
  | some (.fin x) => x
  | _ => 0

/-- The listed cases have finite values. -/
def NumFeature.Finite (f : NumFeature K) (cases : List Nat) : Prop :=
  ∀ c ∈ cases, ∃ x, f.numData[c]? = some (.fin x)

/-- Arithmetic mean of the values of the listed cases. -/
def NumFeature.meanOf (f : NumFeature K) (cases : List Nat) : K :=
  (cases.map f.value).sum / (cases.length : K)

/-- Sum of squared deviations from the mean, by definition. -/
def NumFeature.sse (f : NumFeature K) (cases : List Nat) : K :=
  (cases.map fun c => (f.value c - f.meanOf cases) ^ 2).sum

/-- A target measures impurity consistently on the given cases: there is an impurity `I` of
sets of cases and an impurity `S` of divisions, neither depending on order (nor `S` on which
side is called left), such that the
target's from-scratch functions return them, and so does its incremental function after any
block of cases was moved from right to left. `Ok` are the usable scratch states and
`Tracks a l r` says that the scratch values belong to the division `l | r`. -/
structure TargetLaws (T : Target K) (cases : List Nat) where
  I : List Nat → XF K
  S : List Nat → List Nat → XF K
  Ok : Allocs K → Prop
  Tracks : Allocs K → List Nat → List Nat → Prop
  tracks_ok : ∀ a l r, Tracks a l r → Ok a
  I_perm : ∀ l l', l.Perm l' → I l = I l'
  S_perm : ∀ l l' r r', l.Perm l' → r.Perm r' → S l r = S l' r'
  S_comm : ∀ l r, S l r = S r l
  impurity : ∀ a cs, Ok a → (∀ c ∈ cs, c ∈ cases) →
    ∃ a', T.impurity a cs = some (I cs, a') ∧ Ok a'
  split : ∀ a l r, Ok a → (∀ c ∈ l ++ r, c ∈ cases) →
    ∃ a', T.splitImpurity a l r none = some (S l r, a') ∧ Tracks a' l r
  update : ∀ a l r l' r' mv, Tracks a l r → (∀ c ∈ l ++ r, c ∈ cases) →
    l'.Perm (l ++ mv) → r.Perm (mv ++ r') →
    ∃ a', T.updateSImp a l' r' none mv = some (S l' r', a') ∧ Tracks a' l' r'

/-- The impurity of a division is the size-weighted mean of the impurities of its (non-empty)
sides, which are finite and not negative. -/
structure TargetLaws.Weighted {T : Target K} {cases : List Nat} (L : TargetLaws T cases) (i : List Nat → K) :
    Prop where
  finite : ∀ l, l ≠ [] → (∀ c ∈ l, c ∈ cases) → L.I l = .fin (i l)
  nonneg : ∀ l, l ≠ [] → (∀ c ∈ l, c ∈ cases) → 0 ≤ i l
  mean : ∀ l r, l ≠ [] → r ≠ [] → (∀ c ∈ l ++ r, c ∈ cases) →
    L.S l r = .fin (((l.length : K) * i l + (r.length : K) * i r) / ((l.length : K) + (r.length : K)))

/-- The target can also be asked for the impurity of a division with a missing block. -/
def TargetLaws.Total3 {T : Target K} {cases : List Nat} (L : TargetLaws T cases) : Prop :=
  ∀ a l r m, L.Ok a → (∀ c ∈ l ++ r ++ m, c ∈ cases) →
    ∃ x a', T.splitImpurity a l r (some m) = some (x, a') ∧ L.Ok a'

end CloudForest
