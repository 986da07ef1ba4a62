import Verif.Spec.Books
import Verif.Props.Shuffle
import Verif.Props.Run
import Verif.Spec.Commands

/-!
# Importances in a forest with contrasts
-/

namespace CloudForest
variable {K : Type} [Field K] [LinearOrder K] [IsStrictOrderedRing K]

/-- `fm'` is `fm` with a shuffled copy of each feature, in their order, after the features. -/
def WithContrasts (fm fm' : FeatureMatrix K) : Prop :=
  ∃ fakes, fm'.data = fm.data ++ fakes ∧ List.Forall₂ ShuffledOf fm.data fakes

/-- The importance of feature `i` in a forest of `n` trees with their bags: the sum of the decreases of impurity brought by the splits on it, per tree. -/
def perTree (fm : FeatureMatrix K) (imp : List Nat → K) (n : Nat) (forest : List (Tree K × List Nat)) (i : Nat) : K :=
  (((forest.flatMap fun x => usesOf fm (threeWayDecrease fm imp) x.1.root x.2 0).filter fun u => u.feature == i).map (·.dec)).sum / n

/-- A table fit for contrasts: no name looks like that of a contrast, and the numbers have no missing values, which their contrasts would hide, and no
near ties. -/
structure FeatureMatrix.Contrastable (fm : FeatureMatrix K) : Prop where
  suffix : ∀ f ∈ fm.data, ∀ g ∈ fm.data, f.name ≠ g.name ++ ":SHUFFLED"
  known : ∀ f, .num f ∈ fm.data → true ∉ f.missing
  apart : ∀ f, .num f ∈ fm.data → ∀ x y : K, .fin x ∈ f.numData → .fin y ∈ f.numData → x < y → x + 1 / 10000000 < y

/-- A tree that the run `r` should have recorded with its bag: the bag is of at most `nSamples` cases with known target, with bagging of exactly as many, and
the tree is the one newly grown from the bag with the features `cans`, but for what old trees leave below its leaves. -/
def GrownOn {τ : Type} (r : RunSetup K τ) (cans : List Nat) (x : Tree K × List Nat) : Prop :=
  (x.2.length ≤ r.nSamples ∧ (r.how.isNobag = false → x.2.length = r.nSamples)) ∧ (∀ c ∈ x.2, r.missing[c]? = some false) ∧
    ∃ st st', st.cans.Perm cans ∧ grow r.freeGrower r.fm (x.2.length + 1) .fresh st x.2 0 0 = some (prune x.1.root, st')

/-- The features with which the forests with contrasts are grown: those that the user has left, and their contrasts. -/
def ContrastCandidates (fm : FeatureMatrix K) (ok : String → Prop) (cans : List Nat) : Prop :=
  cans.Nodup ∧ ∀ i, i ∈ cans ↔ i < 2 * fm.data.length ∧ ∃ f, fm.data[i % fm.data.length]? = some f ∧ ok f.name

end CloudForest
