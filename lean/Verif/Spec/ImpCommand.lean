import Verif.Spec.Ace
import Verif.Model.Books

/-!
# What the importance file should say
-/

namespace CloudForest
variable {K : Type} [Field K] [LinearOrder K] [IsStrictOrderedRing K]

/-- The splits on feature `i` in a tree, with the cases of its bag that arrive there. -/
def splitsOn (fm : FeatureMatrix K) (imp : List Nat → K) (i : Nat) (x : Tree K × List Nat) : List (Use K) :=
  (usesOf fm (threeWayDecrease fm imp) x.1.root x.2 0).filter fun u => u.feature == i

/-- The least depth of these splits below the root. -/
def leastBelow (fm : FeatureMatrix K) (imp : List Nat → K) (i : Nat) (x : Tree K × List Nat) : Option Nat :=
  (((splitsOn fm imp i x).map (·.depth)).filter (0 < ·)).min?

/-- The line of feature `i` in the importance file for a forest, trees with their bags: the mean of the decreases of impurity that the splits on the feature
brought, the number of these splits, the sum of the decreases per tree and per tree with such a split below its root, the number of these latter trees, and
the mean over them of the least depth below the root. -/
structure ImportanceOf (fm : FeatureMatrix K) (imp : List Nat → K) (forest : List (Tree K × List Nat)) (i : Nat) (ln : ImpLine K) : Prop where
  perUse : ln.perUse = .fin (((forest.flatMap (splitsOn fm imp i)).map (·.dec)).sum / (forest.flatMap (splitsOn fm imp i)).length)
  uses : ln.uses = .fin (forest.flatMap (splitsOn fm imp i)).length
  perTree : ln.perTree = .fin (((forest.flatMap (splitsOn fm imp i)).map (·.dec)).sum / forest.length)
  treesUsed : ln.treesUsed = .fin (forest.countP fun x => (leastBelow fm imp i x).isSome)
  perTreeUsed : ln.perTreeUsed = .fin ((forest.flatMap (splitsOn fm imp i)).map (·.dec)).sum / ln.treesUsed
  meanMinDepth : ln.meanMinDepth =
    .fin (((forest.filterMap (leastBelow fm imp i)).map fun (d : Nat) => (d : K)).sum / (forest.filterMap (leastBelow fm imp i)).length)

/-- No two known values of a number lie within `constant_cutoff` of each other. -/
def FeatureMatrix.Apart (fm : FeatureMatrix K) : Prop :=
  ∀ f, .num f ∈ fm.data → ∀ (i j : Nat) (x y : K), f.missing[i]? = some false → f.missing[j]? = some false →
    f.numData[i]? = some (.fin x) → f.numData[j]? = some (.fin y) → x < y → x + 1 / 10000000 < y

end CloudForest
