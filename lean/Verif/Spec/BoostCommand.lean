import Verif.Spec.Commands
import Verif.Spec.Boost

/-!
# What a boosted forest should answer
-/

namespace CloudForest
variable {K : Type} [Field K] [LinearOrder K] [IsStrictOrderedRing K]

/-- A starting value plus `lr` times the sum of what the trees say of case `c`; a tree that says nothing adds nothing. -/
def boostedSum (nt : NumText K) (fm : FeatureMatrix K) (start lr : K) (trees : List (Tree K)) (c : Nat) : K :=
  start + lr * (trees.map fun t => treeValue (fun p => nt.parse p.toList) fm t c).sum

/-- The mean of a number over the listed cases. -/
def meanBy (v : Nat → K) (S : List Nat) : K := (S.map v).sum / S.length

end CloudForest
