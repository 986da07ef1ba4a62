import Verif.Spec.Splitter

/-!
# What it means for a tree to be greedily optimal
-/

namespace CloudForest
variable {K : Type} [Field K] [LinearOrder K] [IsStrictOrderedRing K]

/-- The feature can divide cases by `p` (true for left): a number by a threshold, categories into any two groups. -/
def Feature.Divides (F : Feature K) (p : Nat → Bool) : Prop :=
  match F with
  | .num f => ∃ t : K, ∀ c, p c = decide (f.value c ≤ t)
  | .cat f => ∃ group : Nat → Bool, ∀ c, p c = group (f.cat c)

/-- The listed cases with known values that `p` sends left (right). -/
def Feature.toLeft (F : Feature K) (p : Nat → Bool) (cs : List Nat) : List Nat := (F.knowns cs).filter p

@[inherit_doc Feature.toLeft]
def Feature.toRight (F : Feature K) (p : Nat → Bool) (cs : List Nat) : List Nat := (F.knowns cs).filter fun c => !p c

/-- Both sides are large enough: `leafSize` cases each, but one more on the right of a threshold. -/
def Feature.Room (F : Feature K) (leafSize : Nat) (p : Nat → Bool) (cs : List Nat) : Prop :=
  leafSize ≤ (F.toLeft p cs).length ∧
  match F with
  | .num _ => leafSize < (F.toRight p cs).length
  | .cat _ => leafSize ≤ (F.toRight p cs).length

/-- By how much the division lowers the impurity of the cases with known values. -/
def Feature.knownGain (F : Feature K) (imp : List Nat → K) (p : Nat → Bool) (cs : List Nat) : K :=
  imp (F.knowns cs) - ((F.toLeft p cs).length * imp (F.toLeft p cs) + (F.toRight p cs).length * imp (F.toRight p cs)) /
    (F.knowns cs).length

/-- By how much dividing all cases in three, the cases with missing values apart, lowers the impurity. -/
def Feature.gain3 (F : Feature K) (imp : List Nat → K) (p : Nat → Bool) (cs : List Nat) : K :=
  imp cs - ((F.toLeft p cs).length * imp (F.toLeft p cs) + (F.toRight p cs).length * imp (F.toRight p cs) +
    (F.missings cs).length * imp (F.missings cs)) / cs.length

/-- A division worth considering: possible, with room on both sides, and lowering the impurity of the known cases by
more than `1e-7`. -/
structure Feature.Offers (F : Feature K) (imp : List Nat → K) (leafSize : Nat) (p : Nat → Bool) (cs : List Nat) : Prop where
  divides : F.Divides p
  room : F.Room leafSize p cs
  gain : 1 / 10000000 < F.knownGain imp p cs

/-- Every node of the tree is the best it can be for the cases that reach it. A leaf is at the depth limit or no
candidate feature offers a division that lowers the impurity by more than `1e-7`. An inner node divides by such a
division, no candidate offers a better one, and its children are the best for their parts. -/
def Greedy (fm : FeatureMatrix K) (cans : List Nat) (imp : List Nat → K) (leafSize : Nat) (maxDepth : Int) :
    Node K → List Nat → Nat → Prop
  | .nil, _, _ => False
  | .mk none _ _ _ _ _ _, cs, d =>
    (0 < maxDepth ∧ maxDepth ≤ d) ∨
    ∀ i ∈ cans, ∀ F, fm.data[i]? = some F → ∀ p, F.Offers imp leafSize p cs → F.gain3 imp p cs ≤ 1 / 10000000
  | .mk (some code) fi l r m _ _, cs, d => fi ∈ cans ∧ ∃ F p, fm.data[fi]? = some F ∧
      (∀ c ∈ F.knowns cs, F.codedLeft code c = some (p c)) ∧
      F.Offers imp leafSize p cs ∧ 1 / 10000000 < F.gain3 imp p cs ∧
      (∀ i ∈ cans, ∀ F', fm.data[i]? = some F' → ∀ q, F'.Offers imp leafSize q cs →
        F'.gain3 imp q cs ≤ F.gain3 imp p cs) ∧
      Greedy fm cans imp leafSize maxDepth l (F.toLeft p cs) (d + 1) ∧
      Greedy fm cans imp leafSize maxDepth r (F.toRight p cs) (d + 1) ∧
      (m.isNil = true ∨ Greedy fm cans imp leafSize maxDepth m (F.missings cs) (d + 1))

end CloudForest
