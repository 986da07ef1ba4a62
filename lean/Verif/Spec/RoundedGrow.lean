import Verif.Spec.Rounding
import Verif.Spec.Greedy

/-!
# What growing in rounded arithmetic may assume, and what it is to produce
-/

namespace CloudForest
variable {K : Type} [Field K] [LinearOrder K] [IsStrictOrderedRing K]

/-- Rounding leaves the values of the listed cases apart: the values and their doubles are numbers that exist, values that
differ are not taken for equal, and the threshold between two of them is less than the larger. -/
structure NumFeature.Apart (rep : K → Prop) (r : K → XF K) (cut : XF K) (f : NumFeature K) (cs : List Nat) : Prop where
  exist : ∀ c ∈ cs, rep (f.value c) ∧ rep (2 * f.value c)
  ties : f.NoRoundedTies r cut cs
  between : ∀ c ∈ cs, ∀ d ∈ cs, f.value c < f.value d →
    XF.midpoint r (.fin (f.value c)) (.fin (f.value d)) < .fin (f.value d)

@[inherit_doc NumFeature.Apart]
def Feature.Apart (rep : K → Prop) (r : K → XF K) (cut : XF K) (F : Feature K) (cs : List Nat) : Prop :=
  match F with
  | .num f => f.Apart rep r cut cs
  | .cat _ => True

/-- The values of the listed cases are numbers of double precision, at most a hundred million, and a millionth apart when
they differ. -/
structure NumFeature.Spaced (f : NumFeature ℚ) (cs : List Nat) : Prop where
  small : ∀ c ∈ cs, Rep64 (f.value c) ∧ |f.value c| ≤ 10 ^ 8
  gaps : ∀ c ∈ cs, ∀ d ∈ cs, f.value c < f.value d → f.value c + 1 / 10 ^ 6 ≤ f.value d

/-- Every node of the tree is, up to `ε`, the best it can be for the cases that reach it. A leaf is at the depth limit or
no candidate feature has a division, with room on both sides and lowering the impurity of the known cases by more than
`1e-7 + ε`, that lowers the impurity by more than `1e-7 + ε`. An inner node divides by a division with room that lowers
the impurity by more than `1e-7 - ε`, no candidate has one that is better by more than `ε`, and its children are the
best for their parts, up to `ε`. -/
def GreedyUpTo (ε : K) (fm : FeatureMatrix K) (cans : List Nat) (imp : List Nat → K) (leafSize : Nat) (maxDepth : Int) :
    Node K → List Nat → Nat → Prop
  | .nil, _, _ => False
  | .mk none _ _ _ _ _ _, cs, d =>
    (0 < maxDepth ∧ maxDepth ≤ d) ∨
    ∀ i ∈ cans, ∀ F, fm.data[i]? = some F → ∀ p, F.Divides p → F.Room leafSize p cs →
      1 / 10000000 + ε < F.knownGain imp p cs → F.gain3 imp p cs ≤ 1 / 10000000 + ε
  | .mk (some code) fi l r m _ _, cs, d => fi ∈ cans ∧ ∃ F p, fm.data[fi]? = some F ∧
      (∀ c ∈ F.knowns cs, F.codedLeft code c = some (p c)) ∧
      F.Divides p ∧ F.Room leafSize p cs ∧ 1 / 10000000 - ε < F.gain3 imp p cs ∧
      (∀ i ∈ cans, ∀ F', fm.data[i]? = some F' → ∀ q, F'.Divides q → F'.Room leafSize q cs →
        1 / 10000000 + ε < F'.knownGain imp q cs → F'.gain3 imp q cs ≤ F.gain3 imp p cs + ε) ∧
      GreedyUpTo ε fm cans imp leafSize maxDepth l (F.toLeft p cs) (d + 1) ∧
      GreedyUpTo ε fm cans imp leafSize maxDepth r (F.toRight p cs) (d + 1) ∧
      (m.isNil = true ∨ GreedyUpTo ε fm cans imp leafSize maxDepth m (F.missings cs) (d + 1))

end CloudForest
