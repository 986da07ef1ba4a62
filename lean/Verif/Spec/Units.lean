import Verif.Spec.Greedy

/-!
# The same data in another order or in other units
-/

namespace CloudForest
variable {K : Type} [Field K] [LinearOrder K] [IsStrictOrderedRing K]

/-- The same feature in other units: numbers missing for the same cases, in the same order, or the same categories. -/
def Feature.Rescaled (F F' : Feature K) (cs : List Nat) : Prop :=
  match F, F' with
  | .num f, .num f' => f.missing = f'.missing ∧ f.hasMissing = f'.hasMissing ∧
      ∀ c ∈ (Feature.num f).knowns cs, ∀ d ∈ (Feature.num f).knowns cs,
        (f.value c ≤ f.value d ↔ f'.value c ≤ f'.value d)
  | .cat f, .cat f' => f = f'
  | _, _ => False

/-- The same matrix in other units. -/
def FeatureMatrix.Rescaled (fm fm' : FeatureMatrix K) (cs : List Nat) : Prop :=
  fm.data.length = fm'.data.length ∧
    ∀ (i : Nat) (F F' : Feature K), fm.data[i]? = some F → fm'.data[i]? = some F' → F.Rescaled F' cs

/-- If the values of the second feature are those of the first in an affine unit, then so are the thresholds. -/
def Feature.MovesWith (F F' : Feature K) (cs : List Nat) (code code' : Coded K) : Prop :=
  ∀ (f f' : NumFeature K) (a b : K), F = .num f → F' = .num f' → (∀ c ∈ cs, f'.value c = a * f.value c + b) →
    ∃ v, code = .num (.fin v) ∧ code' = .num (.fin (a * v + b))

/-- Two trees that treat the listed cases alike, each with its own matrix. Leaves are equal. Inner nodes ask about the
same feature, send the same cases left and right, and have children that treat those alike; if the feature is also in
the same units then the question is the same, and if it is in affine units then so is the threshold. -/
def TreatAlike (fm fm' : FeatureMatrix K) : Node K → Node K → List Nat → Prop
  | .nil, n', _ => n' = .nil
  | .mk none fi l r m pred spl, n', _ =>
    n' = .mk none fi l r m pred spl ∧ l = .nil ∧ r = .nil ∧ m = .nil ∧ spl = none
  | .mk (some _) _ _ _ _ _ _, .nil, _ => False
  | .mk (some _) _ _ _ _ _ _, .mk none _ _ _ _ _ _, _ => False
  | .mk (some code) fi l r m pred spl, .mk (some code') fi' l' r' m' pred' spl', cs =>
    fi' = fi ∧ pred' = pred ∧ ∃ F F' p, fm.data[fi]? = some F ∧ fm'.data[fi]? = some F' ∧
      (∀ c ∈ F.knowns cs, F.codedLeft code c = some (p c) ∧ F'.codedLeft code' c = some (p c)) ∧
      (F' = F → code' = code ∧ spl' = spl) ∧ F.MovesWith F' (F.knowns cs) code code' ∧
      TreatAlike fm fm' l l' (F.toLeft p cs) ∧ TreatAlike fm fm' r r' (F.toRight p cs) ∧
      TreatAlike fm fm' m m' (F.missings cs)

/-- Two targets give the same impurities to the same cases. -/
structure TargetLaws.Agrees {T T' : Target K} {cases : List Nat} (L : TargetLaws T cases) (L' : TargetLaws T' cases) :
    Prop where
  I : ∀ l, (∀ c ∈ l, c ∈ cases) → L'.I l = L.I l
  S : ∀ l r, (∀ c ∈ l ++ r, c ∈ cases) → L'.S l r = L.S l r

/-- A value in another unit. -/
def XF.inUnit (a b : K) : XF K → XF K
  | .fin x => .fin (a * x + b)
  | v => v

/-- The same feature in another unit, as Fahrenheit for Celsius. -/
def Feature.Converted (F F' : Feature K) : Prop :=
  match F, F' with
  | .num f, .num f' => f'.missing = f.missing ∧ f'.hasMissing = f.hasMissing ∧
      ∃ a b, 0 < a ∧ f'.numData = f.numData.map (XF.inUnit a b)
  | .cat f, .cat f' => f' = f
  | _, _ => False

/-- Every feature in another unit. -/
def FeatureMatrix.Converted (fm fm' : FeatureMatrix K) : Prop :=
  fm.data.length = fm'.data.length ∧
    ∀ (i : Nat) (F F' : Feature K), fm.data[i]? = some F → fm'.data[i]? = some F' → F.Converted F'

/-- Two trees, each with its own matrix, take a case the same way, to nodes that predict the same. -/
def AnswerAlike (fm fm' : FeatureMatrix K) (n n' : Node K) (c : Nat) : Prop :=
  ∀ path, reaches fm n path c = reaches fm' n' path c ∧ (reaches fm n path c = true →
    (subtreeAt n path).isLeaf = (subtreeAt n' path).isLeaf ∧ (subtreeAt n path).predOf = (subtreeAt n' path).predOf)

end CloudForest
