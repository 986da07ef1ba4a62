import Verif.Model.Run
import Verif.Spec.Sampling

/-!
# Runs of growforest: what is asked of the sampling
-/

namespace CloudForest
variable {K : Type} [Field K] [LinearOrder K] [IsStrictOrderedRing K]

/-- The samplers were made from the target, whose missing cases are `missing`, and no class (or combination of classes)
they draw from is empty. -/
def Bagging.Fit (missing : List Bool) : Bagging → Prop
  | .plain => 0 < missing.length
  | .nobag => True
  | .balanced b => ∃ f : CatFeature, f.Known ∧ f.missing = missing ∧ newBalancedSampler f = some b ∧ 0 < f.cm.nCats ∧
      ∀ k < f.cm.nCats, f.classCases k ≠ []
  | .secondary s => ∃ f g : CatFeature, f.Known ∧ f.missing = missing ∧ g.Known ∧ g.catData.length = f.catData.length ∧
      newSecondarySampler f g = some s ∧ 0 < g.cm.nCats ∧ 0 < f.cm.nCats ∧
      ∀ b < g.cm.nCats, ∀ t < f.cm.nCats, bothCases f g b t ≠ []

/-- Whether sampling goes without bagging. -/
def Bagging.isNobag : Bagging → Bool
  | .nobag => true
  | _ => false

/-- The worker's cases when there is no bagging: known ones, each once. -/
def Bagging.CasesOk (missing : List Bool) (how : Bagging) (cases : List Nat) : Prop :=
  how.isNobag = true → cases.Nodup ∧ ∀ c ∈ cases, missing[c]? = some false

end CloudForest
