import Verif.Spec.Values
import Verif.Spec.Units

/-!
# Trees that ask the same questions, and targets that say the same in other words
-/

namespace CloudForest
variable {K : Type} [Field K] [LinearOrder K] [IsStrictOrderedRing K]

/-- Two trees of the same form with the same split at every place, whose predictions are related by `R` (or both empty: at
inner nodes and at missing branches that no training case entered). -/
def SameQuestions (R : String → String → Prop) : Node K → Node K → Prop
  | .nil, n' => n' = .nil
  | .mk _ _ _ _ _ _ _, .nil => False
  | .mk code fi l r m pred spl, .mk code' fi' l' r' m' pred' spl' =>
    code' = code ∧ fi' = fi ∧ spl' = spl ∧ (R pred pred' ∨ pred = "" ∧ pred' = "") ∧
      SameQuestions R l l' ∧ SameQuestions R r r' ∧ SameQuestions R m m'

/-- A numerical target counted from another origin: `b` is added to every value. -/
def NumFeature.shifted (f : NumFeature K) (b : K) : NumFeature K := { f with numData := f.numData.map (XF.inUnit 1 b) }

/-- A numerical target in another unit. -/
def NumFeature.scaled (f : NumFeature K) (a : K) : NumFeature K := { f with numData := f.numData.map (XF.inUnit a 0) }

/-- Two targets that read the same for the listed cases, of which none is missing. -/
structure ReadAlike (f f' : CatFeature) (cs : List Nat) : Prop where
  cons : f.Consistent
  cons' : f'.Consistent
  known : ∀ c ∈ cs, f.missing[c]? = some false
  known' : ∀ c ∈ cs, f'.missing[c]? = some false
  same : ∀ c ∈ cs, f'.getStr c = f.getStr c

/-- How many of the listed cases read `s`. -/
def CatFeature.frequency (f : CatFeature) (S : List Nat) (s : String) : Nat := S.countP fun c => f.getStr c == some s

end CloudForest
