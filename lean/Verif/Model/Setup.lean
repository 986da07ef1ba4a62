import Verif.Model.Driver
import Verif.Model.Density
import Verif.Model.Matrix

/-!
# What growforest does to the data and its options before growing (growforest.go:310-385)
-/

namespace CloudForest
variable {K : Type} [Field K] [LinearOrder K] [IsStrictOrderedRing K]

/-- `mTry` (growforest.go:310-314). Simplified: a negative number of features, which is possible only if the target is
blacklisted, is not represented. -/
def inferMTry [FloorRing K] (nt : NumText K) (s : Text) (nFeatures : Nat) : Option Int :=
  (parseAsIntOrFraction nt s nFeatures).map fun m => if m ≤ 0 then (ceilSqrt nFeatures : Int) else m

/-- `nNonMissing` (growforest.go:355-362). -/
def nKnown (missing : List Bool) : Nat := missing.countP fun m => !m

/-- `leafSize` (growforest.go:365-377). -/
def inferLeafSize [FloorRing K] (nt : NumText K) (s : Text) (boost : Bool) (nCats nNonMissing : Nat) : Option Int :=
  (parseAsIntOrFraction nt s nNonMissing).map fun l =>
    if l ≤ 0 then
      if boost then ((nNonMissing / 3 : Nat) : Int) else if nCats = 0 then 4 else 1
    else l

/-- `nSamples` (growforest.go:381-385). -/
def inferNSamples [FloorRing K] (nt : NumText K) (s : Text) (nNonMissing : Nat) : Option Int :=
  (parseAsIntOrFraction nt s nNonMissing).map fun n => if n ≤ 0 then (nNonMissing : Int) else n

/-- `data.Data[i].Shuffle()` (growforest.go:324, 332). -/
def FeatureMatrix.shuffleAt (fm : FeatureMatrix K) (i : Nat) (rng : Rng) : Option (FeatureMatrix K × Rng) := do
  let f ← fm.data[i]?
  let (g, rng) ← f.shuffle rng
  some ({ fm with data := fm.data.set i g }, rng)

/-- Shuffling the features other than the target whose names match (growforest.go:327-339); `fs` are the features with
their numbers. -/
def FeatureMatrix.shuffleWhere (targeti : Nat) (p : String → Bool) :
    List (Feature K × Nat) → FeatureMatrix K → Rng → Option (FeatureMatrix K × Rng)
  | [], fm, rng => some (fm, rng)
  | (f, i) :: fs, fm, rng => do
    let (fm, rng) ← if targeti ≠ i ∧ p f.name = true then fm.shuffleAt i rng else some (fm, rng)
    shuffleWhere targeti p fs fm rng

/-- The changes to the data before growing (growforest.go:317-339): `-impute`, `-permute` and `-shuffleRE`, the last as a
test. -/
def prepare (nt : NumText K) (fm : FeatureMatrix K) (targeti : Nat) (impute permute : Bool)
    (shuffleRE : Option (String → Bool)) (rng : Rng) : Option (FeatureMatrix K × Rng) := do
  let fm ← if impute then fm.imputeMissing nt else some fm
  let (fm, rng) ← if permute then fm.shuffleAt targeti rng else some (fm, rng)
  match shuffleRE with
  | none => some (fm, rng)
  | some p => FeatureMatrix.shuffleWhere targeti p fm.data.zipIdx fm rng

end CloudForest
