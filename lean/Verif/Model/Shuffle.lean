import Verif.Model.Splitter

/-!
# Shuffling
(densecatfeature.go:1146-1192, densenumfeature.go:593-639, featurematrix.go:266-301)
-/

namespace CloudForest
variable {K : Type} [Field K] [LinearOrder K] [IsStrictOrderedRing K]

/-- The loop of both `ShuffleCases` (densecatfeature.go:1164-1181, densenumfeature.go:611-628)
from position `j` on: missing flags and values are exchanged together. -/
def shuffleLoop {α : Type} (cases : List Nat) (miss : List Bool) (data : List α) (rng : Rng)
    (j : Nat) : Option (List Bool × List α × Rng) :=
  if j < cases.length then
    match rng.intn (cases.length - j) with
    | none => none
    | some (x, rng) =>
      match cases[j]?, cases[j + x]? with
      | some target, some source =>
        match swp miss target source, swp data target source with
        | some miss, some data => shuffleLoop cases miss data rng (j + 1)
        | _, _ => none
      | _, _ => none
  else some (miss, data, rng)
termination_by cases.length - j

/-- `DenseCatFeature.ShuffleCases` (densecatfeature.go:1164-1181). -/
def CatFeature.shuffleCases (f : CatFeature) (cases : List Nat) (rng : Rng) :
    Option (CatFeature × Rng) := do
  let (miss, data, rng) ← shuffleLoop cases f.missing f.catData rng 0
  some ({ f with missing := miss, catData := data }, rng)

/-- `DenseNumFeature.ShuffleCases` (densenumfeature.go:611-628). -/
def NumFeature.shuffleCases (f : NumFeature K) (cases : List Nat) (rng : Rng) :
    Option (NumFeature K × Rng) := do
  let (miss, data, rng) ← shuffleLoop cases f.missing f.numData rng 0
  some ({ f with missing := miss, numData := data }, rng)

/-- The loop of both `Shuffle` (densecatfeature.go:1146-1161, densenumfeature.go:593-608), over
all positions below `capacity`. The global `rand.Intn` is an arbitrary stream too. -/
def shuffleAllLoop {α : Type} (capacity : Nat) (miss : List Bool) (data : List α) (rng : Rng)
    (j : Nat) : Option (List Bool × List α × Rng) :=
  if j < capacity then
    match rng.intn (capacity - j) with
    | none => none
    | some (x, rng) =>
      match swp miss j (j + x), swp data j (j + x) with
      | some miss, some data => shuffleAllLoop capacity miss data rng (j + 1)
      | _, _ => none
  else some (miss, data, rng)
termination_by capacity - j

/-- `Shuffle` (densecatfeature.go:1146-1161, densenumfeature.go:593-608). -/
def Feature.shuffle (f : Feature K) (rng : Rng) : Option (Feature K × Rng) :=
  match f with
  | .cat f => do
    let (miss, data, rng) ← shuffleAllLoop f.missing.length f.missing f.catData rng 0
    some (.cat { f with missing := miss, catData := data }, rng)
  | .num f => do
    let (miss, data, rng) ← shuffleAllLoop f.missing.length f.missing f.numData rng 0
    some (.num { f with missing := miss, numData := data }, rng)

/-- Go's `copy(make([]T, n), s)`: the first `n` values, filled up with zero values (densecatfeature.go:1202-1208,
densenumfeature.go:645-652). -/
def copyTo {α : Type} (zero : α) (n : Nat) (s : List α) : List α :=
  s.take n ++ List.replicate (n - s.length) zero

/-- `Copy` (densecatfeature.go:1194-1212, densenumfeature.go:641-655): the numerical one resets
`HasMissing`. Sharing of the category map with the original is not part of this value. -/
def Feature.copy : Feature K → Feature K
  | .cat f => .cat ⟨f.cm, copyTo 0 f.missing.length f.catData, copyTo false f.missing.length f.missing,
      f.name, f.randomSearch, f.hasMissing⟩
  | .num f => .num ⟨copyTo (.fin 0) f.missing.length f.numData,
      copyTo false f.missing.length f.missing, f.name, false⟩

/-- `fake.Name += ":SHUFFLED"` (densecatfeature.go:1188, densenumfeature.go:635). -/
def Feature.rename (f : Feature K) (name : String) : Feature K :=
  match f with
  | .cat f => .cat { f with name := name }
  | .num f => .num { f with name := name }

/-- `ShuffledCopy` (densecatfeature.go:1185-1191, densenumfeature.go:632-638). -/
def Feature.shuffledCopy (f : Feature K) (rng : Rng) : Option (Feature K × Rng) := do
  let (g, rng) ← f.copy.shuffle rng
  some (g.rename (f.name ++ ":SHUFFLED"), rng)

/-- Registering a feature under its name and appending it (featurematrix.go:274-276). -/
def FeatureMatrix.push (fm : FeatureMatrix K) (f : Feature K) : FeatureMatrix K :=
  { fm with
    data := fm.data ++ [f]
    map := fun s => if s = f.name then some fm.data.length else fm.map s }

/-- `AddContrasts` (featurematrix.go:266-279), with the `nrealfeatures` features there were at
the start. -/
def FeatureMatrix.addContrastsLoop (nreal : Nat) : Nat → FeatureMatrix K → Rng →
    Option (FeatureMatrix K × Rng)
  | 0, fm, rng => some (fm, rng)
  | n + 1, fm, rng => do
    let (i, rng) ← rng.intn nreal
    let orig ← fm.data[i]?
    let (fake, rng) ← orig.shuffledCopy rng
    addContrastsLoop nreal n (fm.push fake) rng

@[inherit_doc FeatureMatrix.addContrastsLoop]
def FeatureMatrix.addContrasts (fm : FeatureMatrix K) (n : Nat) (rng : Rng) :
    Option (FeatureMatrix K × Rng) := fm.addContrastsLoop fm.data.length n rng

/-- `ContrastAll` (featurematrix.go:290-301), with `n` features still to copy. -/
def FeatureMatrix.contrastAllLoop (nreal : Nat) : Nat → FeatureMatrix K → Rng →
    Option (FeatureMatrix K × Rng)
  | 0, fm, rng => some (fm, rng)
  | n + 1, fm, rng => do
    let orig ← fm.data[nreal - (n + 1)]?
    let (fake, rng) ← orig.shuffledCopy rng
    contrastAllLoop nreal n (fm.push fake) rng

@[inherit_doc FeatureMatrix.contrastAllLoop]
def FeatureMatrix.contrastAll (fm : FeatureMatrix K) (rng : Rng) :
    Option (FeatureMatrix K × Rng) := fm.contrastAllLoop fm.data.length fm.data.length rng

/-- The shuffled target of a class target (splitallocations.go:69, featurematrix.go:170). The
method `Copy` of every target built on `DenseCatFeature` is that feature's own, so the copy
measures Gini impurity whatever the target does. -/
def catContrast (f : CatFeature) : Contrast K CatFeature where
  start := f
  shuffle f cases rng := f.shuffleCases cases rng
  target f := giniTarget f

/-- The shuffled target of a numerical target (splitallocations.go:69, featurematrix.go:170). -/
def numContrast (f : NumFeature K) : Contrast K (NumFeature K) where
  start := f
  shuffle f cases rng := f.shuffleCases cases rng
  target f := sseTarget f

end CloudForest
