import Verif.Model.Sampling

/-!
# Cross-validation folds
(utils/nfold/main.go)
-/

namespace CloudForest

/-- Dealing blocks of `size` cases to the folds (utils/nfold/main.go:191-195, and 208-214 for one
class). -/
def dealFolds (cases : List Nat) (folds size : Nat) (foldis : List (List Nat)) :
    Option (List (List Nat)) :=
  (List.range folds).foldlM (fun fs j =>
    (List.range' (j * size) ((j + 1) * size - j * size)).foldlM (fun fs k => do
      let c ← cases[k]?
      appendAt fs j c) fs) foldis

/-- The test folds without stratification (utils/nfold/main.go:158-164, 184-195). Zero folds
divide by zero. Simplified: a negative number of folds, at which `make` panics, is left out. -/
def nfoldUnstratified (ncases folds : Nat) (rng : Rng) : Option (List (List Nat)) :=
  if folds = 0 then none else do
    let (cases, _, _) ← sampleFirstN (List.range ncases) (List.range ncases).length 0 rng
    dealFolds cases folds (ncases / folds) (List.replicate folds [])

/-- The test folds stratified by the classes of the target (utils/nfold/main.go:158-164,
198-217). -/
def nfoldStratified (target : CatFeature) (folds : Nat) (rng : Rng) : Option (List (List Nat)) :=
  if folds = 0 then none else do
    let buckets ← newBalancedSampler target
    let (fs, _) ← buckets.foldlM (fun (s : List (List Nat) × Rng) b => do
      let (b, _, rng) ← sampleFirstN b b.length 0 s.2
      let fs ← dealFolds b folds (b.length / folds) s.1
      some (fs, rng)) (List.replicate folds [], rng)
    some fs

/-- The training cases of fold `i`: the other folds one after the other
(utils/nfold/main.go:238-243). -/
def nfoldTrain (folds : Nat) (foldis : List (List Nat)) (i : Nat) : Option (List Nat) :=
  (List.range folds).foldlM (fun tr j =>
    if i ≠ j then do
      let f ← foldis[j]?
      some (tr ++ f)
    else some tr) []

end CloudForest
