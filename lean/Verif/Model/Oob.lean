import Verif.Model.Apply
import Verif.Model.Sampling

/-!
# Bags and out-of-bag votes in growforest (growforest/growforest.go)
-/

namespace CloudForest
variable {K : Type} [Field K] [LinearOrder K] [IsStrictOrderedRing K]

/-- The default of `-nSamples` (growforest.go:381-385): `given` is what the option says. -/
def defaultSamples (given : Int) (nNonMissing : Nat) : Int := if given ≤ 0 then nNonMissing else given

/-- The cases for the next tree with `-nobag` (growforest.go:640-649), where `cases` are those of the worker: the list
made at the start, as the growth of the trees before has rearranged it. -/
def nobagTree (isMissing : Nat → Option Bool) (nCases nSamples : Nat) (cases : List Nat) (rng : Rng) :
    Option (List Nat × Rng) :=
  if nSamples ≠ nCases then do
    let known ← nobagCases isMissing nCases
    let r ← sampleFirstN known nSamples 0 rng
    some (r.2.1, r.2.2)
  else some (cases, rng)

/-- The ballot box for out-of-bag votes (growforest.go:393-403). `nCats` is that of the target, 0 for numbers. -/
def oobBox (nCats size : Nat) : Box K := if nCats = 0 then .num (.new size) else .cat (.new size)

/-- The out-of-bag votes of trees with the cases they were grown from (growforest.go:651-662, 694-696, in the order of
one worker). -/
def oobVotes (nt : NumText K) (fm : FeatureMatrix K) (nCases : Nat) (bb : Box K) (runs : List (Tree K × List Nat)) :
    Option (Box K) :=
  runs.foldlM (fun bb r => do
    let oob ← oobCases nCases r.2
    let votes ← r.1.voteCases fm oob
    bb.castVotes nt votes.1) bb

/-- The votes on test data (growforest.go:913-923). -/
def testVotes (nt : NumText K) (fm : FeatureMatrix K) (bb : Box K) (trees : List (Tree K)) : Option (Box K) :=
  trees.foldlM (fun bb t => do
    let votes ← t.vote fm
    bb.castVotes nt votes) bb

end CloudForest
