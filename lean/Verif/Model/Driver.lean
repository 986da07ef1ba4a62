import Verif.Model.Books
import Verif.Model.Shuffle
import Verif.Model.Options

/-!
# Choosing the candidate features in `growforest`
(growforest.go:239-314, 531-542, 593-598 and 804-826)
-/

namespace CloudForest
variable {K : Type} [Field K] [LinearOrder K] [IsStrictOrderedRing K]

/-- `blacklistis` and `blacklisted` (growforest.go:239-240). -/
structure Blacklist where
  marks : List Bool
  count : Nat
  deriving DecidableEq

/-- Marking a feature unless it is marked already (growforest.go:261-264, 282-285, 297-300). -/
def Blacklist.mark (b : Blacklist) (i : Nat) : Option Blacklist :=
  b.marks[i]?.bind fun m => some (if m then b else ⟨b.marks.set i true, b.count + 1⟩)

/-- The names read from the file given as `-blacklist` (growforest.go:248-266): the first column
of each row. Unknown names are passed over. -/
def Blacklist.byName (fm : FeatureMatrix K) (b : Blacklist) (ids : List String) :
    Option Blacklist :=
  ids.foldlM (fun b id => (fm.map id).elim (some b) b.mark) b

/-- The features other than the target whose names satisfy `p` (growforest.go:278-291 with a
match, 293-305 with a mismatch). -/
def Blacklist.byTest (fm : FeatureMatrix K) (targeti : Nat) (p : String → Bool) (b : Blacklist) :
    Option Blacklist :=
  fm.data.zipIdx.foldlM
    (fun b x => if targeti ≠ x.2 ∧ p x.1.name = true then b.mark x.2 else some b) b

/-- The target's index and the blacklist (growforest.go:239-305): `ids` from the file, `block`
and `incl` are the regular expressions `-blockRE` and `-includeRE` as tests. `none` is a panic or
`log.Fatal`. -/
def chooseFeatures (fm : FeatureMatrix K) (ids : List String) (target : String)
    (block incl : Option (String → Bool)) : Option (Nat × Blacklist) :=
  (Blacklist.byName fm ⟨List.replicate fm.data.length false, 0⟩ ids).bind fun b =>
  (fm.map target).bind fun targeti =>
  (block.elim (some b) fun p => b.byTest fm targeti p).bind fun b =>
  (incl.elim (some b) fun p => b.byTest fm targeti fun s => !p s).bind fun b =>
  some (targeti, b)

/-- `nFeatures` (growforest.go:307). -/
def Blacklist.nFeatures (fm : FeatureMatrix K) (b : Blacklist) : Int :=
  fm.data.length - b.count - 1

/-- `int(math.Ceil(math.Sqrt(float64(n))))` (growforest.go:313, 825). -/
def ceilSqrt (n : Nat) : Nat := if n.sqrt * n.sqrt = n then n.sqrt else n.sqrt + 1

/-- `canidates` (growforest.go:593-598). Simplified: a blacklist shorter than the data, which
`chooseFeatures` does not leave behind, would be a panic. -/
def candidates (fm : FeatureMatrix K) (targeti : Nat) (marks : List Bool) : List Nat :=
  (List.range fm.data.length).filter fun i => i != targeti && marks[i]? == some false

/-- Setting up the contrasts (growforest.go:531-542): the matrix, `firstace`, and the marks. -/
def aceSetup (fm : FeatureMatrix K) (targeti : Nat) (marks : List Bool) (rng : Rng) :
    Option (FeatureMatrix K × Nat × List Bool × Rng) := do
  let firstace := fm.data.length
  let (fm', rng) ← fm.contrastAll rng
  let marks ← if marks.length < firstace then none else some (marks ++ marks.take firstace)
  if targeti + firstace < marks.length then
    some (fm', firstace, marks.set (targeti + firstace) true, rng)
  else none

/-- Dropping the features without significance (growforest.go:805-821): `test i` is the outcome
of the t-test for feature `i`, `p` and the mean. Returns the marks and `sigcount`. Simplified:
`test` is asked for the features before `firstace` only, where it does not panic. -/
def aceFilter (firstace targeti : Nat) (cutoff : XF K) (test : Nat → XF K × XF K)
    (marks : List Bool) : List Bool × Nat :=
  let sig (i : Nat) : Bool := decide ((test i).1 < cutoff ∧ .fin 0 < (test i).2 ∧ i ≠ targeti)
  (marks.zipIdx.map fun x => if x.2 < firstace then x.1 || !sig x.2 else true,
    marks.zipIdx.countP fun x => decide (x.2 < firstace) && !x.1 && sig x.2)

end CloudForest
