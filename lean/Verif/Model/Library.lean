import Verif.Model.Splitter
import Verif.Model.Sampling
import Verif.Model.Sf

/-!
# `GrowRandomForest`, the entry point of the library (forrest.go:32-69)
-/

namespace CloudForest
variable {K : Type} [Field K] [LinearOrder K] [IsStrictOrderedRing K]

/-- One round of the loop (forrest.go:56-67): `nSamples` of all cases with replacement, and a new tree grown from them;
there are no cases out of bag. Simplified: a target that boosts is not modelled, so the weight stays that of `NewTree`
(tree.go:23-25). -/
def growOne {τ : Type} (fm : FeatureMatrix K) (T : Target K) (C : Contrast K τ) (o : SplitOpts)
    (findPredicted : List Nat → String) (maxDepth : Int) (splitmissing : Bool) (nSamples : Nat) (st : SplitState K) :
    Option (Tree K × SplitState K) := do
  let f ← fm.data[0]?
  let (cases, rng) ← sampleWithReplacement f.length nSamples st.rng
  let (root, st) ← grow (treeGrower fm T C o findPredicted maxDepth splitmissing) fm (nSamples + 1) .fresh
    { st with rng := rng, oob := [] } cases 0 0
  some (⟨root, "", .fin (-1)⟩, st)

/-- The loop (forrest.go:56-67), `nTrees` rounds. -/
def growTrees {τ : Type} (fm : FeatureMatrix K) (T : Target K) (C : Contrast K τ) (o : SplitOpts)
    (findPredicted : List Nat → String) (maxDepth : Int) (splitmissing : Bool) (nSamples : Nat) :
    Nat → SplitState K → Option (List (Tree K) × SplitState K)
  | 0, st => some ([], st)
  | n + 1, st => do
    let (t, st) ← growOne fm T C o findPredicted maxDepth splitmissing nSamples st
    let (ts, st) ← growTrees fm T C o findPredicted maxDepth splitmissing nSamples n st
    some (t :: ts, st)

/-- `GrowRandomForest` (forrest.go:32-69) with a target named `name` that does not boost. `st` holds the scratch space, the
random numbers and the candidates. -/
def growRandomForest {τ : Type} (fm : FeatureMatrix K) (T : Target K) (C : Contrast K τ) (o : SplitOpts)
    (findPredicted : List Nat → String) (name : String) (nSamples nTrees : Nat) (maxDepth : Int) (splitmissing : Bool)
    (st : SplitState K) : Option (Forest K) := do
  let (ts, _) ← growTrees fm T C o findPredicted maxDepth splitmissing nSamples nTrees st
  some ⟨name, ts, .fin 0⟩

end CloudForest
