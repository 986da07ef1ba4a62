import Verif.Model.Sf

/-!
# The forest file as growforest writes it, tree by tree (growforest.go:516-528, 580, 703-725)
-/

namespace CloudForest
variable {K : Type} [Field K] [LinearOrder K] [IsStrictOrderedRing K]

/-- The trees of the last forest in the order in which they are recorded (growforest.go:703-705, 722-725), `finished` being
`treesFinished`, which starts at 0 (growforest.go:580) and is counted only to report progress. -/
def recordTrees (nt : NumText K) (ord : Splitter K → List String) (progress : Bool) : Nat → List (Tree K) → Option Text
  | _, [] => some []
  | finished, t :: ts => do
    let a ← writeTree nt ord t finished
    let b ← recordTrees nt ord progress (if progress then finished + 1 else finished) ts
    some (a ++ b)

/-- The file (growforest.go:516-528 and the above): a header if the target has an intercept, then the trees. -/
def growforestFile (nt : NumText K) (ord : Splitter K → List String) (progress : Bool) (target : String)
    (intercept : Option (XF K)) (trees : List (Tree K)) : Option Text := do
  let ts ← recordTrees nt ord progress 0 trees
  some ((match intercept with
    | some x => writeForestHeader nt 0 target x
    | none => []) ++ ts)

end CloudForest
