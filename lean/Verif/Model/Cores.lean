import Verif.Model.Run

/-!
# A run of growforest with several workers (growforest/growforest.go:579-754)

Each worker has its own tree object, cases, candidates and scratch space. What the workers share is the number of trees started,
the list of trees recorded, both under a lock, and the global random numbers.
-/

namespace CloudForest
variable {K : Type} [Field K] [LinearOrder K] [IsStrictOrderedRing K] {τ : Type}

/-- The turns of the workers `running` (growforest.go:620-742). A turn is growing a tree and recording it, at the time it is
recorded; while it grows a worker touches nothing that is shared but the random numbers, of which each worker sees a part.
`pick` says which of the running workers records next. After recording, a worker goes on if fewer than `nTrees` trees are started
(726-738), and takes a new tree object with `-test` while `treesStarted < nTrees-1` (713-721). `none` if `left` turns are not
enough. -/
def RunSetup.turns (r : RunSetup K τ) (g : Grower K (SplitState K)) :
    Nat → Nat → (Nat → Nat) → List (WorkerState K) → Option (List (Tree K × List Nat))
  | _, _, _, [] => some []
  | 0, _, _, _ :: _ => none
  | left + 1, started, pick, w :: ws => do
    let i := pick 0 % (w :: ws).length
    let s ← (w :: ws)[i]?
    let (t, s) ← r.tree g s
    let s := if r.dotest && started + 1 < r.nTrees then { s with root := .fresh } else s
    let rest ← if started < r.nTrees then r.turns g left (started + 1) (fun k => pick (k + 1)) ((w :: ws).set i s)
      else r.turns g left started (fun k => pick (k + 1)) ((w :: ws).eraseIdx i)
    some (t :: rest)

/-- The run with `nCores` workers (growforest.go:579-754): the trees in the order in which they are recorded. `own w` and
`global w` are the random numbers that worker `w` sees. -/
def RunSetup.runCores (r : RunSetup K τ) (g : Grower K (SplitState K)) (nCores nNonMissing nCats : Nat) (cans : List Nat)
    (own global : Nat → Rng) (pick : Nat → Nat) : Option (List (Tree K × List Nat)) := do
  let workers ← (List.range nCores).mapM fun w => r.start nNonMissing nCats cans (own w) (global w)
  r.turns g (max nCores r.nTrees) nCores pick workers

end CloudForest
