import Mathlib.Data.List.Basic

/-!
# The worker pool of growforest (growforest/growforest.go:579-754)

`nCores` workers grow trees until `nTrees` have been started. The scheduler picks a worker, which
takes one step. Growing a tree is one step, as it writes nothing shared but the worker's own tree
object. With a single core growforest calls the worker instead of starting a goroutine, and takes
no lock; a lock that only one worker uses makes no difference, so the model always locks.
Left out: voting out of bag (C27), importance, writing files other than the forest, progress output.
-/

namespace CloudForest

/-- Where a worker is in its loop (growforest.go:620-742). -/
inductive Pc where
  /-- about to grow a tree (621-690) -/
  | grow
  /-- about to lock `recordingTree` (699-701) -/
  | lock
  /-- about to write the tree (703-705) -/
  | write
  /-- about to keep the tree for testing (713-721) -/
  | keep
  /-- about to compare `treesStarted` with `nTrees` (726-728) -/
  | count
  /-- about to unlock, then to go on or to leave the loop (729-738) -/
  | unlock (again : Bool)
  /-- about to call `waitGroup.Done` (731) -/
  | signal
  /-- finished -/
  | done
  /-- left the loop because boosting returned an infinite weight (685-689) -/
  | stopped
  deriving DecidableEq

/-- A worker: where it is, and its tree object (600) (growforest/growforest.go:591-619). -/
structure Worker where
  pc : Pc
  obj : Nat
  deriving DecidableEq

/-- The state shared by the workers: `treesStarted`, the lock, the trees written (as numbers in the order in which
they were grown), the tree objects kept for testing, which tree each object holds, how many trees have been grown
and objects made, the wait group's counter, whether `treechan` has been closed and whether it was closed twice,
which panics (growforest/growforest.go:580-589). -/
structure Pool where
  started : Nat
  locked : Bool
  written : List Nat
  kept : List Nat
  heap : Nat → Nat
  grown : Nat
  objects : Nat
  waiting : Nat
  closed : Bool
  panicked : Bool
  workers : List Worker

/-- The pool at the start (580-619, 745-749) (growforest/growforest.go:580-619, 745-749). -/
def Pool.start (nCores : Nat) : Pool :=
  ⟨nCores, false, [], [], fun _ => 0, 0, nCores, nCores, false, false,
    (List.range nCores).map fun t => ⟨.grow, t⟩⟩

/-- Worker `t` takes a step (growforest/growforest.go:620-742). `test` is the flag `dotest`; `inf` says whether
boosting returns an infinite weight for the tree just grown (it is false without boosting). `none` if the worker
has finished, waits for the lock, or the program has panicked. -/
def Pool.step (nTrees : Nat) (test : Bool) (s : Pool) (t : Nat) (inf : Bool) : Option Pool :=
  if s.panicked then none else
  match s.workers[t]? with
  | none => none
  | some w =>
    match w.pc with
    | .grow =>
      if inf then
        some { s with closed := true, panicked := s.closed, workers := s.workers.set t ⟨.stopped, w.obj⟩ }
      else
        some { s with
          heap := fun o => if o = w.obj then s.grown else s.heap o
          grown := s.grown + 1
          workers := s.workers.set t ⟨.lock, w.obj⟩ }
    | .lock =>
      if s.locked then none else
        some { s with locked := true, workers := s.workers.set t ⟨.write, w.obj⟩ }
    | .write =>
      some { s with written := s.written ++ [s.heap w.obj], workers := s.workers.set t ⟨.keep, w.obj⟩ }
    | .keep =>
      if test then
        if s.started + 1 < nTrees then
          some { s with
            kept := s.kept ++ [w.obj]
            objects := s.objects + 1
            workers := s.workers.set t ⟨.count, s.objects⟩ }
        else some { s with kept := s.kept ++ [w.obj], workers := s.workers.set t ⟨.count, w.obj⟩ }
      else some { s with workers := s.workers.set t ⟨.count, w.obj⟩ }
    | .count =>
      if s.started < nTrees then
        some { s with started := s.started + 1, workers := s.workers.set t ⟨.unlock true, w.obj⟩ }
      else some { s with workers := s.workers.set t ⟨.unlock false, w.obj⟩ }
    | .unlock again =>
      some { s with
        locked := false, workers := s.workers.set t ⟨if again then .grow else .signal, w.obj⟩ }
    | .signal =>
      some { s with waiting := s.waiting - 1, workers := s.workers.set t ⟨.done, w.obj⟩ }
    | .done => none
    | .stopped => none

/-- A schedule: which worker takes a step, and whether boosting then returns an infinite weight
(growforest/growforest.go:745-754). -/
def Pool.run (nTrees : Nat) (test : Bool) (s : Pool) (sched : List (Nat × Bool)) : Option Pool :=
  sched.foldlM (fun s e => s.step nTrees test e.1 e.2) s

/-- All workers have left their loop (growforest/growforest.go:731, 754). -/
def Pool.Finished (s : Pool) : Prop := ∀ w ∈ s.workers, w.pc = .done

end CloudForest
