import Verif.Lemmas.Pool

/-!
# Properties C30 and C53: the worker pool of growforest
-/

namespace CloudForest

/-- **C30, the number of trees.** With `nCores ≥ 1` workers and boosting that does not stop, under
every schedule: as long as some worker has not finished some worker can take a step (no deadlock);
the number of steps is bounded, so the pool finishes; when it has finished the wait group is
released and exactly `max nTrees nCores` different trees have been written. -/
theorem c30_count (nCores nTrees : Nat) (hn : 1 ≤ nCores) (test : Bool)
    (sched : List (Nat × Bool)) (hb : ∀ e ∈ sched, e.2 = false) (s : Pool)
    (hs : (Pool.start nCores).run nTrees test sched = some s) :
    (¬ s.Finished → ∃ t s', s.step nTrees test t false = some s') ∧
    sched.length ≤ 7 * nCores + 6 * (max nTrees nCores - nCores) ∧
    (s.Finished → s.written.length = max nTrees nCores ∧ s.written.Nodup ∧ s.waiting = 0) := by
  obtain ⟨h, hm⟩ := (PoolInv.start nTrees nCores).run hb hs
  refine ⟨h.progress test, ?_, fun hf => ?_⟩
  · rw [Pool.start_measure] at hm; omega
  · obtain ⟨-, h1, h2⟩ := h.finished hn hf
    exact ⟨h1, h.nodup, h2⟩

/-- **C30 does not hold of the code for the trees kept for testing.** With `-test` and more trees
than workers, *every* schedule keeps some tree object twice: a worker asks for a new object while
`treesStarted < nTrees-1`, but goes on to grow another tree while `treesStarted < nTrees`. The tree
it overwrites is lost to the test. -/
theorem c30_duplicate (nCores nTrees : Nat) (hn : 1 ≤ nCores) (hlt : nCores < nTrees)
    (sched : List (Nat × Bool)) (hb : ∀ e ∈ sched, e.2 = false) (s : Pool)
    (hs : (Pool.start nCores).run nTrees true sched = some s) (hf : s.Finished) :
    ¬ s.kept.Nodup := by
  obtain ⟨h, -⟩ := (PoolInv.start nTrees nCores).run hb hs
  have hd := DupInv.run (PoolInv.start nTrees nCores) (DupInv.start hlt) hb hs
  obtain ⟨h1, -, -⟩ := h.finished hn hf
  rcases hd.dup (by rw [h1]; exact le_max_left _ _) with hd | ⟨t, w, hw, -, hk⟩
  · exact hd
  · have := hf w (List.mem_of_getElem? hw)
    rw [this] at hk; cases hk

/-- **C30, partial.** If there are no more trees than workers, the trees kept for testing are the
trees written, in the same order and each once. -/
theorem c30_kept_partial (nCores nTrees : Nat) (hle : nTrees ≤ nCores)
    (sched : List (Nat × Bool)) (hb : ∀ e ∈ sched, e.2 = false) (s : Pool)
    (hs : (Pool.start nCores).run nTrees true sched = some s) (hf : s.Finished) :
    s.kept.map s.heap = s.written ∧ s.kept.Nodup := by
  obtain ⟨h, -⟩ := (PoolInv.start nTrees nCores).run hb hs
  have ho := OnceInv.run hle (PoolInv.start nTrees nCores) (OnceInv.start nCores) hb hs
  have e : s.kept.map s.heap = s.written := by
    rcases ho.same with ⟨t, w, hw, hk, -⟩ | ⟨-, e⟩
    · have := hf w (List.mem_of_getElem? hw)
      rw [this] at hk; cases hk
    · exact e.symm
  refine ⟨e, List.Nodup.of_map s.heap ?_⟩
  rw [e]; exact h.nodup

/-- **C53 does not hold of the code.** Once boosting has stopped a worker, the wait group is never
released, whatever the others do: with more than one worker growforest does not end. Once it has
stopped two workers the channel has been closed twice and the program has panicked. -/
theorem c53_hangs (nCores nTrees : Nat) (test : Bool) (sched : List (Nat × Bool)) (s : Pool)
    (hs : (Pool.start nCores).run nTrees test sched = some s) :
    (∀ w ∈ s.workers, w.pc = .stopped → s.waiting ≠ 0) ∧
    (∀ (t t' : Nat) w w', t ≠ t' → s.workers[t]? = some w → s.workers[t']? = some w' →
      w.pc = .stopped → w'.pc = .stopped → s.panicked = true) := by
  have h := (StopInv.start nCores).run hs
  constructor
  · intro w hw hpc
    obtain ⟨t, ht⟩ := List.mem_iff_getElem?.1 hw
    have h1 := le_sum_of_getElem? (fun w : Worker => w.pc.alive) s.workers t w ht
    have h2 : w.pc.alive = 1 := by rw [hpc]; rfl
    rw [h.wait]
    omega
  · intro t t' w w' htt ht ht' hpc hpc'
    have h1 : w.pc.halted + w'.pc.halted ≤ (s.workers.map fun w => w.pc.halted).sum := by
      rcases Nat.lt_or_gt_of_ne htt with hlt | hlt
      · exact two_le_sum (fun w : Worker => w.pc.halted) s.workers t t' w w' hlt ht ht'
      · rw [Nat.add_comm]
        exact two_le_sum (fun w : Worker => w.pc.halted) s.workers t' t w' w hlt ht' ht
    have h2 : w.pc.halted = 1 := by rw [hpc]; rfl
    have h3 : w'.pc.halted = 1 := by rw [hpc']; rfl
    have h4 := h.stop
    cases hp : s.panicked with
    | true => rfl
    | false =>
      rw [hp] at h4
      have := Bool.toNat_le s.closed
      have : false.toNat = 0 := rfl
      omega

/-- **C53, partial.** If boosting never returns an infinite weight the workers all finish: no state
without a next step has the wait group held. -/
theorem c53_partial (nCores nTrees : Nat) (hn : 1 ≤ nCores) (test : Bool)
    (sched : List (Nat × Bool)) (hb : ∀ e ∈ sched, e.2 = false) (s : Pool)
    (hs : (Pool.start nCores).run nTrees test sched = some s)
    (hend : ∀ t, s.step nTrees test t false = none) : s.waiting = 0 := by
  obtain ⟨h1, -, h3⟩ := c30_count nCores nTrees hn test sched hb s hs
  by_cases hf : s.Finished
  · exact (h3 hf).2.2
  · obtain ⟨t, s', h⟩ := h1 hf
    rw [hend t] at h; cases h

/-! ## Examples -/

/-- Two workers take turns, a whole tree at a time. -/
def exTurn (t : Nat) : List (Nat × Bool) := List.replicate 6 (t, false)

/-- What can be seen of a pool. -/
def Pool.view (s : Pool) : List Nat × List Nat × Nat × List Worker :=
  (s.written, s.kept, s.waiting, s.workers)

/-- Two workers, three trees: worker 1 grows one tree and leaves last; object 0 is kept twice. -/
def exPoolSched : List (Nat × Bool) :=
  exTurn 0 ++ [(1, false)] ++ exTurn 0 ++ [(0, false)] ++ List.replicate 6 (1, false)

example : ((Pool.start 2).run 3 true exPoolSched).map Pool.view =
    some ([0, 2, 1], [0, 0, 1], 0, [⟨.done, 0⟩, ⟨.done, 1⟩]) := by decide +kernel

example : ∀ e ∈ exPoolSched, e.2 = false := by decide +kernel

/-- The tree kept at first has been overwritten: the test sees trees 2, 2, 1 instead of 0, 2, 1. -/
example : ((Pool.start 2).run 3 true exPoolSched).map (fun s => s.kept.map s.heap) =
    some [2, 2, 1] := by decide +kernel

/-- Interleaved, with two trees. -/
def exPoolSched2 : List (Nat × Bool) :=
  [(0, false), (1, false), (1, false), (1, false), (1, false), (1, false), (1, false),
   (0, false), (1, false), (0, false), (0, false), (0, false), (0, false), (0, false)]

example : ((Pool.start 2).run 2 true exPoolSched2).map (fun s => (s.view, s.kept.map s.heap)) =
    some (([1, 0], [1, 0], 0, [⟨.done, 0⟩, ⟨.done, 1⟩]), [1, 0]) := by decide +kernel

/-- A worker that waits for the lock cannot take a step. -/
example : ((Pool.start 2).run 2 true [(0, false), (1, false), (1, false), (0, false)]).isNone := by
  decide +kernel

/-- Worker 0 is stopped by boosting, worker 1 grows two trees and leaves, nobody can go on, and the wait
group still waits for one. -/
def exHang : List (Nat × Bool) :=
  [(0, true)] ++ exTurn 1 ++ exTurn 1 ++ [(1, false)]

example : ((Pool.start 2).run 3 false exHang).map
    (fun s => (s.view, (s.step 3 false 0 false).isNone, (s.step 3 false 1 false).isNone)) =
    some (([0, 1], [], 1, [⟨.stopped, 0⟩, ⟨.done, 1⟩]), true, true) := by decide +kernel

example : ((Pool.start 2).run 3 false [(0, true), (1, true)]).map (fun s => s.panicked) = some true := by
  decide +kernel

end CloudForest
