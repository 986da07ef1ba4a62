import Verif.Model.Sampling
import Verif.Model.Shuffle

/-!
# Fair draws

A uniform random number below `n` takes each of `n` values equally often. Independent uniform numbers below `n`, `n - 1`
and so on take each of the sequences in `drawSeqs` equally often. So an outcome is as likely as the number of sequences
that lead to it says.
-/

namespace CloudForest

/-- The sequences of `k` numbers, the first below `n`, the second below `n - 1` and so on. -/
def drawSeqs : Nat → Nat → List (List Nat)
  | _, 0 => [[]]
  | n, k + 1 => (List.range n).flatMap fun x => (drawSeqs (n - 1) k).map (x :: ·)

/-- A random stream that begins with the given numbers. -/
def streamOf (d : List Nat) : Rng := fun k => d.getD k 0

/-- How many of the sequences of `k` draws, the first out of `n`, lead to the outcome `o`. -/
def ways {α : Type} [DecidableEq α] (n k : Nat) (run : Rng → Option α) (o : α) : Nat :=
  (drawSeqs n k).countP fun d => decide (run (streamOf d) = some o)

end CloudForest
