import Verif.Model.Ballot

/-!
# Goroutines sharing ballot boxes, running means and counters
(utils.go:20-93, catballotbox.go:8-49, numballotbox.go:27-33, sumballotbox.go:8-50)

A goroutine is a list of instructions: locking and unlocking a mutex, and reading or writing shared
memory together with its local variables. The scheduler picks a goroutine, which executes one
instruction. Boxes are numbered by all natural numbers: voting for a case outside the box, a panic, is
left out. Simplified: instructions are atomic and take effect in the order of the schedule (what
Go's memory model promises for programs without data races; it promises less for others).
-/

namespace CloudForest

/-- An instruction on shared memory `M` and local variables `R`: a `sync.Mutex` of index `c` is locked or unlocked,
or memory and variables change (utils.go:35-46, catballotbox.go:43-48, sumballotbox.go:46-48). -/
inductive Instr (M R : Type) where
  | lock (c : Nat)
  | unlock (c : Nat)
  | act (f : M → R → M × R)

/-- A goroutine: what it has still to do and its local variables (growforest/growforest.go:745-749). -/
structure Thread (M R : Type) where
  code : List (Instr M R)
  regs : R

/-- Shared memory, the mutexes that are locked, and the goroutines (growforest/growforest.go:580-589, 745-749). -/
structure Sys (M R : Type) where
  mem : M
  held : Nat → Bool
  threads : List (Thread M R)

namespace Sys
variable {M R : Type}

/-- Goroutine `t` executes its next instruction; `none` if it has none, or waits for a mutex, or unlocks a mutex
that is not locked (a run-time error in Go) (utils.go:35-46, catballotbox.go:43-48, sumballotbox.go:46-48). -/
def step (s : Sys M R) (t : Nat) : Option (Sys M R) :=
  match s.threads[t]? with
  | none => none
  | some ⟨[], _⟩ => none
  | some ⟨.lock c :: code, r⟩ =>
    if s.held c then none else
      some ⟨s.mem, fun d => if d = c then true else s.held d, s.threads.set t ⟨code, r⟩⟩
  | some ⟨.unlock c :: code, r⟩ =>
    if s.held c then
      some ⟨s.mem, fun d => if d = c then false else s.held d, s.threads.set t ⟨code, r⟩⟩
    else none
  | some ⟨.act f :: code, r⟩ =>
    let p := f s.mem r
    some ⟨p.1, s.held, s.threads.set t ⟨code, p.2⟩⟩

/-- Executing a schedule (growforest/growforest.go:745-749). -/
def run (s : Sys M R) (sched : List Nat) : Option (Sys M R) := sched.foldlM step s

/-- All goroutines have finished (growforest/growforest.go:731). -/
def Finished (s : Sys M R) : Prop := ∀ th ∈ s.threads, th.code = []

end Sys

variable {K : Type} [Field K] [LinearOrder K] [IsStrictOrderedRing K]

/-- Shared memory: one box per case, and whatever else is shared (utils.go:21-25, catballotbox.go:9-12, 22-25,
sumballotbox.go:25-28). -/
structure Mem (C σ : Type) where
  shared : C
  box : Nat → σ

/-- Changing the box of case `c` (utils.go:36-37, catballotbox.go:44-47, sumballotbox.go:47). -/
def onBox {C σ R : Type} (c : Nat) (f : σ → R → σ × R) (m : Mem C σ) (r : R) : Mem C σ × R :=
  let p := f (m.box c) r
  (⟨m.shared, fun d => if d = c then p.1 else m.box d⟩, p.2)

/-- What a goroutine does to add one vote: accesses without lock, then accesses to the box of a case under the
mutex of that box (utils.go:33-48, catballotbox.go:40-49, sumballotbox.go:42-50). -/
structure Section (C σ R : Type) where
  pre : List (Mem C σ → R → Mem C σ × R)
  cell : Nat
  body : List (σ → R → σ × R)

/-- Its instructions (utils.go:33-48, catballotbox.go:40-49, sumballotbox.go:42-50). -/
def Section.code {C σ R : Type} (s : Section C σ R) : List (Instr (Mem C σ) R) :=
  s.pre.map .act ++ .lock s.cell :: ((s.body.map fun f => .act (onBox s.cell f)) ++ [.unlock s.cell])

/-- The local variables of `WeightedAdd`: the mean and the count read (utils.go:36-37). -/
abbrev MeanRegs (K : Type) := XF K × XF K

/-- The critical section of `RunningMean.WeightedAdd` (utils.go:36-38): read `Mean`, read `Count`,
write `Mean`, read `Count`, write `Count`. -/
def meanSection (c : Nat) (val weight : XF K) : Section Unit (RunningMean K) (MeanRegs K) where
  pre := []
  cell := c
  body :=
    [fun m r => (m, (m.mean, r.2)),
     fun m r => (m, (r.1, m.count)),
     fun m r => ({ m with mean := (r.1 * r.2 + weight * val) / (r.2 + weight) }, r),
     fun m r => (m, (r.1, m.count)),
     fun m r => ({ m with count := r.2 + weight }, r)]

/-- `NumBallotBox.Vote` (numballotbox.go:27-33) as instructions. -/
def numVoteCode (parse : String → Option (XF K)) (b : Ballot K) :
    List (Section Unit (RunningMean K) (MeanRegs K)) :=
  match parse b.pred with
  | none => []
  | some v => if v.isNaN = false ∧ b.weight.isNaN = false then [meanSection b.case v b.weight] else []

/-- The critical section of `SumBallotBox.Vote` (sumballotbox.go:46-48): read the sum, write it. -/
def sumSection (c : Nat) (val weight : XF K) : Section Unit (XF K) (XF K) where
  pre := []
  cell := c
  body := [fun m _ => (m, m), fun _ r => (r + val * weight, r)]

/-- `SumBallotBox.Vote` (sumballotbox.go:42-50) as instructions. -/
def sumVoteCode (parse : String → Option (XF K)) (b : Ballot K) : List (Section Unit (XF K) (XF K)) :=
  match parse b.pred with
  | none => []
  | some v => [sumSection b.case v b.weight]

/-- The map of a `SparseCounter` (utils.go:72-75); `none` is nil or an absent entry. -/
abbrev CounterMap := Option (Int → Option (Int → Option Int))

/-- Reading entry `i`, `j`; zero if absent (utils.go:88-91). -/
def CounterMap.get (m : CounterMap) (i j : Int) : Int :=
  (((m.bind fun rows => rows i).bind fun row => row j)).getD 0

/-- Writing entry `i`, `j` of a map that has row `i` (utils.go:91). -/
def CounterMap.put (m : CounterMap) (i j v : Int) : CounterMap :=
  m.map fun rows i' => if i' = i then
    (rows i).map fun row => fun j' => if j' = j then some v else row j' else rows i'

/-- `SparseCounter.Add` (utils.go:78-93) as a critical section of the counter's only mutex: make the
map, make the row, make the entry, read the entry, write it. -/
def counterSection (i j val : Int) : Section Unit CounterMap Int where
  pre := []
  cell := 0
  body :=
    [fun m r => (some (m.getD fun _ => none), r),
     fun m r => (m.map fun rows i' => if i' = i then some ((rows i).getD fun _ => none) else rows i', r),
     fun m r => (m.put i j (m.get i j), r),
     fun m _ => (m, m.get i j),
     fun m r => (m.put i j (r + val), r)]

/-- Local variables of `CatBallotBox.Vote`: the number of the category, whether it existed, and the slice `Back`
read before appending (catballotbox.go:40-49, catmap.go:21-30). -/
structure CatRegs where
  n : Nat
  found : Bool
  back : List String

/-- `CatBallotBox.Vote` (catballotbox.go:41-49). `CatToNum` (catmap.go:22-30) takes no lock: it looks
the category up, reads the length of `Back`, writes the map, reads `Back` and writes it extended;
the last four only if the category was not found. The vote itself is counted under the lock of the
case (one access here, as it touches nothing else). -/
def catSection (b : Ballot K) : Section CatMap (List (Nat × XF K)) CatRegs where
  pre :=
    [fun m r => (m, match m.shared.map b.pred with
      | some n => { r with n := n, found := true }
      | none => { r with n := 0, found := false }),
     fun m r => (m, if r.found then r else { r with n := m.shared.back.length }),
     fun m r => (if r.found then m else
      { m with shared := { m.shared with
        map := fun s => if s = b.pred then some r.n else m.shared.map s } }, r),
     fun m r => (m, if r.found then r else { r with back := m.shared.back }),
     fun m r => (if r.found then m else
      { m with shared := { m.shared with back := r.back ++ [b.pred] } }, r)]
  cell := b.case
  body := [fun m r => (addEntry r.n b.weight m, r)]

/-- A system of goroutines adding votes one after the other, all mutexes free (growforest/growforest.go:745-749).
-/
def Sys.ofSections {C σ R : Type} (mem : Mem C σ) (r : R) (progs : List (List (Section C σ R))) :
    Sys (Mem C σ) R :=
  ⟨mem, fun _ => false, progs.map fun p => ⟨p.flatMap Section.code, r⟩⟩

/-- Goroutines voting in a `NumBallotBox` (numballotbox.go:27-33, utils.go:33-48). -/
def numSys (parse : String → Option (XF K)) (votes : List (List (Ballot K))) :
    Sys (Mem Unit (RunningMean K)) (MeanRegs K) :=
  .ofSections ⟨(), fun _ => .new⟩ (.fin 0, .fin 0) (votes.map fun vs => vs.flatMap (numVoteCode parse))

/-- Goroutines voting in a `SumBallotBox` (sumballotbox.go:42-50). -/
def sumSys (parse : String → Option (XF K)) (votes : List (List (Ballot K))) :
    Sys (Mem Unit (XF K)) (XF K) :=
  .ofSections ⟨(), fun _ => .fin 0⟩ (.fin 0) (votes.map fun vs => vs.flatMap (sumVoteCode parse))

/-- Goroutines adding to a `SparseCounter` (utils.go:78-93). -/
def counterSys (adds : List (List (Int × Int × Int))) : Sys (Mem Unit CounterMap) Int :=
  .ofSections ⟨(), fun _ => none⟩ 0 (adds.map fun as => as.map fun a => counterSection a.1 a.2.1 a.2.2)

/-- Goroutines voting in a `CatBallotBox` in state `bb` (catballotbox.go:40-49). -/
def catSys (bb : CatBox K) (votes : List (List (Ballot K))) :
    Sys (Mem CatMap (List (Nat × XF K))) CatRegs :=
  .ofSections ⟨bb.cm, fun i => bb.box.getD i []⟩ ⟨0, false, []⟩
    (votes.map fun vs => vs.map catSection)

end CloudForest
