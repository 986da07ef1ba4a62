import Verif.Model.Leafcount
import Verif.Model.Commands

/-!
# leafcount with its threads (leafcount/leafcount.go:14-148)

A goroutine hands out the files over an unbuffered channel, `threads` goroutines each take a file, make the calls for it,
report it over another unbuffered channel, and take the next; `main` waits for as many reports as there are files.
-/

namespace CloudForest
variable {K : Type} [Field K] [LinearOrder K] [IsStrictOrderedRing K]

/-- A call of one of the two counters (leafcount.go:74-79, tree.go:340-361): two cases in a leaf, or a case and a feature. -/
inductive LeafCall where
  | pair (a b : Nat)
  | feature (c f : Nat)
  deriving DecidableEq

/-- The cases of a call of `counts.Add` (leafcount.go:79). -/
def LeafCall.pair? : LeafCall → Option (Nat × Nat)
  | .pair a b => some (a, b)
  | _ => none

/-- The case and the feature of a call of `caseFeatureCounts.Add` (leafcount.go:74). -/
def LeafCall.feature? : LeafCall → Option (Nat × Nat)
  | .feature c f => some (c, f)
  | _ => none

/-- The calls for one tree (leafcount.go:74-83): `GetLeaves` counts features, then the pairs of each leaf are counted. -/
def treeJob (fm : FeatureMatrix K) (t : Tree K) : Option (List LeafCall) := do
  let r ← treeCalls fm t
  some (r.2.map (fun p => .feature p.1 p.2) ++ r.1.map fun p => .pair p.1 p.2)

/-- The calls for a forest (leafcount.go:72-83). -/
def forestJob (fm : FeatureMatrix K) : List (Tree K) → Option (List LeafCall)
  | [] => some []
  | t :: ts => do
    let a ← treeJob fm t
    let b ← forestJob fm ts
    some (a ++ b)

/-- The calls for a file (leafcount.go:60-109). Simplified: a file that cannot be read ends the program when a thread gets to it;
here there is no run then. -/
def fileJob (nt : NumText K) (fm : FeatureMatrix K) (text : Text) : Option (List LeafCall) := do
  let read ← readForest nt text
  match read.err with
  | .ok => do
    let forest ← read.forest
    forestJob fm forest.trees
  | _ => none

/-- Where the program is (leafcount.go:45-118): files that are not handed out, the threads, waiting (`none`) or with the calls
they still have to make, the number of reports `main` has received, and the calls made. -/
structure LeafPool where
  waiting : List (List LeafCall)
  workers : List (Option (List LeafCall))
  reports : Nat
  made : List LeafCall

/-- The start (leafcount.go:20, 41-56). A number of threads below zero starts none. -/
def LeafPool.start (threads : Int) (jobs : List (List LeafCall)) : LeafPool := ⟨jobs, .replicate threads.toNat none, 0, []⟩

/-- A step: a thread takes a file (leafcount.go:48-50, 58), makes a call (leafcount.go:74-79, one critical section as in
`counterSection`), or reports (leafcount.go:110, 116-118). `none` if it cannot. -/
inductive LeafStep where
  | take (w : Nat)
  | call (w : Nat)
  | report (w : Nat)

/-- Carrying a step out (leafcount.go:45-118). -/
def LeafPool.step (s : LeafPool) : LeafStep → Option LeafPool
  | .take w =>
    match s.waiting, s.workers[w]? with
    | job :: rest, some none => some { s with waiting := rest, workers := s.workers.set w (some job) }
    | _, _ => none
  | .call w =>
    match s.workers[w]? with
    | some (some (c :: cs)) => some { s with workers := s.workers.set w (some cs), made := s.made ++ [c] }
    | _ => none
  | .report w =>
    match s.workers[w]? with
    | some (some []) => some { s with workers := s.workers.set w none, reports := s.reports + 1 }
    | _ => none

/-- A schedule (leafcount.go:45-118). -/
def LeafPool.run (s : LeafPool) (sched : List LeafStep) : Option LeafPool := sched.foldlM LeafPool.step s

/-- leafcount (leafcount.go:14-148) up to the order of lines: the two tables it writes, if under the schedule `main` has got its
reports. Panics without features (leafcount.go:33). The splits file is in Model/Leafcount. -/
def leafcountCommand (nt : NumText K) (threads : Int) (data : Text) (files : List Text) (sched : List LeafStep) :
    Option (List ((Nat × Nat) × Int) × List ((Nat × Nat) × Int)) := do
  let fm ← parseAFM nt data
  let _ ← fm.data[0]?
  let jobs ← files.mapM (fileJob nt fm)
  let s ← (LeafPool.start threads jobs).run sched
  if s.reports = files.length then
    some (sparseCount (s.made.filterMap LeafCall.pair?), sparseCount (s.made.filterMap LeafCall.feature?))
  else none

end CloudForest
