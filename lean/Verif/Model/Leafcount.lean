import Verif.Model.Tree
import Verif.Model.Sf
import Verif.Model.Concurrent

/-!
# leafcount (leafcount/leafcount.go)

Flags and files are left out: forests are as read. Every thread reads whole forests from a channel and adds its
counts to one `SparseCounter`, whose calls are critical sections (`c27_counter`); so the calls are given as a list.
-/

namespace CloudForest
variable {K : Type} [Field K] [LinearOrder K] [IsStrictOrderedRing K]

/-- The calls `counts.Add(a, b, 1)` for the leaves of one tree (leafcount.go:75-83). -/
def pairCalls (leaves : List (List Nat × String)) : List (Nat × Nat) :=
  leaves.flatMap fun l => l.1.flatMap fun a => l.1.map fun b => (a, b)

/-- The calls for one tree: pairs of cases, and cases with features (leafcount.go:74-83). -/
def treeCalls (fm : FeatureMatrix K) (t : Tree K) : Option (List (Nat × Nat) × List (Nat × Nat)) := do
  let r ← t.getLeaves fm
  some (pairCalls r.1, r.2)

/-- The calls for all trees (leafcount.go:72-83, in the order of one thread). -/
def leafCalls (fm : FeatureMatrix K) : List (Tree K) → Option (List (Nat × Nat) × List (Nat × Nat))
  | [] => some ([], [])
  | t :: ts => do
    let a ← treeCalls fm t
    let b ← leafCalls fm ts
    some (a.1 ++ b.1, a.2 ++ b.2)

/-- `SparseCounter.Add(i, j, val)` (utils.go:78-93). Simplified: the map of maps is one list of entries. -/
def sparseAdd (val : Int) : List ((Nat × Nat) × Int) → Nat × Nat → List ((Nat × Nat) × Int)
  | [], k => [(k, 0 + val)]
  | (k', v) :: m, k => if k' = k then (k', v + val) :: m else (k', v) :: sparseAdd val m k

/-- The counter after some calls (utils.go:78-93). -/
def sparseCount (calls : List (Nat × Nat)) : List ((Nat × Nat) × Int) := calls.foldl (sparseAdd 1) []

/-- `SparseCounter.WriteTsv` (utils.go:97-108): a line for each entry, in whatever order Go iterates over the
map. -/
def WriteTsv (m lines : List ((Nat × Nat) × Int)) : Prop := lines.Perm m

/-- `Node.Climb` (node.go:27-38): the nodes in the order in which they are visited. Children that are nil are not
visited; a nil root, for which `Recurse` has panicked already, is left out. -/
def Node.climb : Node K → List (Node K)
  | .nil => []
  | .mk coded fi l r m pred spl => .mk coded fi l r m pred spl :: (l.climb ++ r.climb ++ m.climb)

/-- The text for a split (leafcount.go:93-103): its threshold, or the categories that go left in the order `keys` in
which Go iterates over them. -/
def describeSplit (nt : NumText K) (keys : Splitter K → List String) (s : Splitter K) : String :=
  if s.numerical then String.ofList (nt.fmt s.value)
  else String.ofList (joinC ',' ((keys s).map String.toList))

/-- `splits[name] = append(splits[name], split)` (leafcount.go:88-104). -/
def appendSplit (name split : String) : List (String × List String) → List (String × List String)
  | [] => [(name, [split])]
  | (n, l) :: m => if n = name then (n, l ++ [split]) :: m else (n, l) :: appendSplit name split m

/-- The splits recorded from all trees by one thread (leafcount.go:85-107). -/
def recordSplits (nt : NumText K) (keys : Splitter K → List String) (trees : List (Tree K)) :
    List (String × List String) :=
  (trees.flatMap fun t => t.root.climb).foldl (fun m n =>
    match n with
    | .mk _ _ _ _ _ _ (some s) => appendSplit s.feature (describeSplit nt keys s) m
    | _ => m) []

/-- Appending a split by one of several threads, as instructions without a lock (leafcount.go:104): read the slice,
write it with the split appended. The box of number `c` is the entry of a feature. -/
def splitCode (c : Nat) (split : String) : List (Instr (Mem Unit (List String)) (List String)) :=
  [.act fun m _ => (m, m.box c), .act fun m r => onBox c (fun _ r => (r ++ [split], r)) m r]

/-- Threads that append splits (leafcount.go:54-118). -/
def splitSys (progs : List (List (Nat × String))) : Sys (Mem Unit (List String)) (List String) :=
  ⟨⟨(), fun _ => []⟩, fun _ => false, progs.map fun p => ⟨p.flatMap fun a => splitCode a.1 a.2, []⟩⟩

end CloudForest
