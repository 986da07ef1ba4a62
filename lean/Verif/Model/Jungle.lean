import Verif.Model.Splitter

/-!
# Growing a jungle: level by level, joining nodes (tree.go:178-334)

Nodes that have been joined have two parents, so nodes are not values here but have an address:
their position in the list of all nodes made.
-/

namespace CloudForest
variable {K : Type} [Field K] [LinearOrder K] [IsStrictOrderedRing K] {σ : Type}

/-- `Node` in memory (node.go:16-24). The children are addresses, `none` is nil. -/
structure JNode (K : Type) where
  coded : Option (Coded K)
  featurei : Nat
  left : Option Nat
  right : Option Nat
  missing : Option Nat
  pred : String
  splitter : Option (Splitter K)

/-- `new(Node)` (tree.go:242, 246, 250). -/
def JNode.fresh : JNode K := ⟨none, 0, none, none, none, "", none⟩

/-- `nodeAndCases` (tree.go:5-12); `node` and `parent` are addresses. -/
structure JEntry where
  node : Nat
  start : Nat
  stop : Nat
  nconstants : Nat
  parent : Option Nat
  dead : Bool
  deriving DecidableEq

/-- The variables of `GrowJungle` (tree.go:195-202): the nodes in memory, the slice `nodes`, the slice `cases` and
what the split search keeps. -/
structure Jungle (K : Type) (σ : Type) where
  arena : List (JNode K)
  entries : List JEntry
  cases : List Nat
  st : σ

/-- The slice `cs[a:b]` (tree.go:217, 294-295, 298). Panics out of range. Simplified: Go allows `b` up to the capacity. -/
def sliceOf (cs : List Nat) (a b : Nat) : Option (List Nat) :=
  if a ≤ b ∧ b ≤ cs.length then some ((cs.take b).drop a) else none

/-- The slice `cs` after its part from `a` on has been rearranged to `xs` by a callee (tree.go:222, 239). -/
def writeBack (cs : List Nat) (a : Nat) (xs : List Nat) : List Nat :=
  cs.take a ++ xs ++ cs.drop (a + xs.length)

/-- The end of a leaf (tree.go:261-266). -/
def Jungle.leaf (g : Grower K σ) (s : Jungle K σ) (e : JEntry) (n : JNode K) (cs : List Nat) (st : σ) :
    Jungle K σ :=
  { s with
    arena := s.arena.set e.node { n with coded := none, splitter := none, pred := g.findPredicted cs }
    cases := writeBack s.cases e.start cs
    st := st }

/-- The nodes and entries a split makes (tree.go:232-254). -/
def Jungle.branch (g : Grower K σ) (s : Jungle K σ) (e : JEntry) (n : JNode K) (code : Coded K)
    (spl : Splitter K) (fi nc : Nat) (cs : List Nat) (li ri : Nat) (st : σ) : Jungle K σ :=
  let k := s.arena.length
  { arena :=
      s.arena.set e.node ⟨some code, fi, some k, some (k + 1),
        if g.splitmissing then some (k + 2) else n.missing, "", some spl⟩ ++
      (.fresh :: .fresh :: if g.splitmissing then [.fresh] else [])
    entries :=
      s.entries ++
      (⟨k, e.start, e.start + li, nc, some e.node, false⟩ ::
       ⟨k + 1, e.start + ri, e.stop, nc, some e.node, false⟩ ::
       if g.splitmissing = true ∧ li ≠ ri then
         [⟨k + 2, e.start + li, e.start + ri, nc, some e.node, false⟩] else [])
    cases := writeBack s.cases e.start cs
    st := st }

/-- Extending the node of one entry (tree.go:209-266). Importance and depthUsed bookkeeping is not part of this
function. -/
def Jungle.expand (g : Grower K σ) (fm : FeatureMatrix K) (depth : Nat) (s : Jungle K σ) (i : Nat) :
    Option (Jungle K σ) := do
  let e ← s.entries[i]?
  if e.dead then some s
  else do
    let cs ← sliceOf s.cases e.start e.stop
    let n ← s.arena[e.node]?
    if ((depth : Int) < g.maxDepth ∨ g.maxDepth ≤ 0) ∧ 2 * g.leafSize ≤ cs.length then do
      let (st, res) ← g.best s.st cs e.nconstants
      match res.split with
      | none => some (s.leaf g e n res.cases st)
      | some code => do
        let f ← fm.data[res.fi]?
        let spl ← f.decodeSplit code
        let (cs', li, ri) ← f.splitPoints code res.cases
        some (s.branch g e n code spl res.fi res.nconstants cs' li ri st)
    else some (s.leaf g e n cs s.st)

/-- Extending the nodes of one level (tree.go:206-268), with `k` entries to go from entry `i` on. -/
def Jungle.level (g : Grower K σ) (fm : FeatureMatrix K) (depth : Nat) : Nat → Nat → Jungle K σ → Option (Jungle K σ)
  | 0, _, s => some s
  | k + 1, i, s => do
    let s ← s.expand g fm depth i
    Jungle.level g fm depth k (i + 1) s

/-- What joining two nodes gains: `SplitImpurity` of the two minus `Impurity` of both together (tree.go:294-299). -/
abbrev Merger (K : Type) (σ : Type) := σ → List Nat → List Nat → List Nat → Option (XF K × σ)

/-- `Merger` of a target (tree.go:294-299). -/
def targetMerger (T : Target K) : Merger K (SplitState K) := fun st l r u => do
  let (q, a) ← T.splitImpurity st.allocs l r none
  let (p, a) ← T.impurity a u
  some (q - p, { st with allocs := a })

/-- The search for the best node to join to `ei` among the entries listed (tree.go:282-307): the best gain so far and
its entry. -/
def Jungle.partner (gain : Merger K σ) (s : Jungle K σ) (ei : JEntry) :
    List Nat → σ → XF K → Option Nat → Option (Option Nat × σ)
  | [], st, _, c => some (c, st)
  | j :: js, st, mx, c => do
    let ej ← s.entries[j]?
    if ej.dead then Jungle.partner gain s ei js st mx c
    else if ei.stop = ej.start ∧ ei.parent ≠ ej.parent then do
      let l ← sliceOf s.cases ei.start ei.stop
      let r ← sliceOf s.cases ej.start ej.stop
      let u ← sliceOf s.cases ei.start ej.stop
      let (x, st) ← gain st l r u
      if mx < x then Jungle.partner gain s ei js st x (some j)
      else Jungle.partner gain s ei js st mx c
    else Jungle.partner gain s ei js st mx c

/-- Replacing a child of the parent (tree.go:315-322). -/
def JNode.replace (n : JNode K) (old new : Nat) : JNode K :=
  if n.left = some old then { n with left := some new }
  else if n.right = some old then { n with right := some new }
  else if n.missing = some old then { n with missing := some new }
  else n

/-- Joining entry `j` to `ei` (tree.go:309-322). The assignment `nodei.end = nj.end` is to a copy and has no effect.
Panics if `j` has no parent. -/
def Jungle.join (s : Jungle K σ) (ei : JEntry) (j : Nat) : Option (Jungle K σ) := do
  let ej ← s.entries[j]?
  let p ← ej.parent
  let n ← s.arena[p]?
  some { s with
    entries := s.entries.set j { ej with dead := true }
    arena := s.arena.set p (n.replace ej.node ei.node) }

/-- One pass over the entries of the next level (tree.go:278-326); the result says whether anything changed. -/
def Jungle.pass (gain : Merger K σ) (first : Nat) :
    List Nat → Jungle K σ → Bool → Option (Jungle K σ × Bool)
  | [], s, b => some (s, b)
  | i :: is, s, b => do
    let ei ← s.entries[i]?
    if ei.dead then Jungle.pass gain first is s b
    else do
      let (c, st) ← s.partner gain ei (List.range' first (s.entries.length - first)) s.st (.fin 0) none
      match c with
      | none => Jungle.pass gain first is { s with st := st } b
      | some j => do
        let s ← Jungle.join { s with st := st } ei j
        Jungle.pass gain first is s true

/-- Passes until nothing changes (tree.go:275-327). Out of fuel is `none`. -/
def Jungle.combine (gain : Merger K σ) (first : Nat) : Nat → Jungle K σ → Option (Jungle K σ)
  | 0, _ => none
  | fuel + 1, s => do
    let (s, b) ← s.pass gain first (List.range' first (s.entries.length - first)) false
    if b then Jungle.combine gain first fuel s else some s

/-- The loop over the levels (tree.go:204-332); `first` is `firstThisLevel`. Out of fuel is `none`. -/
def Jungle.levels (g : Grower K σ) (gain : Merger K σ) (fm : FeatureMatrix K) :
    Nat → Nat → Nat → Jungle K σ → Option (Jungle K σ)
  | 0, _, _, _ => none
  | fuel + 1, first, depth, s => do
    let last := s.entries.length
    let s ← s.level g fm depth (last - first) first
    if s.entries.length = last then some s
    else do
      let s ← s.combine gain last (s.entries.length + 1)
      Jungle.levels g gain fm fuel last (depth + 1) s

/-- `Tree.GrowJungle` on a new tree (tree.go:178-334). -/
def growJungle (g : Grower K σ) (gain : Merger K σ) (fm : FeatureMatrix K) (fuel : Nat) (st : σ) (cases : List Nat) :
    Option (Jungle K σ) :=
  Jungle.levels g gain fm fuel 0 0 ⟨[.fresh], [⟨0, 0, cases.length, 0, none, false⟩], cases, st⟩

/-- The node at an address with all that can be reached from it, as a value: what `Recurse` sees (node.go:53-70).
Paths longer than `fuel` are cut off; no path is longer than the number of nodes. -/
def unfoldNode : Nat → List (JNode K) → Nat → Node K
  | 0, _, _ => .nil
  | fuel + 1, A, i =>
    match A[i]? with
    | none => .nil
    | some n =>
      .mk n.coded n.featurei (n.left.elim .nil (unfoldNode fuel A)) (n.right.elim .nil (unfoldNode fuel A))
        (n.missing.elim .nil (unfoldNode fuel A)) n.pred n.splitter

/-- The tree of a jungle (tree.go:178, 197). -/
def Jungle.root (s : Jungle K σ) : Node K := unfoldNode s.arena.length s.arena 0

end CloudForest
