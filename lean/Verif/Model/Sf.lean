import Verif.Model.Tree
import Verif.Model.Text

/-!
# Writing and reading forests (forestwriter.go, forestreader.go, tree.go:26-63)
-/

namespace CloudForest
variable {K : Type} [Field K] [LinearOrder K] [IsStrictOrderedRing K]

/-- `Forest` (forrest.go:6-11). -/
structure Forest (K : Type) where
  target : String
  trees : List (Tree K)
  intercept : XF K

/-! ## Writer -/

/-- `ForestWriter.DescribeMap` (forestwriter.go:99-105). `keys` are the keys in the order in which Go
iterates over the map. -/
def describeMap (keys : List String) : Text :=
  '"' :: joinC ':' (keys.map String.toList) ++ ['"']

/-- `ForestWriter.WriteNode` (forestwriter.go:79-96), with the line end of `Fprintln`. `ord` is the
order in which Go iterates over the map of a splitter. -/
def writeNode (nt : NumText K) (ord : Splitter K → List String) (pred : String)
    (spl : Option (Splitter K)) (path : Text) : Text :=
  "NODE=".toList ++ path ++
  (if pred ≠ "" then ",PRED=".toList ++ pred.toList else []) ++
  (match spl with
    | none => []
    | some s =>
      ",SPLITTER=".toList ++ s.feature.toList ++
      if s.numerical then
        ",SPLITTERTYPE=NUMERICAL,LVALUES=".toList ++ nt.fmt s.value ++
          ",RVALUES=".toList ++ nt.fmt s.value
      else ",SPLITTERTYPE=CATEGORICAL,LVALUES=".toList ++ describeMap (ord s)) ++ ['\n']

/-- `ForestWriter.WriteNodeAndChildren` (forestwriter.go:61-74). The third child is written as the code
does it: `n.Right` under the path of `n.Missing` (line 71); if `n.Right` is nil there, or the node
itself is nil, the code panics. -/
def writeNodes (nt : NumText K) (ord : Splitter K → List String) : Node K → Text → Option Text
  | .nil, _ => none
  | .mk _ _ l r m pred spl, path => do
    let l' ← (if spl.isSome && !l.isNil then writeNodes nt ord l (path ++ ['L']) else some [] : Option Text)
    let r' ← (if spl.isSome && !r.isNil then writeNodes nt ord r (path ++ ['R']) else some [] : Option Text)
    let m' ← (if spl.isSome && !m.isNil then writeNodes nt ord r (path ++ ['M']) else some [] : Option Text)
    some (writeNode nt ord pred spl path ++ l' ++ r' ++ m')

/-- `ForestWriter.WriteTreeHeader` (forestwriter.go:42-48). -/
def writeTreeHeader (nt : NumText K) (ntree : Nat) (target : String) (weight : XF K) : Text :=
  "TREE=".toList ++ fmtNat ntree ++ ",TARGET=\"".toList ++ target.toList ++ ['"'] ++
  (if (XF.fin 0 : XF K) ≤ weight then ",WEIGHT=".toList ++ nt.fmt weight else []) ++ ['\n']

/-- `ForestWriter.WriteTree` (forestwriter.go:36-39). -/
def writeTree (nt : NumText K) (ord : Splitter K → List String) (t : Tree K) (ntree : Nat) :
    Option Text := do
  let ns ← writeNodes nt ord t.root ['*']
  some (writeTreeHeader nt ntree t.target t.weight ++ ns)

/-- `ForestWriter.WriteForestHeader` (forestwriter.go:51-57). -/
def writeForestHeader (nt : NumText K) (nforest : Nat) (target : String) (intercept : XF K) : Text :=
  "FOREST=".toList ++ fmtNat nforest ++ ",TARGET=\"".toList ++ target.toList ++ ['"'] ++
  (if ¬ intercept.feq (.fin 0) then ",INTERCEPT=".toList ++ nt.fmt intercept else []) ++ ['\n']

/-- The loop of `WriteForest` (forestwriter.go:30-32), from tree number `i` on. -/
def writeTrees (nt : NumText K) (ord : Splitter K → List String) : List (Tree K) → Nat → Option Text
  | [], _ => some []
  | t :: ts, i => do
    let a ← writeTree nt ord t i
    let b ← writeTrees nt ord ts (i + 1)
    some (a ++ b)

/-- `ForestWriter.WriteForest` (forestwriter.go:26-33). -/
def writeForest (nt : NumText K) (ord : Splitter K → List String) (f : Forest K) : Option Text := do
  let ts ← writeTrees nt ord f.trees 0
  some ((if ¬ f.intercept.feq (.fin 0) then writeForestHeader nt 0 f.target f.intercept else []) ++ ts)

/-! ## Reader -/

/-- One term in `ParseRfAcePredictorLine` (forestreader.go:167-187): the clauses and the terms since
an opening quote. `none`: `clauses[-1]` panics. -/
def parseTerm (st : List Text × List Text) (term : Text) : Option (List Text × List Text) :=
  let term := trimSpace term
  let quotes := term.count '"'
  let st' : Option (List Text × List Text) :=
    if quotes = 1 ∨ 0 < st.2.length then some (st.1, st.2 ++ [term])
    else if term.count '=' = 0 then
      match st.1.getLast? with
      | none => none
      | some c => some (st.1.dropLast ++ [c ++ ',' :: term], st.2)
    else some (st.1 ++ [term], st.2)
  st'.map fun st =>
    if quotes = 1 ∧ 1 < st.2.length then (st.1 ++ [joinC ',' st.2], []) else st

/-- One clause (forestreader.go:191-198): the key and the value. `none`: `vs[1]` panics. -/
def parseClause (clause : Text) : Option (Text × Text) :=
  match (splitC '=' clause).map fun v => trimQuotes (trimSpace v) with
  | k :: v :: _ => some (k, v)
  | _ => none

/-- `ParseRfAcePredictorLine` (forestreader.go:163-201): the entries of the map in the order in which
they are made. -/
def parseSfLine (line : Text) : Option (List (Text × Text)) := do
  let st ← (splitC ',' (trimSpace line)).foldlM parseTerm ([], [])
  st.1.mapM parseClause

/-- `parsed[key]` of a Go map made from these entries: the last one counts (forestreader.go:92-93, 103, 119,
123-133). -/
def getKey (l : List (Text × Text)) (key : String) : Option Text :=
  (l.reverse.find? fun e => e.1 == key.toList).map (·.2)

/-- The keys of a Go map after entering `ks` one by one (forestreader.go:126-129). -/
def mapKeys (ks : List String) : List String :=
  ks.foldl (fun l k => if l.contains k then l else l ++ [k]) []

/-- Is any step of the path a child? (tree.go:39-60). -/
def pathMoves (path : Text) : Bool := path.any fun c => c == 'L' || c == 'R' || c == 'M'

/-- The walk of `Tree.AddNode` (tree.go:39-60) from a node that exists. If a node on the way does not
exist Go makes the new node its own descendant; the result is then not a tree and the model gives
`none`. -/
def Node.insertAt (new : Node K) : Node K → Text → Option (Node K)
  | .nil, _ => none
  | n, [] => some n
  | .mk c fi l r m p s, ch :: path =>
    if ch = 'L' then
      if l.isNil then (if pathMoves path then none else some (.mk c fi new r m p s))
      else (insertAt new l path).map fun l' => .mk c fi l' r m p s
    else if ch = 'R' then
      if r.isNil then (if pathMoves path then none else some (.mk c fi l new m p s))
      else (insertAt new r path).map fun r' => .mk c fi l r' m p s
    else if ch = 'M' then
      if m.isNil then (if pathMoves path then none else some (.mk c fi l r new p s))
      else (insertAt new m path).map fun m' => .mk c fi l r m' p s
    else insertAt new (.mk c fi l r m p s) path

/-- `Tree.AddNode` (tree.go:32-63) on the root of the tree. -/
def Node.addNode (root : Node K) (path : Text) (pred : String) (spl : Option (Splitter K)) :
    Option (Node K) :=
  let new : Node K := .mk none 0 .nil .nil .nil pred spl
  if root.isNil then some new else Node.insertAt new root path

/-- What `ReadTree` has read so far, `tree` and `forest` (forestreader.go:74). `intree` is true
exactly when `tree` is not nil. -/
structure SfState (K : Type) where
  tree : Option (Tree K)
  forest : Option (Forest K)

/-- The splitter of a node line (forestreader.go:112-141). A number that cannot be parsed is logged and
read as 0. Simplified: for a number beyond the range of float64 `ParseFloat` returns an infinity with the error. -/
def readSplitter (nt : NumText K) (parsed : List (Text × Text)) : Option (Splitter K) :=
  match getKey parsed "SPLITTERTYPE" with
  | none => none
  | some stype =>
    let feature := String.ofList ((getKey parsed "SPLITTER").getD [])
    let lvalues := (getKey parsed "LVALUES").getD []
    if stype = "CATEGORICAL".toList then
      some ⟨feature, false, .fin 0, mapKeys ((splitC ':' lvalues).map String.ofList)⟩
    else if stype = "NUMERICAL".toList then
      some ⟨feature, true, (nt.parse lvalues).getD (.fin 0), []⟩
    else some ⟨feature, false, .fin 0, []⟩

/-- The treatment of one line (forestreader.go:89-152). The inner option is `none` for the error "Node
found outside of tree", the outer one for a panic. -/
def readSfLine (nt : NumText K) (st : SfState K) (line : Text) : Option (Option (SfState K)) := do
  let parsed ← parseSfLine line
  if "FOREST".toList.isPrefixOf line then
    let target := String.ofList ((getKey parsed "TARGET").getD [])
    let intercept := match getKey parsed "INTERCEPT" with
      | some i => (nt.parse i).getD (.fin 0)
      | none => .fin 0
    some (some { st with forest := some ⟨target, [], intercept⟩ })
  else if "TREE".toList.isPrefixOf line then
    let target := String.ofList ((getKey parsed "TARGET").getD [])
    let weight := match getKey parsed "WEIGHT" with
      | some w => (nt.parse w).getD (.fin 0)
      | none => .fin (-1)
    some (some { st with tree := some ⟨.nil, target, weight⟩ })
  else if "NODE".toList.isPrefixOf line then
    match st.tree with
    | none => some none
    | some t => do
      let root ← t.root.addNode ((getKey parsed "NODE").getD [])
        (String.ofList ((getKey parsed "PRED").getD [])) (readSplitter nt parsed)
      some (some { st with tree := some { t with root := root } })
  else some (some st)

/-- How a reader ends: without error, at the end of the text, or with another error (forestreader.go:32-87). -/
inductive ReadEnd where
  | ok | eof | bad
  deriving DecidableEq

/-- What `ReadTree` returns, and the text not read yet (forestreader.go:74). -/
structure TreeRead (K : Type) where
  tree : Option (Tree K)
  forest : Option (Forest K)
  err : ReadEnd
  rest : Text

/-- The loop of `ForestReader.ReadTree` (forestreader.go:78-156). -/
def readTreeLoop (nt : NumText K) (st : SfState K) (text : Text) : Option (TreeRead K) :=
  match text with
  | [] => some ⟨st.tree, st.forest, .eof, []⟩
  | c :: cs =>
    if st.tree.isSome && (c == 'T' || c == 'F') then some ⟨st.tree, st.forest, .ok, c :: cs⟩
    else
      match h : readLine (c :: cs) with
      | none => some ⟨st.tree, st.forest, .eof, []⟩
      | some (line, rest) =>
        match readSfLine nt st line with
        | none => none
        | some none => some ⟨st.tree, st.forest, .bad, rest⟩
        | some (some st') => readTreeLoop nt st' rest
termination_by text.length
decreasing_by exact readLine_length h

/-- `ForestReader.ReadTree` (forestreader.go:74-157). -/
def readTree (nt : NumText K) (text : Text) : Option (TreeRead K) := readTreeLoop nt ⟨none, none⟩ text

/-- What `ReadForest` returns, and the text not read yet (forestreader.go:32). -/
structure ForestRead (K : Type) where
  forest : Option (Forest K)
  err : ReadEnd
  rest : Text

/-- The forest after one tree has been read (forestreader.go:51-60). -/
def Forest.withTree (forest : Option (Forest K)) (t : Option (Tree K)) : Option (Forest K) :=
  match t with
  | none => forest
  | some t =>
    match forest with
    | none => some ⟨t.target, [t], .fin 0⟩
    | some f => some { f with trees := f.trees ++ [t] }

/-- The loop of `ForestReader.ReadForest` (forestreader.go:42-68). Every round but the last reads at
least one line, so `fuel` is not a restriction if it exceeds the length of the text. -/
def readForestLoop (nt : NumText K) : Nat → Option (Forest K) → Text → Option (ForestRead K)
  | 0, _, _ => none
  | _ + 1, _, [] => none
  | fuel + 1, forest, c :: cs =>
    if c == 'F' && forest.isSome then some ⟨forest, .ok, c :: cs⟩
    else do
      let r ← readTree nt (c :: cs)
      if forest.isSome && r.forest.isSome then some ⟨forest, .ok, r.rest⟩
      else
        let forest' := Forest.withTree (if forest.isSome then forest else r.forest) r.tree
        match r.err with
        | .eof => some ⟨forest', .ok, r.rest⟩
        | .bad => some ⟨forest', .ok, r.rest⟩
        | .ok => readForestLoop nt fuel forest' r.rest

/-- `ForestReader.ReadForest` (forestreader.go:32-69). -/
def readForest (nt : NumText K) (text : Text) : Option (ForestRead K) :=
  match text with
  | [] => some ⟨none, .eof, []⟩
  | c :: cs =>
    if c ≠ 'F' ∧ c ≠ 'T' then some ⟨none, .bad, c :: cs⟩
    else readForestLoop nt (text.length + 1) none (c :: cs)

end CloudForest
