import Verif.Model.Sf
import Verif.Spec.Text

/-!
# Trees that can be written to a file, and when two trees are the same
-/

namespace CloudForest
variable {K : Type} [Field K] [LinearOrder K] [IsStrictOrderedRing K]

/-- A number whose text avoids the delimiters and can be parsed back. -/
def NumText.Faithful (nt : NumText K) (x : XF K) : Prop :=
  Plain (nt.fmt x) ∧ nt.parse (nt.fmt x) = some x

/-- A splitter as `DecodeSplit` makes it (densecatfeature.go:360-386, densenumfeature.go:211-216), with
names that avoid the delimiters. -/
structure Splitter.Writable (nt : NumText K) (s : Splitter K) : Prop where
  feature : Plain s.feature.toList
  num : s.numerical = true → s.left = [] ∧ nt.Faithful s.value
  cat : s.numerical = false → s.value = .fin 0 ∧ s.left ≠ [] ∧
    ∀ k ∈ s.left, Plain k.toList ∧ ':' ∉ k.toList

/-- A tree that can be written: names avoid the delimiters, nodes without a splitter are leaves, and a
node with a missing branch has a right branch. -/
def Node.Writable (nt : NumText K) : Node K → Prop
  | .nil => True
  | .mk _ _ l r m p s =>
    Plain p.toList ∧ l.Writable nt ∧ r.Writable nt ∧ m.Writable nt ∧ (r.isNil = true → m.isNil = true) ∧
    match s with
    | none => l.isNil = true ∧ r.isNil = true ∧ m.isNil = true
    | some s => s.Writable nt

/-- No node has a missing branch. -/
def Node.NoMissing : Node K → Prop
  | .nil => True
  | .mk _ _ l r m _ _ => m.isNil = true ∧ l.NoMissing ∧ r.NoMissing

/-- The same splitter; `left` is the set of keys of a map. -/
def Splitter.Same (s s' : Splitter K) : Prop :=
  s.feature = s'.feature ∧ s.numerical = s'.numerical ∧ s.value = s'.value ∧
  ∀ k, k ∈ s.left ↔ k ∈ s'.left

/-- The same tree: structure, predictions and splitters. Codes, which are only of use with the matrix
the tree was grown on, are not compared. -/
def Node.Same : Node K → Node K → Prop
  | .nil, .nil => True
  | .mk _ _ l r m p s, .mk _ _ l' r' m' p' s' =>
    p = p' ∧ l.Same l' ∧ r.Same r' ∧ m.Same m' ∧
    match s, s' with
    | none, none => True
    | some s, some s' => s.Same s'
    | _, _ => False
  | _, _ => False

/-- The tree with every missing branch replaced by a copy of the right branch beside it. -/
def Node.missingIsRight : Node K → Node K
  | .nil => .nil
  | .mk c fi l r m p s =>
    .mk c fi l.missingIsRight r.missingIsRight (if m.isNil then .nil else r.missingIsRight) p s

/-- The weight as a file keeps it: `-1`, the mark for "no weight", unless it is at least zero. -/
def fileWeight (w : XF K) : XF K := if (XF.fin 0 : XF K) ≤ w then w else .fin (-1)

/-- A tree with header that can be written. -/
structure Tree.Writable (nt : NumText K) (t : Tree K) : Prop where
  root : t.root.Writable nt
  notNil : t.root.isNil = false
  target : Plain t.target.toList
  weight : (XF.fin 0 : XF K) ≤ t.weight → nt.Faithful t.weight

/-- The same tree with header. -/
def Tree.Same (t t' : Tree K) : Prop :=
  t.root.Same t'.root ∧ t.target = t'.target ∧ t'.weight = fileWeight t.weight

/-- A forest that can be written. -/
structure Forest.Writable (nt : NumText K) (f : Forest K) : Prop where
  trees : ∀ t ∈ f.trees, t.Writable nt ∧ t.root.NoMissing
  target : Plain f.target.toList
  intercept : ¬ f.intercept.feq (.fin 0) → nt.Faithful f.intercept

/-- Read tree by tree: call `ReadTree` until it reports an error or the end; the trees in order. `fuel`
bounds the number of calls. -/
def readAllTrees (nt : NumText K) : Nat → Text → Option (List (Tree K))
  | 0, _ => none
  | fuel + 1, text => do
    let r ← readTree nt text
    match r.err with
    | .ok => (readAllTrees nt fuel r.rest).map fun ts => r.tree.toList ++ ts
    | _ => some r.tree.toList

end CloudForest
