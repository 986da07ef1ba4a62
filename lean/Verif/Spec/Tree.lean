import Verif.Model.Tree
import Verif.Spec.Feature

/-!
# Where a single case goes

Specification of routing, one case at a time; no case lists, no rearrangement.
-/

namespace CloudForest
variable {K : Type} [Field K] [LinearOrder K] [IsStrictOrderedRing K]

/-- The three ways out of a node. -/
inductive Dir where
  | L | R | M
  deriving DecidableEq, Repr

/-- The way one case takes at a node that splits: by `IsMissing`, then by the code if the node
has one, else by `GoesLeft` of the splitter. `none`: the node does not split (or the feature
cannot be consulted). -/
def caseDir (fm : FeatureMatrix K) (coded : Option (Coded K)) (fi : Nat)
    (spl : Option (Splitter K)) (c : Nat) : Option Dir :=
  match coded, spl with
  | some code, _ =>
    match fm.data[fi]? with
    | none => none
    | some f =>
      match f.isMissing c, f.codedLeft code c with
      | some true, _ => some .M
      | some false, some true => some .L
      | some false, some false => some .R
      | _, _ => none
  | none, some s =>
    match fm.featureOf s with
    | none => none
    | some f =>
      match f.isMissing c, f.goesLeft c s with
      | some true, _ => some .M
      | some false, some true => some .L
      | some false, some false => some .R
      | _, _ => none
  | none, none => none

/-- Does a node with these fields split its cases at all? -/
def splits (coded : Option (Coded K)) (spl : Option (Splitter K)) : Bool :=
  coded.isSome || spl.isSome

/-- The leaf a case reaches from a node: the path taken and the prediction found there.
`none`: the case is missing at a node without a missing branch and goes nowhere. -/
def landing (fm : FeatureMatrix K) : Node K → Nat → Option (List Dir × String)
  | .nil, _ => none
  | .mk coded fi l r m pred spl, c =>
    if splits coded spl then
      match caseDir fm coded fi spl c with
      | some .L => (landing fm l c).map fun x => (.L :: x.1, x.2)
      | some .R => (landing fm r c).map fun x => (.R :: x.1, x.2)
      | some .M => (landing fm m c).map fun x => (.M :: x.1, x.2)
      | none => none
    else some ([], pred)

/-- A tree that can be used on the given cases: nodes that split have a left and a right child
and a feature in which the cases exist (with a code of the right type), nodes that do not
split have no left or right child. -/
def Usable (fm : FeatureMatrix K) (cases : List Nat) : Node K → Prop
  | .nil => False
  | .mk coded fi l r m _ spl =>
    match coded, spl with
    | some code, _ => (∃ f, fm.data[fi]? = some f ∧ f.CodeFits code ∧ f.MissingSound ∧
          ∀ c ∈ cases, f.ValidCase c) ∧
        Usable fm cases l ∧ Usable fm cases r ∧ (m = .nil ∨ Usable fm cases m)
    | none, some s => (∃ f, fm.featureOf s = some f ∧ f.MissingSound ∧
          ∀ c ∈ cases, f.ValidCase c) ∧
        Usable fm cases l ∧ Usable fm cases r ∧ (m = .nil ∨ Usable fm cases m)
    | none, none => l = .nil ∧ r = .nil

/-- All leaves of a tree with their paths, left to right. -/
def leavesOf : Node K → List (List Dir × String)
  | .nil => []
  | .mk coded _ l r m pred spl =>
    if splits coded spl then
      (leavesOf l).map (fun x => (.L :: x.1, x.2)) ++
      (leavesOf r).map (fun x => (.R :: x.1, x.2)) ++
      (leavesOf m).map (fun x => (.M :: x.1, x.2))
    else [([], pred)]

/-- Longest path from the node, counted in edges, following only branches that are reached. -/
def height : Node K → Nat
  | .nil => 0
  | .mk coded _ l r m _ spl =>
    if splits coded spl then
      1 + max (height l) (max (height r) (height m))
    else 0

/-- The child of a node in a direction. -/
def Node.child : Node K → Dir → Node K
  | .nil, _ => .nil
  | .mk _ _ l _ _ _ _, .L => l
  | .mk _ _ _ r _ _ _, .R => r
  | .mk _ _ _ _ m _ _, .M => m

/-- The node at the end of a path (`nil` if there is none). -/
def subtreeAt : Node K → List Dir → Node K
  | n, [] => n
  | n, d :: p => subtreeAt (n.child d) p

/-- Does a case, walking down by itself, follow the given path? -/
def reaches (fm : FeatureMatrix K) : Node K → List Dir → Nat → Bool
  | .nil, _, _ => false
  | .mk _ _ _ _ _ _ _, [], _ => true
  | .mk coded fi l r m pred spl, d :: p, c =>
    caseDir fm coded fi spl c == some d &&
      reaches fm (Node.child (.mk coded fi l r m pred spl) d) p c

/-- Every coded node of the tree carries the splitter its code decodes to, in a feature the
matrix finds by name (as `Grow` leaves them, tree.go:150-152). -/
def CodesDecoded (fm : FeatureMatrix K) : Node K → Prop
  | .nil => True
  | .mk coded fi l r m _ spl =>
    (∀ code, coded = some code → ∃ f s, fm.data[fi]? = some f ∧ spl = some s ∧ f.CatWF ∧
      f.decodeSplit code = some s ∧ fm.featureOf s = some f) ∧
    CodesDecoded fm l ∧ CodesDecoded fm r ∧ CodesDecoded fm m

end CloudForest
