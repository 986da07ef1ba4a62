import Verif.Model.Ballot
import Verif.Model.Sf
import Verif.Model.ClassBoost

/-!
# applyforest (applyforest/applyforest.go)

Files and flags are left out: the data and the forest are as read, the reports are values.
-/

namespace CloudForest
variable {K : Type} [Field K] [LinearOrder K] [IsStrictOrderedRing K]

/-- The options `-mean`, `-sum`, `-expit` and `-mode` (applyforest.go:21-28). -/
structure ApplyOptions where
  num : Bool
  sum : Bool
  expit : Bool
  cat : Bool

/-- A `VoteTallyer` (applyforest.go:58): one of the three ballot boxes. -/
inductive Box (K : Type) where
  | sum (bb : SumBox K)
  | num (bb : NumBox K)
  | cat (bb : CatBox K)

/-- The choice of a ballot box (applyforest.go:59-68). -/
def chooseBox (o : ApplyOptions) (target : String) (size : Nat) : Box K :=
  if o.sum then .sum (.new size)
  else if !o.cat && (o.num || ['N'].isPrefixOf target.toList) then .num (.new size)
  else .cat (.new size)

/-- The votes of one tree (applyforest.go:71, tree.go:407-422). -/
def Box.castVotes (nt : NumText K) (bb : Box K) (votes : List (Ballot K)) : Option (Box K) :=
  match bb with
  | .sum bb => (castAll (SumBox.vote fun s => nt.parse s.toList) bb votes).map .sum
  | .num bb => (castAll (NumBox.vote fun s => nt.parse s.toList) bb votes).map .num
  | .cat bb => (castAll CatBox.vote bb votes).map .cat

/-- The ballot box after all trees have voted (applyforest.go:58-72). Panics without features. -/
def applyForest (nt : NumText K) (o : ApplyOptions) (forest : Forest K) (fm : FeatureMatrix K) :
    Option (Box K) := do
  let f ← fm.data[0]?
  forest.trees.foldlM (fun bb t => do
    let votes ← t.vote fm
    bb.castVotes nt votes) (chooseBox o forest.target f.length)

/-- `TallyError` of a box (applyforest.go:77, sumballotbox.go:75-79, numballotbox.go:87-111,
catballotbox.go:89-119) given what `Tally` returned for each case; it panics for a feature of the other kind. -/
def Box.error (bb : Box K) (tally : Nat → Option String) (target : Feature K) : Option (XF K) :=
  match bb, target with
  | .sum _, _ => some (.fin 1)
  | .num bb, .num f => bb.tallyError f
  | .num _, .cat _ => none
  | .cat _, .num _ => none
  | .cat _, .cat f => catTallyError f tally

/-- `Tally` of a box (applyforest.go:103): a possible result, since the order of iteration over the votes for
classes is open. -/
def Box.Tallies (nt : NumText K) (bb : Box K) (i : Nat) (res : Option String) : Prop :=
  match bb with
  | .sum bb => res = bb.tally (fun x => String.ofList (nt.fmt x)) i
  | .num bb => res = bb.tally (fun x => String.ofList (nt.fmt x)) i
  | .cat bb => bb.Tallies i res

/-- The number for case `i` before and after the option `-expit` (applyforest.go:91-99). A box for classes
panics. -/
def Box.number (tanh : XF K → XF K) (o : ApplyOptions) (intercept : XF K) (bb : Box K) (i : Nat) : Option (XF K) := do
  let x ← match bb with
    | .sum bb => bb.tallyNum i
    | .num bb => bb.tallyNum i
    | .cat _ => none
  let x := x + intercept
  some (if o.expit then CloudForest.expit tanh x else x)

/-- The prediction written for case `i` (applyforest.go:83-105). -/
def Box.Predicts (nt : NumText K) (tanh : XF K → XF K) (o : ApplyOptions) (intercept : XF K) (bb : Box K) (i : Nat)
    (res : Option String) : Prop :=
  if o.sum ∨ intercept ≠ .fin 0 then res = (bb.number tanh o intercept i).map fun x => String.ofList (nt.fmt x)
  else bb.Tallies nt i res

/-- Go's lookup in a map of votes; an absent entry is zero (applyforest.go:128-129). -/
def entryOf (m : List (Nat × XF K)) (k : Nat) : XF K :=
  match m.find? (fun e => e.1 == k) with
  | some e => e.2
  | none => .fin 0

/-- The file of vote totals (applyforest.go:110-137): the labels of its columns, and a row for each case. Only a
box for classes has one. -/
def Box.voteTable (bb : Box K) : Option (List String × List (List (XF K))) :=
  match bb with
  | .cat bb => some (bb.cm.back, bb.box.map fun m => (List.range bb.cm.back.length).map (entryOf m))
  | _ => none

end CloudForest
