/-!
# The choice of target in growforest (growforest/growforest.go:203-206, 405-514, 680-696)
-/

namespace CloudForest

/-- The types of targets, without their contents (growforest.go:405-514). -/
inductive TargetKind
  | num | cat | density | l1 | ordinal | gradBoost | numAda
  | np | regret | dEntropy | adaCost | wrf | entropy | ada | hellinger | gradClass | trans
  deriving DecidableEq, Repr

/-- The options that choose a target: whether they are given (growforest.go:31-45, 69-72, 83-110, 148-155). `gbt` is
`gradboost != 0.0`. -/
structure TargetOptions where
  density : Bool := false
  l1 : Bool := false
  ordinal : Bool := false
  gbt : Bool := false
  adaboost : Bool := false
  np : Bool := false
  costs : Bool := false
  dentropy : Bool := false
  adacost : Bool := false
  rfweights : Bool := false
  entropy : Bool := false
  hellinger : Bool := false
  unlabeled : Bool := false

/-- `switch { case ... }`: the first case that is true (growforest.go:424-432, 437-504). -/
def switchTrue {α : Type} : List (Bool × α) → Option α
  | [] => none
  | (true, a) :: _ => some a
  | (false, _) :: l => switchTrue l

/-- `targetf` as types, the outermost first (growforest.go:405-514). -/
def TargetOptions.targetf (o : TargetOptions) (numeric : Bool) : List TargetKind :=
  if o.density then [if numeric then .num else .cat]
  else if numeric then
    let t := [TargetKind.num]
    let t := if o.l1 then .l1 :: t else t
    let t := if o.ordinal then .ordinal :: t else t
    (switchTrue [(o.gbt, TargetKind.gradBoost), (o.adaboost, .numAda)]).toList ++ t
  else
    let t := (switchTrue [(o.np, TargetKind.np), (o.costs, .regret), (o.dentropy, .dEntropy), (o.adacost, .adaCost),
      (o.rfweights, .wrf), (o.entropy, .entropy), (o.adaboost, .ada), (o.hellinger, .hellinger),
      (o.gbt, .gradClass)]).toList ++ [.cat]
    if o.unlabeled then .trans :: t else t

/-- `target`, which trees are grown with (growforest.go:406-410, 433, 511). -/
def TargetOptions.target (o : TargetOptions) (numeric : Bool) : List TargetKind :=
  if o.density then [.density] else o.targetf numeric

/-- Whether a type implements `BoostingTarget`, that is has a method `Boost` of two arguments itself, or through the
feature embedded in it (featureinterfaces.go:93-96, gradboosttarget.go:44, gradboostclasstarget.go:79). A `Feature` in
a field promotes only the methods of its interface, to which `Boost` does not belong. `AdaBoostTarget`,
`NumAdaBoostTarget` and `AdaCostTarget` have a method `Boost` of one argument (adaboosttarget.go:115,
numadaboostingtarget.go:80, adacosttarget.go:131), which is another method to Go. -/
def TargetKind.implementsBoosting : TargetKind → Bool
  | .gradBoost | .gradClass => true
  | _ => false

/-- Whether a type has any method called `Boost` (adaboosttarget.go:115, adacosttarget.go:131,
numadaboostingtarget.go:80, gradboosttarget.go:44, gradboostclasstarget.go:79). -/
def TargetKind.hasBoost : TargetKind → Bool
  | .gradBoost | .gradClass | .ada | .numAda | .adaCost => true
  | _ => false

/-- Whether a type implements `Feature`. Every target embeds a feature in a field, which promotes its methods, except
`DensityTarget`, whose fields are named (densitytarget.go:11-14). -/
def TargetKind.isFeature : TargetKind → Bool
  | .density => false
  | _ => true

/-- The feature whose methods a type has by embedding. `GradBoostClassTarget` embeds a `GradBoostTarget` of a numerical
feature made from the classes (gradboostclasstarget.go:27, 51). -/
def innermost : List TargetKind → Option TargetKind
  | [] => none
  | .gradClass :: _ => some .num
  | [k] => some k
  | _ :: l => innermost l

/-- What vetting measures shuffled targets by (growforest.go:619, splitallocations.go:69, featurematrix.go:169-171):
`none` if a type assertion panics, `some none` without vetting. The target given to `NewBestSplitAllocs` is `targetf`.
No wrapper declares `Copy`, so that it is the method of the innermost feature, and its result is that kind of feature
alone. -/
def TargetOptions.vetted (o : TargetOptions) (numeric vet : Bool) : Option (Option TargetKind) :=
  match innermost (o.targetf numeric) with
  | none => none
  | some k =>
    if vet then
      match o.target numeric with
      | t :: _ => if t.isFeature then some (some k) else none
      | [] => none
    else some none

/-- `boost` (growforest.go:203). -/
def TargetOptions.boost (o : TargetOptions) : Bool := o.adaboost || o.gbt

/-- What happens after a tree is grown (growforest.go:680-693): `none` if the type assertion panics, otherwise which
type's `Boost` is called, if any. -/
def TargetOptions.afterTree (o : TargetOptions) (numeric : Bool) : Option (Option TargetKind) :=
  if o.boost then
    match o.targetf numeric with
    | k :: _ => if k.implementsBoosting then some (some k) else none
    | [] => none
  else some none

/-- After a tree in `GrowRandomForest` (forrest.go:62-66), which looks at the type only. -/
def afterTreeLibrary (k : TargetKind) : Option TargetKind := if k.implementsBoosting then some k else none

end CloudForest
