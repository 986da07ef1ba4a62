import Verif.Model.Heap

/-!
# Specification for C33: features that share no memory behave as values
-/

namespace CloudForest
variable {K : Type} [Field K] [LinearOrder K] [IsStrictOrderedRing K]

/-- A slice into an allocated array that is long enough. -/
structure Slice.OK {α : Type} (s : Nat → List α) (next : Nat) (sl : Slice) : Prop where
  addr : sl.addr < next
  len : sl.len ≤ (s sl.addr).length

/-- A numerical feature in memory. -/
structure NumObj.OK (m : HeapMem K) (o : NumObj) : Prop where
  data : o.data.OK m.flts m.next
  missing : o.missing.OK m.bools m.next
  lengths : o.data.len = o.missing.len

/-- A categorical feature in memory. -/
structure CatObj.OK (m : HeapMem K) (o : CatObj) : Prop where
  map : o.map < m.next
  back : o.back.OK m.strs m.next
  data : o.data.OK m.ints m.next
  missing : o.missing.OK m.bools m.next
  lengths : o.data.len = o.missing.len

/-- Changes applied to a feature that is a value. -/
def applyAll (nt : NumText K) (f : Feature K) (ops : List (FeatureOp K)) : Option (Feature K) :=
  ops.foldlM (fun f op => f.apply nt op) f

/-- The changes to the first (`true`) or second feature of a program. -/
def changesTo (side : Bool) (prog : List (Bool × FeatureOp K)) : List (FeatureOp K) :=
  (prog.filter fun p => p.1 == side).map (·.2)

/-- A change that adds no category to a feature with categories `g`. -/
def FeatureOp.Known (g : String → Option Nat) : FeatureOp K → Prop
  | .append v => isMissingToken v = true ∨ (g v).isSome
  | .putStr _ v => (g v).isSome
  | _ => True

end CloudForest
