import Verif.Model.Values

/-!
# Features in memory: slices, shared arrays and copies
(densecatfeature.go:1194-1212, densenumfeature.go:640-655, catmap.go:14-30)

Elsewhere in this model a feature is a value. Here it is what it is in Go: a struct of slices that
point into arrays, and of a pointer to a hash map, so that two features can share memory.
-/

namespace CloudForest
variable {K : Type} [Field K] [LinearOrder K] [IsStrictOrderedRing K]

/-- A Go slice that starts at the front of its array: the address of the array and a length (the fields of
densenumfeature.go:12-17 and densecatfeature.go:17-24). The capacity is the length of the array. -/
structure Slice where
  addr : Nat
  len : Nat
deriving DecidableEq

/-- Memory: arrays of each element type by address, hash maps by address (the fields of densenumfeature.go:12-17,
densecatfeature.go:17-24 and catmap.go:13-16). Addresses from `next` on are free. -/
structure HeapMem (K : Type) where
  flts : Nat → List (XF K)
  ints : Nat → List Nat
  bools : Nat → List Bool
  strs : Nat → List String
  maps : Nat → String → Option Nat
  next : Nat

/-- An array written over (densenumfeature.go:47, densecatfeature.go:153). -/
def arrSet {α : Type} (s : Nat → α) (a : Nat) (l : α) : Nat → α := fun b => if b = a then l else s b

/-- The elements of a slice (densenumfeature.go:12-17, densecatfeature.go:17-24). -/
def Slice.view {α : Type} (s : Nat → List α) (sl : Slice) : List α := (s sl.addr).take sl.len

/-- The assignment `sl[i] = x` (densenumfeature.go:40-49, densecatfeature.go:145-154). Panics out of range. -/
def Slice.write {α : Type} (s : Nat → List α) (sl : Slice) (i : Nat) (x : α) :
    Option (Nat → List α) :=
  if i < sl.len then some (arrSet s sl.addr ((s sl.addr).set i x)) else none

/-- A loop that assigns to every element of a slice (densenumfeature.go:593-608, densecatfeature.go:1146-1161).
Simplified: the assignments of a loop such as that of `Shuffle` are made at once. -/
def Slice.fill {α : Type} (s : Nat → List α) (sl : Slice) (l : List α) : Nat → List α :=
  arrSet s sl.addr (l ++ (s sl.addr).drop sl.len)

/-- `append(sl, x)`: in place while there is capacity, which writes to the array behind the slice, else to a new
array at `next` (densenumfeature.go:25-31, densecatfeature.go:90-96). `grow` gives the extra capacity of new
arrays, `zero` fills it. -/
def Slice.append {α : Type} (grow : Nat → Nat) (zero : α) (s : Nat → List α) (next : Nat)
    (sl : Slice) (x : α) : (Nat → List α) × Nat × Slice :=
  if sl.len < (s sl.addr).length then
    (arrSet s sl.addr ((s sl.addr).set sl.len x), next, ⟨sl.addr, sl.len + 1⟩)
  else
    (arrSet s next (sl.view s ++ x :: List.replicate (grow sl.len) zero), next + 1,
      ⟨next, sl.len + 1⟩)

/-- `make([]T, n)` and `copy` into it from `sl` (densecatfeature.go:1202-1208,
densenumfeature.go:645-652). -/
def Slice.clone {α : Type} (zero : α) (s : Nat → List α) (next : Nat) (sl : Slice) (n : Nat) :
    (Nat → List α) × Nat × Slice :=
  (arrSet s next ((sl.view s).take n ++ List.replicate (n - sl.len) zero), next + 1, ⟨next, n⟩)

/-! ## Numerical features -/

/-- `DenseNumFeature` (densenumfeature.go:13-18). -/
structure NumObj where
  data : Slice
  missing : Slice
  name : String
  hasMissing : Bool

/-- What a numerical feature shows of itself (densenumfeature.go:12-17). -/
def NumObj.view (m : HeapMem K) (o : NumObj) : NumFeature K :=
  ⟨o.data.view m.flts, o.missing.view m.bools, o.name, o.hasMissing⟩

/-- `DenseNumFeature.Copy` (densenumfeature.go:641-655). -/
def NumObj.copy (m : HeapMem K) (o : NumObj) : HeapMem K × NumObj :=
  let cap := o.missing.len
  let (bools, next, miss) := o.missing.clone false m.bools m.next cap
  let (flts, next, data) := o.data.clone (.fin 0) m.flts next cap
  ({ m with bools := bools, flts := flts, next := next }, ⟨data, miss, o.name, false⟩)

/-- `Put` (densenumfeature.go:96-99). -/
def NumObj.put (m : HeapMem K) (o : NumObj) (i : Nat) (x : XF K) : Option (HeapMem K × NumObj) := do
  let flts ← o.data.write m.flts i x
  let bools ← o.missing.write m.bools i false
  some ({ m with flts := flts, bools := bools }, o)

/-- `PutMissing` (densenumfeature.go:77-80). -/
def NumObj.putMissing (m : HeapMem K) (o : NumObj) (i : Nat) : Option (HeapMem K × NumObj) := do
  let bools ← o.missing.write m.bools i true
  some ({ m with bools := bools }, { o with hasMissing := true })

/-- The two appends of `Append` (densenumfeature.go:25-31). -/
def NumObj.append (grow : Nat → Nat) (m : HeapMem K) (o : NumObj) (x : XF K) (b : Bool) :
    HeapMem K × NumObj :=
  let (flts, next, data) := o.data.append grow (.fin 0) m.flts m.next x
  let (bools, next, miss) := o.missing.append grow false m.bools next b
  ({ m with flts := flts, bools := bools, next := next },
    { o with data := data, missing := miss, hasMissing := o.hasMissing || b })

/-- The changes to a numerical feature, in memory (densenumfeature.go, lines at the pure
functions). Those of `ImputeMissing` and `Shuffle` are computed as for values. -/
def NumObj.exec (nt : NumText K) (grow : Nat → Nat) (m : HeapMem K) (o : NumObj) :
    FeatureOp K → Option (HeapMem K × NumObj)
  | .append v =>
    match nt.parse v.toList with
    | none => some (o.append grow m (.fin 0) true)
    | some x => some (o.append grow m x false)
  | .puti _ _ => none
  | .put i x => o.put m i x
  | .putStr i v =>
    match nt.parse v.toList with
    | none => o.putMissing m i
    | some x => o.put m i x
  | .putMissing i => o.putMissing m i
  | .impute => do
    let f ← (o.view m).imputeMissing
    some ({ m with flts := o.data.fill m.flts f.numData, bools := o.missing.fill m.bools f.missing },
      { o with hasMissing := false })
  | .shuffle rng => do
    let (miss, data, _) ← shuffleAllLoop o.missing.len (o.view m).missing (o.view m).numData rng 0
    some ({ m with flts := o.data.fill m.flts data, bools := o.missing.fill m.bools miss }, o)

/-! ## Categorical features -/

/-- `DenseCatFeature` with its `CatMap` (densecatfeature.go:17-24, catmap.go:14-17). `map` is the
address of the hash map. -/
structure CatObj where
  map : Nat
  back : Slice
  data : Slice
  missing : Slice
  name : String
  randomSearch : Bool
  hasMissing : Bool

/-- What a categorical feature shows of itself (densecatfeature.go:17-24). -/
def CatObj.view (m : HeapMem K) (o : CatObj) : CatFeature :=
  ⟨⟨m.maps o.map, o.back.view m.strs⟩, o.data.view m.ints, o.missing.view m.bools, o.name,
    o.randomSearch, o.hasMissing⟩

/-- `DenseCatFeature.Copy` (densecatfeature.go:1194-1212): the values get new arrays, but the new
`CatMap` is made of the hash map and the slice `Back` of the original. -/
def CatObj.copy (m : HeapMem K) (o : CatObj) : HeapMem K × CatObj :=
  let cap := o.missing.len
  let (bools, next, miss) := o.missing.clone false m.bools m.next cap
  let (ints, next, data) := o.data.clone 0 m.ints next cap
  ({ m with bools := bools, ints := ints, next := next },
    ⟨o.map, o.back, data, miss, o.name, o.randomSearch, o.hasMissing⟩)

/-- `CatToNum` (catmap.go:21-30). -/
def CatObj.catToNum (grow : Nat → Nat) (m : HeapMem K) (o : CatObj) (v : String) :
    Nat × HeapMem K × CatObj :=
  match m.maps o.map v with
  | some n => (n, m, o)
  | none =>
    let n := o.back.len
    let maps := arrSet m.maps o.map fun s => if s = v then some n else m.maps o.map s
    let (strs, next, back) := o.back.append grow "" m.strs m.next v
    (n, { m with maps := maps, strs := strs, next := next }, { o with back := back })

/-- `Puti` (densecatfeature.go:131-134). -/
def CatObj.puti (m : HeapMem K) (o : CatObj) (i v : Nat) : Option (HeapMem K × CatObj) := do
  let ints ← o.data.write m.ints i v
  let bools ← o.missing.write m.bools i false
  some ({ m with ints := ints, bools := bools }, o)

/-- `PutMissing` (densecatfeature.go:120-123). -/
def CatObj.putMissing (m : HeapMem K) (o : CatObj) (i : Nat) : Option (HeapMem K × CatObj) := do
  let bools ← o.missing.write m.bools i true
  some ({ m with bools := bools }, { o with hasMissing := true })

/-- The two appends of `Append` (densecatfeature.go:90-92, 95-96). -/
def CatObj.append (grow : Nat → Nat) (m : HeapMem K) (o : CatObj) (x : Nat) (b : Bool) :
    HeapMem K × CatObj :=
  let (ints, next, data) := o.data.append grow 0 m.ints m.next x
  let (bools, next, miss) := o.missing.append grow false m.bools next b
  ({ m with ints := ints, bools := bools, next := next },
    { o with data := data, missing := miss, hasMissing := o.hasMissing || b })

/-- The changes to a categorical feature, in memory (densecatfeature.go, lines at the pure
functions). Those of `ImputeMissing` and `Shuffle` are computed as for values. -/
def CatObj.exec (grow : Nat → Nat) (m : HeapMem K) (o : CatObj) :
    FeatureOp K → Option (HeapMem K × CatObj)
  | .append v =>
    if isMissingToken v then some (o.append grow m 0 true)
    else
      let (n, m, o) := o.catToNum grow m v
      some (o.append grow m n false)
  | .puti i v => o.puti m i v
  | .put _ _ => none
  | .putStr i v => do
    let (m, o) ← (if isMissingToken v then o.putMissing m i else some (m, o) :
      Option (HeapMem K × CatObj))
    let (n, m, o) := o.catToNum grow m v
    o.puti m i n
  | .putMissing i => o.putMissing m i
  | .impute => do
    let f ← (o.view m).imputeMissing
    some ({ m with ints := o.data.fill m.ints f.catData, bools := o.missing.fill m.bools f.missing },
      { o with hasMissing := false })
  | .shuffle rng => do
    let (miss, data, _) ← shuffleAllLoop o.missing.len (o.view m).missing (o.view m).catData rng 0
    some ({ m with ints := o.data.fill m.ints data, bools := o.missing.fill m.bools miss }, o)

/-! ## Two features changed in turn -/

/-- A program that changes two features; `true` marks the changes to the first (densenumfeature.go:40-49, 593-608,
densecatfeature.go:145-154, 1146-1161). -/
def runPair {O : Type} (exec : HeapMem K → O → FeatureOp K → Option (HeapMem K × O)) :
    List (Bool × FeatureOp K) → HeapMem K → O → O → Option (HeapMem K × O × O)
  | [], m, a, b => some (m, a, b)
  | (true, op) :: ops, m, a, b => do
    let (m, a) ← exec m a op
    runPair exec ops m a b
  | (false, op) :: ops, m, a, b => do
    let (m, b) ← exec m b op
    runPair exec ops m a b

/-- The first column of `DenseCatFeature.EncodeToNum` for a feature of at most two categories
(densecatfeature.go:28-39): a new array of values, but the missing marks of the original. -/
def CatObj.encode (m : HeapMem K) (o : CatObj) : HeapMem K × NumObj :=
  ({ m with flts := arrSet m.flts m.next ((o.data.view m.ints).map fun v => XF.ofNat v),
            next := m.next + 1 },
    ⟨⟨m.next, o.missing.len⟩, o.missing, o.name, o.hasMissing⟩)

end CloudForest
