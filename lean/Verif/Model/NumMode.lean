import Verif.Model.Values

/-!
# The most frequent number (densenumfeature.go:531-549)

`DenseNumFeature.Mode` counts the values in a Go map whose keys are numbers and then goes through the map, in any order. Two keys are the same
if Go's `==` says so, so that every NaN is a key of its own.
-/

namespace CloudForest
variable {K : Type} [Field K] [LinearOrder K] [IsStrictOrderedRing K]

/-- `counts[x] += 1` on a map with numbers as keys (densenumfeature.go:536). -/
def countKey (x : XF K) : List (XF K × Nat) → List (XF K × Nat)
  | [] => [(x, 1)]
  | (k, v) :: es => if k.feq x then (k, v + 1) :: es else (k, v) :: countKey x es

/-- The counts of the known values (densenumfeature.go:533-539). -/
def NumFeature.numCounts (f : NumFeature K) (cases : List Nat) : Option (List (XF K × Nat)) :=
  cases.foldlM (fun acc i => do
    let m ← f.missing[i]?
    if m then some acc else do
      let x ← f.numData[i]?
      some (countKey x acc)) []

/-- The first entry with the largest count, zero if there is none (densenumfeature.go:532, 540-547). -/
def pickMost (es : List (XF K × Nat)) : XF K :=
  (es.foldl (fun (acc : XF K × Nat) e => if acc.2 < e.2 then e else acc) (.fin 0, 0)).1

/-- `DenseNumFeature.Mode` may return `m` (densenumfeature.go:532-549): the entries of the map come in any order. -/
def NumFeature.ModeMayBe (f : NumFeature K) (cases : List Nat) (m : XF K) : Prop :=
  ∃ counts es, f.numCounts cases = some counts ∧ es.Perm counts ∧ m = pickMost es

/-- `FilterMissing` of either kind of feature (densenumfeature.go:378-385, densecatfeature.go:929-936): `missing` is the list of marks of the
feature. The result is the slice `filtered` afterwards. -/
def filterMissing (missing : List Bool) (cases filtered : List Nat) : Option (List Nat) :=
  cases.foldlM (fun acc c => do
    let m ← missing[c]?
    some (if m then acc else acc ++ [c])) filtered

end CloudForest
