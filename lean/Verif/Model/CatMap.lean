/-!
# Category numbering (catmap.go)
-/

namespace CloudForest

/-- `CatMap` (catmap.go:13-16). The Go map is a partial function; `Back` is a list. -/
structure CatMap where
  map : String → Option Nat
  back : List String

namespace CatMap

/-- A freshly made CatMap (e.g. featurematrix.go:466-467, catballotbox.go:27-31). -/
def empty : CatMap := ⟨fun _ => none, []⟩

/-- `CatMap.CatToNum` (catmap.go:21-30): the known number, or the next free one, which is
then recorded in both directions. Returns the number and the updated map. -/
def catToNum (cm : CatMap) (value : String) : Nat × CatMap :=
  match cm.map value with
  | some n => (n, cm)
  | none =>
    let n := cm.back.length
    (n, ⟨fun s => if s = value then some n else cm.map s, cm.back ++ [value]⟩)

/-- `CatMap.NumToCat` (catmap.go:33-35). Panics (`none`) out of range. -/
def numToCat (cm : CatMap) (i : Nat) : Option String := cm.back[i]?

/-- `CatMap.NCats` (catmap.go:38-45). -/
def nCats (cm : CatMap) : Nat := cm.back.length

end CatMap
end CloudForest
