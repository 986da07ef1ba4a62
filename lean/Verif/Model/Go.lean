/-!
# Slices

Go slices are lists; an index out of range is `none`, the model of a panic.
-/

namespace CloudForest

/-- The three-line exchange idiom `t = s[i]; s[i] = s[j]; s[j] = t`
(e.g. splitter.go:44-46, sampeling.go:124-126, sortby/sortby.go:27-30). Panics out of range. -/
def swp {α : Type} (s : List α) (i j : Nat) : Option (List α) :=
  if h : i < s.length ∧ j < s.length then
    some ((s.set i s[j]).set j s[i])
  else none

theorem swp_length {α : Type} {s s' : List α} {i j : Nat} (h : swp s i j = some s') :
    s'.length = s.length := by
  unfold swp at h
  split at h
  · cases h; simp
  · cases h

theorem swp_lt {α : Type} {s s' : List α} {i j : Nat} (h : swp s i j = some s') :
    i < s.length ∧ j < s.length := by
  unfold swp at h
  split at h
  · assumption
  · cases h

/-- Go's `s[i] = x` (e.g. splitter.go:44-46, densecatfeature.go:153). Panics out of range. -/
def wr {α : Type} (s : List α) (i : Nat) (x : α) : Option (List α) :=
  if i < s.length then some (s.set i x) else none

end CloudForest
