import Verif.Model.SortBy
import Verif.Lemmas.XFOrder
import Verif.Lemmas.Split

/-!
Common swaps: what every step of the sort does to the two slices.
-/

set_option linter.unusedSectionVars false

namespace CloudForest
namespace SortBy
variable {K : Type} [LinearOrder K]

/-- Value at a position (only used within bounds). -/
def val (s : SV K) (k : Nat) : XF K := s.vs.getD k .nan

theorem val_eq {s : SV K} {k : Nat} {x : XF K} (h : s.vs[k]? = some x) : val s k = x := by
  simp [val, List.getD, h]

theorem get_val {s : SV K} {k : Nat} (h : k < s.vs.length) : s.vs[k]? = some (val s k) := by
  simp [val, List.getD, List.getElem?_eq_getElem h]

/-- Enough values for the cases. -/
def Ok (s : SV K) : Prop := s.cs.length ≤ s.vs.length

theorem swap_some {s : SV K} {i j : Nat} (hok : Ok s) (hi : i < s.cs.length)
    (hj : j < s.cs.length) : ∃ s', swap s i j = some s' := by
  unfold Ok at hok
  obtain ⟨c, hc⟩ := swp_isSome hi hj
  obtain ⟨v, hv⟩ := swp_isSome (s := s.vs) (i := i) (j := j) (by omega) (by omega)
  exact ⟨⟨c, v⟩, by simp [swap, hc, hv]⟩

theorem swap_inv {s s' : SV K} {i j : Nat} (h : swap s i j = some s') :
    swp s.cs i j = some s'.cs ∧ swp s.vs i j = some s'.vs := by
  unfold swap at h
  split at h
  · rename_i c v hc hv; cases h; exact ⟨hc, hv⟩
  · cases h

theorem swap_val {s s' : SV K} {i j : Nat} (h : swap s i j = some s') (k : Nat) :
    val s' k = if k = j then val s i else if k = i then val s j else val s k := by
  have := swp_get (swap_inv h).2 k
  unfold val List.getD
  rw [this]
  split
  · rfl
  · split <;> rfl

/-- `s'` comes from `s` by exchanging positions within `[lo, hi)`, in both slices alike. -/
inductive Sw (lo hi : Nat) : SV K → SV K → Prop where
  | refl (s) : Sw lo hi s s
  | step {s s1 s2 i j} : lo ≤ i → i < hi → lo ≤ j → j < hi → swap s i j = some s1 →
      Sw lo hi s1 s2 → Sw lo hi s s2

namespace Sw

theorem trans {lo hi : Nat} {s s1 s2 : SV K} (h1 : Sw lo hi s s1) (h2 : Sw lo hi s1 s2) :
    Sw lo hi s s2 := by
  induction h1 with
  | refl => exact h2
  | step a b c d e _ ih => exact step a b c d e (ih h2)

theorem one {lo hi i j : Nat} {s s1 : SV K} (a : lo ≤ i) (b : i < hi) (c : lo ≤ j) (d : j < hi)
    (h : swap s i j = some s1) : Sw lo hi s s1 := step a b c d h (refl _)

theorem mono {lo hi lo' hi' : Nat} {s s1 : SV K} (h : Sw lo hi s s1) (h1 : lo' ≤ lo)
    (h2 : hi ≤ hi') : Sw lo' hi' s s1 := by
  induction h with
  | refl => exact refl _
  | step a b c d e _ ih => exact step (by omega) (by omega) (by omega) (by omega) e ih

theorem lens {lo hi : Nat} {s s1 : SV K} (h : Sw lo hi s s1) :
    s1.cs.length = s.cs.length ∧ s1.vs.length = s.vs.length := by
  induction h with
  | refl => exact ⟨rfl, rfl⟩
  | step a b c d e _ ih =>
    have := swap_inv e
    rw [ih.1, ih.2, swp_length this.1, swp_length this.2]
    exact ⟨rfl, rfl⟩

theorem ok {lo hi : Nat} {s s1 : SV K} (h : Sw lo hi s s1) (hok : Ok s) : Ok s1 := by
  unfold Ok at *
  rw [h.lens.1, h.lens.2]; exact hok

theorem outside {lo hi : Nat} {s s1 : SV K} (h : Sw lo hi s s1) (k : Nat)
    (hk : k < lo ∨ hi ≤ k) : s1.cs[k]? = s.cs[k]? ∧ s1.vs[k]? = s.vs[k]? := by
  induction h with
  | refl => exact ⟨rfl, rfl⟩
  | step a b c d e _ ih =>
    have := swap_inv e
    rw [ih.1, ih.2, swp_get this.1, swp_get this.2]
    rw [if_neg (by omega), if_neg (by omega), if_neg (by omega), if_neg (by omega)]
    exact ⟨rfl, rfl⟩

theorem outside_val {lo hi : Nat} {s s1 : SV K} (h : Sw lo hi s s1) (k : Nat)
    (hk : k < lo ∨ hi ≤ k) : val s1 k = val s k := by
  unfold val List.getD; rw [(h.outside k hk).2]

theorem all {lo hi : Nat} {s s1 : SV K} (h : Sw lo hi s s1) (P : XF K → Prop)
    (hP : ∀ k, lo ≤ k → k < hi → P (val s k)) : ∀ k, lo ≤ k → k < hi → P (val s1 k) := by
  induction h with
  | refl => exact hP
  | step a b c d e _ ih =>
    apply ih
    intro k h1 h2
    rw [swap_val e]
    split
    · exact hP _ a b
    · split
      · exact hP _ c d
      · exact hP _ h1 h2

/-- The pairs (case, value) of the first `n ≤` positions are rearranged as pairs. -/
theorem zip_perm {lo hi : Nat} {s s1 : SV K} (h : Sw lo hi s s1) (hok : Ok s) :
    (s1.cs.zip s1.vs).Perm (s.cs.zip s.vs) := by
  induction h with
  | refl => exact List.Perm.refl _
  | @step s s1 s2 i j a b c d e h2 ih =>
    have hv := swap_inv e
    refine (ih ((Sw.one a b c d e).ok hok)).trans ?_
    have hlt := swp_lt hv.1
    have hlt2 := swp_lt hv.2
    have hz : swp (s.cs.zip s.vs) i j = some (s1.cs.zip s1.vs) := by
      have h1 := hv.1
      have h2 := hv.2
      unfold swp at h1 h2 ⊢
      rw [dif_pos hlt] at h1
      rw [dif_pos hlt2] at h2
      rw [dif_pos ⟨by simp [List.length_zip]; omega, by simp [List.length_zip]; omega⟩]
      injection h1 with h1
      injection h2 with h2
      rw [← h1, ← h2]
      congr 1
      apply List.ext_getElem
      · simp
      · intro k h1 h2
        simp only [List.getElem_zip, List.getElem_set]
        split_ifs <;> rfl
    exact swp_perm hz

end Sw

theorem swap_sw {lo hi i j : Nat} {s : SV K} (hok : Ok s) (hh : hi ≤ s.cs.length)
    (a : lo ≤ i) (b : i < hi) (c : lo ≤ j) (d : j < hi) :
    ∃ s', swap s i j = some s' ∧ Sw lo hi s s' := by
  obtain ⟨s', hs⟩ := swap_some (i := i) (j := j) hok (by omega) (by omega)
  exact ⟨s', hs, Sw.one a b c d hs⟩

end SortBy
end CloudForest
