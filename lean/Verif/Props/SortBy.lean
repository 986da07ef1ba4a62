import Verif.Lemmas.SortBy3

/-!
# C05: SortBy sorts cases and values together
-/

set_option linter.unusedSectionVars false

namespace CloudForest
open SortBy
variable {K : Type} [LinearOrder K]

/-- C05. For all slices with at least as many values as cases (NaN included), `SortBy` returns
without an index out of range; the (case, value) pairs are rearranged as pairs; lengths and the
values beyond the cases are unchanged; and if no value belonging to a case is NaN the values of
the cases end up ascending. -/
theorem c05_sortBy (cases : List Nat) (vals : List (XF K)) (hlen : cases.length ≤ vals.length) :
    ∃ cases' vals', sortBy ⟨cases, vals⟩ = some ⟨cases', vals'⟩ ∧
      cases'.length = cases.length ∧ vals'.length = vals.length ∧
      (cases'.zip vals').Perm (cases.zip vals) ∧
      vals'.drop cases.length = vals.drop cases.length ∧
      ((∀ v ∈ vals.take cases.length, v ≠ .nan) →
        (vals'.take cases.length).Pairwise (· ≤ ·)) := by
  obtain ⟨s', h, w, hp⟩ := quickSort_spec (2 * bitLen cases.length) 0 cases.length
    (⟨cases, vals⟩ : SV K) hlen (le_refl _) (Nat.zero_le _)
  have hl := w.lens
  refine ⟨s'.cs, s'.vs, h, hl.1, hl.2, w.zip_perm hlen, ?_, ?_⟩
  · apply List.ext_getElem?
    intro k
    rw [List.getElem?_drop, List.getElem?_drop]
    exact (w.outside _ (Or.inr (by omega))).2
  · intro hnn
    have hnn' : NN (⟨cases, vals⟩ : SV K) 0 cases.length := by
      intro k _ hk
      have hk' : k < vals.length := by omega
      rw [val_eq (s := ⟨cases, vals⟩) (List.getElem?_eq_getElem hk')]
      apply hnn
      rw [List.mem_iff_getElem]
      exact ⟨k, by simp; omega, by simp⟩
    have hasc := hp hnn'
    rw [List.pairwise_iff_getElem]
    intro i j hi hj hij
    simp only [List.length_take] at hi hj
    have := hasc i j (Nat.zero_le _) hij (by omega)
    rw [val_eq (List.getElem?_eq_getElem (by omega)),
      val_eq (List.getElem?_eq_getElem (by omega))] at this
    simpa using this

/-- Fewer values than cases panic as soon as there are two cases: the length hypothesis is
needed. -/
theorem c05_short_vals_panics : sortBy (⟨[0, 1], [.fin 1]⟩ : SV ℕ) = none := by decide +kernel

/-- The hypotheses of C05 on eleven cases in reverse order with a tie and one spare value. -/
example :
    let vals : List (XF ℕ) := [.fin 9, .fin 8, .pinf, .fin 7, .fin 6, .fin 5, .fin 4, .fin 4,
      .ninf, .fin 2, .fin 1, .fin 0]
    (List.range 11).length ≤ vals.length ∧ (∀ v ∈ vals.take 11, v ≠ .nan) ∧
      (sortBy ⟨List.range 11, vals⟩).map (fun s => s.vs) =
        some [.ninf, .fin 1, .fin 2, .fin 4, .fin 4, .fin 5, .fin 6, .fin 7, .fin 8, .fin 9,
          .pinf, .fin 0] := by
  decide +kernel

end CloudForest
