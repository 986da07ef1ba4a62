import Verif.Lemmas.SortCost
import Verif.Props.SortBy

/-!
# C138: the sort takes n log n steps and log n open calls
-/

set_option linter.unusedSectionVars false

namespace CloudForest
namespace SortBy
variable {K : Type} [LinearOrder K]

/-- **C138.** Sorting n cases by values of any kind, equal values, infinities and NaN among them, takes at most
32·n·(⌊log₂ n⌋ + 1) comparisons of values and exchanges of places. At most ⌊log₂ n⌋ calls of `quickSort` are open at the
same time besides the first. The counting sort makes the slices of `SortBy`. -/
theorem c138_steps (cases : List Nat) (vals : List (XF K)) (hlen : cases.length ≤ vals.length) :
    ∃ s' calls steps, sortBy ⟨cases, vals⟩ = some s' ∧ sortByT ⟨cases, vals⟩ = some ((s', calls), steps) ∧
      steps ≤ 32 * cases.length * (Nat.log 2 cases.length + 1) ∧ calls ≤ Nat.log 2 cases.length := by
  have hL : cases.length < 2 ^ (Nat.log 2 cases.length + 1) := Nat.lt_pow_succ_log_self (by omega) _
  obtain ⟨s', o, h, -, ⟨k, hk, g⟩, ho⟩ := quickSort_gives cases.length (Nat.log 2 cases.length) hL (2 * bitLen cases.length) 0
    cases.length ⟨cases, vals⟩ hlen (le_refl _) (Nat.zero_le _) (by omega)
  refine ⟨s', o, k, h, g, ?_, ?_⟩
  · by_cases hn : cases.length = 0
    · rw [hn] at hk ⊢
      simpa using hk
    · rw [bitLen_log hn, Nat.sub_zero] at hk
      refine hk.trans ?_
      have : cases.length * Nat.log 2 cases.length + cases.length = cases.length * (Nat.log 2 cases.length + 1) := by ring
      calc 10 * cases.length * (2 * (Nat.log 2 cases.length + 1)) + (6 * Nat.log 2 cases.length + 12) * cases.length
          = 26 * (cases.length * Nat.log 2 cases.length) + 32 * cases.length := by ring
        _ ≤ 32 * (cases.length * Nat.log 2 cases.length) + 32 * cases.length := by omega
        _ = _ := by ring
  · by_cases hn : cases.length = 0
    · rw [hn] at ho ⊢
      by_contra hlt
      have : 2 ^ 1 ≤ 2 ^ o := Nat.pow_le_pow_right (by omega) (by simp at hlt; omega)
      omega
    · refine (Nat.le_log_iff_pow_le (by omega) hn).2 ?_
      omega

/-- **C138.** The depth from which the sort changes to heap sort is 2·⌈log₂ (n + 1)⌉, as its comment says. -/
theorem c138_depth (s : SV K) : sortBy s = quickSort s 0 s.cs.length (2 * Nat.clog 2 (s.cs.length + 1)) := by
  rw [sortBy, bitLen_eq]

/-- Forty-eight cases, some of their values NaN. -/
def exHard : SV ℕ := ⟨List.range 48, (List.range 48).map fun i => if i % 7 = 3 then .nan else .fin (i * 29 % 31)⟩

example : exHard.cs.length ≤ exHard.vs.length := by decide +kernel

/-- It takes 363 steps and two open calls to sort them, 591 by heap sort alone; the bounds are 9216 and 5. -/
example : ((sortByT exHard).map fun r => (r.1.2, r.2)) = some (2, 363) ∧
    ((heapSortT exHard 0 48).map fun r => r.2) = some 591 := by
  refine ⟨?_, by decide +kernel⟩
  have h : bitLen 48 = 6 := by simp [bitLen]
  have e : sortByT exHard = quickSortT exHard 0 48 (2 * 6) := by rw [← h]; rfl
  rw [e]
  decide +kernel

end SortBy
end CloudForest
