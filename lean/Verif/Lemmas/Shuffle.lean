import Verif.Model.Shuffle
import Verif.Lemmas.Split
import Mathlib.Logic.Equiv.Basic
import Mathlib.Algebra.Group.End

/-! # Lemmas about shuffling -/

set_option linter.unusedSectionVars false

namespace CloudForest
variable {K : Type} [Field K] [LinearOrder K] [IsStrictOrderedRing K]

theorem swp_swap {α : Type} {s s' : List α} {i j : Nat} (h : swp s i j = some s') (k : Nat) :
    s'[k]? = s[Equiv.swap i j k]? := by
  rw [swp_get h, Equiv.swap_apply_def]
  split_ifs <;> simp_all

theorem shuffleLoop_ok {α : Type} (cases : List Nat) (n : Nat) (hn : ∀ c ∈ cases, c < n) :
    ∀ (k j : Nat), k = cases.length - j → ∀ (miss : List Bool) (data : List α) (rng : Rng),
      miss.length = n → data.length = n →
      ∃ miss' data' rng' π, shuffleLoop cases miss data rng j = some (miss', data', rng') ∧
        miss'.length = n ∧ data'.length = n ∧
        (∀ c, c ∉ cases → π c = c) ∧
        (∀ c, miss'[c]? = miss[(π : Equiv.Perm Nat) c]? ∧ data'[c]? = data[π c]?) := by
  intro k
  induction k with
  | zero =>
    intro j hk miss data rng hm hd
    unfold shuffleLoop
    rw [if_neg (by omega)]
    exact ⟨miss, data, rng, 1, rfl, hm, hd, fun _ _ => rfl, fun _ => ⟨rfl, rfl⟩⟩
  | succ k ih =>
    intro j hk miss data rng hm hd
    unfold shuffleLoop
    rw [if_pos (by omega), Rng.intn, if_neg (by omega)]
    simp only
    have hx : rng 0 % (cases.length - j) < cases.length - j := Nat.mod_lt _ (by omega)
    obtain ⟨x, hx0⟩ : ∃ x, x = rng 0 % (cases.length - j) := ⟨_, rfl⟩
    rw [← hx0] at hx ⊢
    have hj : j < cases.length := by omega
    have hjx : j + x < cases.length := by omega
    rw [List.getElem?_eq_getElem hj, List.getElem?_eq_getElem hjx]
    simp only
    have ht := hn _ (List.getElem_mem hj)
    have hs := hn _ (List.getElem_mem hjx)
    obtain ⟨m1, e1⟩ := swp_isSome (s := miss) (i := cases[j]) (j := cases[j + x]) (by omega) (by omega)
    obtain ⟨d1, e2⟩ := swp_isSome (s := data) (i := cases[j]) (j := cases[j + x]) (by omega) (by omega)
    rw [e1, e2]
    simp only
    obtain ⟨m2, d2, r2, π, e3, h1, h2, h3, h4⟩ := ih (j + 1) (by omega) m1 d1 (fun k => rng (k + 1))
      ((swp_length e1).trans hm) ((swp_length e2).trans hd)
    refine ⟨m2, d2, r2, Equiv.swap cases[j] cases[j + x] * π, e3, h1, h2, ?_, ?_⟩
    · intro c hc
      rw [Equiv.Perm.mul_apply, h3 c hc]
      apply Equiv.swap_apply_of_ne_of_ne
      · rintro rfl; exact hc (List.getElem_mem hj)
      · rintro rfl; exact hc (List.getElem_mem hjx)
    · intro c
      rw [(h4 c).1, (h4 c).2, swp_swap e1, swp_swap e2]
      exact ⟨rfl, rfl⟩

theorem shuffleAllLoop_eq {α : Type} (n : Nat) :
    ∀ (k j : Nat), k = n - j → ∀ (miss : List Bool) (data : List α) (rng : Rng),
      shuffleAllLoop n miss data rng j = shuffleLoop (List.range n) miss data rng j := by
  intro k
  induction k with
  | zero =>
    intro j hk miss data rng
    unfold shuffleLoop shuffleAllLoop
    rw [if_neg (by omega), if_neg (by simp; omega)]
  | succ k ih =>
    intro j hk miss data rng
    unfold shuffleLoop shuffleAllLoop
    rw [if_pos (by omega), if_pos (by simp; omega), List.length_range]
    rw [Rng.intn, if_neg (by omega)]
    have hx : rng 0 % (n - j) < n - j := Nat.mod_lt _ (by omega)
    simp only
    obtain ⟨x, hx0⟩ : ∃ x, x = rng 0 % (n - j) := ⟨_, rfl⟩
    rw [← hx0] at hx ⊢
    rw [List.getElem?_range (by omega), List.getElem?_range (by omega)]
    simp only
    split
    · rename_i h1 h2; rw [ih (j + 1) (by omega)]
    · rfl

end CloudForest

namespace CloudForest

theorem swp_zip {α β : Type} {s s' : List α} {t t' : List β} {i j : Nat} (hl : s.length = t.length)
    (h : swp s i j = some s') (h' : swp t i j = some t') : swp (s.zip t) i j = some (s'.zip t') := by
  have hi := swp_lt h
  obtain ⟨u, hu⟩ := swp_isSome (s := s.zip t) (i := i) (j := j)
    (by rw [List.length_zip, ← hl]; omega) (by rw [List.length_zip, ← hl]; omega)
  rw [hu]
  congr 1
  apply List.ext_getElem?
  intro k
  rw [swp_get hu]
  simp only [List.zip, List.getElem?_zipWith]
  rw [swp_get h, swp_get h']
  split_ifs <;> rfl

theorem shuffleLoop_perm {α : Type} (cases : List Nat) :
    ∀ (k j : Nat), k = cases.length - j → ∀ (miss : List Bool) (data : List α) (rng : Rng)
      (r : List Bool × List α × Rng), miss.length = data.length →
      shuffleLoop cases miss data rng j = some r → (r.1.zip r.2.1).Perm (miss.zip data) := by
  intro k
  induction k with
  | zero =>
    intro j hk miss data rng r hl h
    unfold shuffleLoop at h
    rw [if_neg (by omega)] at h
    cases h
    exact List.Perm.refl _
  | succ k ih =>
    intro j hk miss data rng r hl h
    unfold shuffleLoop at h
    rw [if_pos (by omega)] at h
    split at h
    · cases h
    split at h
    · split at h
      · rename_i h1 h2
        refine (ih (j + 1) (by omega) _ _ _ r ?_ h).trans (swp_perm (swp_zip hl h1 h2))
        rw [swp_length h1, swp_length h2, hl]
      · cases h
    · cases h

/-- Every rearrangement can come out. -/
theorem shuffleAllLoop_surj {α : Type} (n : Nat) :
    ∀ (k j : Nat), k = n - j → ∀ (π : Equiv.Perm Nat), (∀ c, c < j → π c = c) →
      (∀ c, n ≤ c → π c = c) →
      ∃ rng : Rng, ∀ (miss : List Bool) (data : List α), miss.length = n → data.length = n →
      ∃ miss' data' rng', shuffleAllLoop n miss data rng j = some (miss', data', rng') ∧
        (∀ c, miss'[c]? = miss[π c]? ∧ data'[c]? = data[π c]?) := by
  intro k
  induction k with
  | zero =>
    intro j hk π hlo hhi
    refine ⟨fun _ => 0, fun miss data hm hd => ⟨miss, data, fun _ => 0, ?_, ?_⟩⟩
    · unfold shuffleAllLoop
      rw [if_neg (by omega)]
    · intro c
      have : π c = c := by
        by_cases hc : c < j
        · exact hlo c hc
        · exact hhi c (by omega)
      rw [this]; exact ⟨rfl, rfl⟩
  | succ k ih =>
    intro j hk π hlo hhi
    have hj1 : j ≤ π j := by
      by_contra hc
      have h1 := hlo (π j) (by omega)
      have h2 := π.injective h1
      omega
    have hj2 : π j < n := by
      by_contra hc
      have h1 := hhi (π j) (by omega)
      have h2 := π.injective h1
      omega
    obtain ⟨rng, hr⟩ := ih (j + 1) (by omega) (Equiv.swap j (π j) * π) (by
      intro c hc
      rw [Equiv.Perm.mul_apply]
      by_cases h : c = j
      · rw [h, Equiv.swap_apply_right]
      · rw [hlo c (by omega)]
        exact Equiv.swap_apply_of_ne_of_ne h (by omega)) (by
      intro c hc
      rw [Equiv.Perm.mul_apply, hhi c hc]
      exact Equiv.swap_apply_of_ne_of_ne (by omega) (by omega))
    refine ⟨fun i => if i = 0 then π j - j else rng (i - 1), fun miss data hm hd => ?_⟩
    unfold shuffleAllLoop
    rw [if_pos (by omega), Rng.intn, if_neg (by omega)]
    simp only [if_true]
    rw [Nat.mod_eq_of_lt (by omega), show j + (π j - j) = π j by omega]
    obtain ⟨m1, e1⟩ := swp_isSome (s := miss) (i := j) (j := π j) (by omega) (by omega)
    obtain ⟨d1, e2⟩ := swp_isSome (s := data) (i := j) (j := π j) (by omega) (by omega)
    rw [e1, e2]
    obtain ⟨m2, d2, r2, e3, h4⟩ := hr m1 d1 ((swp_length e1).trans hm) ((swp_length e2).trans hd)
    refine ⟨m2, d2, r2, ?_, ?_⟩
    · simpa using e3
    · intro c
      rw [(h4 c).1, (h4 c).2, swp_swap e1, swp_swap e2]
      simp only [Equiv.Perm.mul_apply, Equiv.swap_apply_self]
      exact ⟨trivial, trivial⟩

end CloudForest
