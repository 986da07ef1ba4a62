import Verif.Spec.Fair
import Verif.Lemmas.Shuffle
import Mathlib.Data.List.Perm.Basic
import Mathlib.Data.List.Nodup
import Mathlib.Algebra.BigOperators.Group.List.Basic

/-!
# Fair draws: lemmas
-/

set_option linter.unusedSectionVars false

namespace CloudForest
variable {α : Type}

/-- The Fisher-Yates choice: exchange the first element with the drawn one, and go on behind it. -/
def choose : List α → List Nat → Option (List α)
  | _, [] => some []
  | xs, x :: d =>
    match swp xs 0 x with
    | some (y :: ys) => (choose ys d).map (y :: ·)
    | _ => none

theorem swp_zero {xs : List α} {x : Nat} (h : x < xs.length) :
    ∃ ys, swp xs 0 x = some (xs[x] :: ys) ∧ (xs[x] :: ys).Perm xs := by
  cases xs with
  | nil => simp at h
  | cons a xs =>
    unfold swp
    have h0 : 0 < (a :: xs).length := by simp
    rw [dif_pos ⟨h0, h⟩]
    cases x with
    | zero => exact ⟨xs, by simp, by simp⟩
    | succ x =>
      have hx : x < xs.length := by simpa using h
      refine ⟨xs.set x a, by simp, ?_⟩
      simp only [List.getElem_cons_succ]
      rw [List.set_eq_take_append_cons_drop, if_pos hx]
      conv_rhs => rw [← List.take_append_drop x xs, List.drop_eq_getElem_cons hx]
      refine (List.perm_middle.cons _).trans ?_
      refine (List.Perm.swap _ _ _).trans ?_
      exact (List.perm_middle.symm.cons _)

theorem sum_range_single (f : Nat → Nat) (n x0 : Nat) (h0 : x0 < n) (h : ∀ x < n, x ≠ x0 → f x = 0) :
    ((List.range n).map f).sum = f x0 := by
  induction n with
  | zero => omega
  | succ n ih =>
    rw [List.range_succ, List.map_append, List.sum_append]
    by_cases hx : x0 = n
    · subst hx
      rw [List.sum_eq_zero]
      · simp
      · intro y hy
        obtain ⟨x, hx, rfl⟩ := List.mem_map.1 hy
        have := List.mem_range.1 hx
        exact h x (by omega) (by omega)
    · rw [ih (by omega) fun x hx => h x (by omega)]
      simp [h n (by omega) (Ne.symm hx)]

theorem countP_drawSeqs (n k : Nat) (p : List Nat → Bool) : (drawSeqs n (k + 1)).countP p =
    ((List.range n).map fun x => (drawSeqs (n - 1) k).countP fun d => p (x :: d)).sum := by
  rw [drawSeqs, List.countP_flatMap]
  congr 1
  refine List.map_congr_left fun x _ => ?_
  simp only [Function.comp, List.countP_map]
  rfl

theorem mem_drawSeqs : ∀ {k n : Nat} {d : List Nat}, d ∈ drawSeqs n k → d.length = k
  | 0, n, d, h => by simp [drawSeqs] at h; simp [h]
  | k + 1, n, d, h => by
    simp only [drawSeqs, List.mem_flatMap, List.mem_map] at h
    obtain ⟨x, -, d', h, rfl⟩ := h
    simp [mem_drawSeqs h]

/-- Every selection of `k` different elements in order comes from exactly one sequence of draws. -/
theorem choose_count [DecidableEq α] : ∀ (vs xs : List α), xs.Nodup → vs.Nodup → (∀ v ∈ vs, v ∈ xs) →
    (drawSeqs xs.length vs.length).countP (fun d => decide (choose xs d = some vs)) = 1 := by
  intro vs
  induction vs with
  | nil => intro xs _ _ _; simp [drawSeqs, choose]
  | cons v vs ih =>
    intro xs hx hv hm
    obtain ⟨x0, h0, e0⟩ := List.getElem_of_mem (hm v (by simp))
    rw [List.length_cons, countP_drawSeqs, sum_range_single _ _ x0 h0]
    · obtain ⟨ys, e, hp⟩ := swp_zero h0
      rw [e0] at e hp
      have hn := (hp.nodup_iff.2 hx)
      have hl : xs.length - 1 = ys.length := by
        rw [← hp.length_eq]
        simp
      rw [hl]
      rw [← ih ys (List.nodup_cons.1 hn).2 (List.nodup_cons.1 hv).2 (by
        intro w hw
        have hw' : w ∈ v :: ys := hp.mem_iff.2 (hm w (by simp [hw]))
        rcases List.mem_cons.1 hw' with rfl | h
        · exact absurd hw (List.nodup_cons.1 hv).1
        · exact h)]
      refine List.countP_congr fun d _ => ?_
      simp only [choose, e, decide_eq_true_eq]
      cases choose ys d <;> simp
    · intro x hx' hne
      rw [List.countP_eq_zero]
      intro d _
      obtain ⟨ys, e, -⟩ := swp_zero hx'
      simp only [choose, e, decide_eq_true_eq]
      cases choose ys d with
      | none => simp
      | some zs =>
        simp only [Option.map_some, Option.some.injEq, List.cons.injEq, not_and]
        intro h
        exact absurd ((hx.getElem_inj_iff).1 (h.trans e0.symm)) hne

/-! ## The loops are such choices -/

theorem streamOf_intn {x n : Nat} {d : List Nat} (h : x < n) : (streamOf (x :: d)).intn n = some (x, streamOf d) := by
  unfold Rng.intn
  rw [if_neg (by omega)]
  congr 1
  refine Prod.ext ?_ ?_
  · show x % n = x
    exact Nat.mod_eq_of_lt h
  · funext k
    simp [streamOf]

theorem swp_drop_lt {s s' : List α} {j x : Nat} (h : swp s j (j + x) = some s') :
    swp (s.drop j) 0 x = some (s'.drop j) ∧ s'.take j = s.take j := by
  unfold swp at h ⊢
  split at h
  · rename_i hl
    cases h
    rw [dif_pos ⟨by simp; omega, by simp; omega⟩]
    constructor
    · congr 1
      apply List.ext_getElem?
      intro i
      simp only [List.getElem_drop, Nat.add_zero, List.getElem?_set, List.length_set, List.length_drop,
        List.getElem?_drop]
      by_cases h1 : x = i
      · subst h1
        simp [hl.2, show x < s.length - j by omega]
      · by_cases h2 : 0 = i
        · subst h2
          simp [h1, hl.1]
        · simp [h1, h2]
          intro h
          exact absurd h.symm h2
    · apply List.ext_getElem?
      intro i
      simp only [List.getElem?_take, List.getElem?_set]
      split
      · rw [if_neg (by omega), if_neg (by omega)]
      · rfl
  · cases h

/-- Sampling without known constants chooses. -/
theorem sampleLoop_choose (k : Nat) : ∀ (cards : List Nat) (i : Nat) (d : List Nat), i + d.length = k → k ≤ cards.length →
    d ∈ drawSeqs (cards.length - i) d.length →
    ∃ cards' rng, sampleLoop k cards.length cards i i 0 (streamOf d) = some (cards', k, rng) ∧
      cards'.take i = cards.take i ∧ choose (cards.drop i) d = some ((cards'.drop i).take d.length) := by
  intro cards i d
  induction d generalizing cards i with
  | nil =>
    intro hi hk _
    simp at hi
    subst hi
    rw [sampleLoop, if_neg (by omega)]
    exact ⟨cards, _, rfl, rfl, by simp [choose]⟩
  | cons x d ih =>
    intro hi hk hd
    simp only [List.length_cons] at hi
    simp only [List.length_cons, drawSeqs, List.mem_flatMap, List.mem_range, List.mem_map] at hd
    obtain ⟨x', hx, d', hd, e⟩ := hd
    simp only [List.cons.injEq] at e
    obtain ⟨rfl, rfl⟩ := e
    rw [sampleLoop, if_pos (by omega)]
    simp only [Nat.sub_zero]
    rw [streamOf_intn hx]
    simp only
    rw [if_neg (by omega)]
    obtain ⟨cs, hs⟩ : ∃ cs, swp cards i (i + x') = some cs := by
      unfold swp
      rw [dif_pos (by omega)]
      exact ⟨_, rfl⟩
    have hl := swp_length hs
    obtain ⟨h1, h2⟩ := swp_drop_lt hs
    rw [hs]
    simp only
    obtain ⟨cards', rng, e, e1, e2⟩ := ih cs (i + 1) (by omega) (by omega) (by
      rw [hl, show cards.length - (i + 1) = cards.length - i - 1 by omega]
      exact hd)
    rw [hl] at e
    have hti : i < cards'.length := by
      have := congrArg List.length e1
      simp only [List.length_take] at this
      omega
    refine ⟨cards', rng, e, ?_, ?_⟩
    · have := congrArg (List.take i) e1
      rw [List.take_take, List.take_take] at this
      simpa [h2] using this
    · have hti' : i < cs.length := by omega
      have hhead : cs[i] = cards'[i] := by
        have := congrArg (fun l => l[i]?) e1
        simp only [List.getElem?_take, Nat.lt_succ_self, if_true] at this
        rw [List.getElem?_eq_getElem hti, List.getElem?_eq_getElem hti'] at this
        exact (Option.some.inj this).symm
      have hcs : cs.drop i = cs[i] :: cs.drop (i + 1) := List.drop_eq_getElem_cons hti'
      rw [choose, h1, hcs]
      simp only
      rw [e2, List.drop_eq_getElem_cons hti, List.length_cons, List.take_succ_cons, hhead]
      rfl

/-- Shuffling all positions chooses all elements. -/
theorem shuffleAllLoop_choose (n : Nat) : ∀ (miss : List Bool) (data : List α) (j : Nat) (d : List Nat),
    j + d.length = n → miss.length = n → data.length = n → d ∈ drawSeqs (n - j) d.length →
    ∃ miss' data' rng, shuffleAllLoop n miss data (streamOf d) j = some (miss', data', rng) ∧
      data'.take j = data.take j ∧ choose (data.drop j) d = some (data'.drop j) := by
  intro miss data j d
  induction d generalizing miss data j with
  | nil =>
    intro hj hm hl _
    simp at hj
    subst hj
    rw [shuffleAllLoop, if_neg (by omega)]
    exact ⟨miss, data, _, rfl, rfl, by simp [choose, hl]⟩
  | cons x d ih =>
    intro hj hm hl hd
    simp only [List.length_cons] at hj
    simp only [List.length_cons, drawSeqs, List.mem_flatMap, List.mem_range, List.mem_map] at hd
    obtain ⟨x', hx, d', hd, e⟩ := hd
    simp only [List.cons.injEq] at e
    obtain ⟨rfl, rfl⟩ := e
    rw [shuffleAllLoop, if_pos (by omega), streamOf_intn hx]
    simp only
    obtain ⟨ms, hs'⟩ : ∃ ms, swp miss j (j + x') = some ms := by
      unfold swp
      rw [dif_pos (by omega)]
      exact ⟨_, rfl⟩
    obtain ⟨cs, hs⟩ : ∃ cs, swp data j (j + x') = some cs := by
      unfold swp
      rw [dif_pos (by omega)]
      exact ⟨_, rfl⟩
    have hml := swp_length hs'
    have hcl := swp_length hs
    obtain ⟨h1, h2⟩ := swp_drop_lt hs
    rw [hs, hs']
    simp only
    obtain ⟨miss', data', rng, e, e1, e2⟩ := ih ms cs (j + 1) (by omega) (by omega) (by omega) (by
      rw [show n - (j + 1) = n - j - 1 by omega]
      exact hd)
    have hti' : j < cs.length := by omega
    have hti : j < data'.length := by
      have := congrArg List.length e1
      simp only [List.length_take] at this
      omega
    refine ⟨miss', data', rng, e, ?_, ?_⟩
    · have := congrArg (List.take j) e1
      rw [List.take_take, List.take_take] at this
      simpa [h2] using this
    · have hhead : cs[j] = data'[j] := by
        have := congrArg (fun l => l[j]?) e1
        simp only [List.getElem?_take, Nat.lt_succ_self, if_true] at this
        rw [List.getElem?_eq_getElem hti, List.getElem?_eq_getElem hti'] at this
        exact (Option.some.inj this).symm
      rw [choose, h1, List.drop_eq_getElem_cons hti']
      simp only
      rw [e2, List.drop_eq_getElem_cons hti, hhead]
      rfl

/-- Exchanging the values at two of several different positions exchanges them in the list of the values there. -/
theorem swp_at {data data' : List α} {cases : List Nat} (hn : cases.Nodup) (hc : ∀ c ∈ cases, c < data.length) {i k : Nat}
    (hi : i < cases.length) (hk : k < cases.length) (h : swp data cases[i] cases[k] = some data') :
    swp (cases.map fun c => data[c]?) i k = some (cases.map fun c => data'[c]?) := by
  have hil := hc _ (List.getElem_mem hi)
  have hkl := hc _ (List.getElem_mem hk)
  unfold swp at h ⊢
  rw [dif_pos ⟨hil, hkl⟩] at h
  cases h
  rw [dif_pos ⟨by simpa using hi, by simpa using hk⟩]
  congr 1
  apply List.ext_getElem
  · simp
  · intro m h1 h2
    simp only [List.length_set, List.length_map] at h1
    simp only [List.getElem_map, List.getElem_set, List.getElem?_set, List.length_set]
    have hk' : cases[k] = cases[m] ↔ k = m := hn.getElem_inj_iff
    have hi' : cases[i] = cases[m] ↔ i = m := hn.getElem_inj_iff
    by_cases e1 : k = m
    · subst e1
      simp [hkl, List.getElem?_eq_getElem hil]
    · by_cases e2 : i = m
      · subst e2
        simp [hil, hk', e1, List.getElem?_eq_getElem hkl]
      · simp [hk', hi', e1, e2]

/-- Shuffling the values of different cases chooses all of them. -/
theorem shuffleLoop_choose (cases : List Nat) (hn : cases.Nodup) : ∀ (miss : List Bool) (data : List α) (j : Nat)
    (d : List Nat), j + d.length = cases.length → miss.length = data.length → (∀ c ∈ cases, c < data.length) →
    d ∈ drawSeqs (cases.length - j) d.length →
    ∃ miss' data' rng, shuffleLoop cases miss data (streamOf d) j = some (miss', data', rng) ∧
      (cases.map fun c => data'[c]?).take j = (cases.map fun c => data[c]?).take j ∧
      choose ((cases.map fun c => data[c]?).drop j) d = some ((cases.map fun c => data'[c]?).drop j) := by
  intro miss data j d
  induction d generalizing miss data j with
  | nil =>
    intro hj hm hl _
    simp at hj
    subst hj
    rw [shuffleLoop, if_neg (by omega)]
    exact ⟨miss, data, _, rfl, rfl, by simp [choose]⟩
  | cons x d ih =>
    intro hj hm hl hd
    simp only [List.length_cons] at hj
    simp only [List.length_cons, drawSeqs, List.mem_flatMap, List.mem_range, List.mem_map] at hd
    obtain ⟨x', hx, d', hd, e⟩ := hd
    simp only [List.cons.injEq] at e
    obtain ⟨rfl, rfl⟩ := e
    have hjl : j < cases.length := by omega
    have hxl : j + x' < cases.length := by omega
    rw [shuffleLoop, if_pos hjl, streamOf_intn hx]
    simp only
    rw [List.getElem?_eq_getElem hjl, List.getElem?_eq_getElem hxl]
    simp only
    have ha := hl _ (List.getElem_mem hjl)
    have hb := hl _ (List.getElem_mem hxl)
    obtain ⟨ms, hs'⟩ : ∃ ms, swp miss cases[j] cases[j + x'] = some ms := by
      unfold swp
      rw [dif_pos (by omega)]
      exact ⟨_, rfl⟩
    obtain ⟨cs, hs⟩ : ∃ cs, swp data cases[j] cases[j + x'] = some cs := by
      unfold swp
      rw [dif_pos (by omega)]
      exact ⟨_, rfl⟩
    have hml := swp_length hs'
    have hcl := swp_length hs
    obtain ⟨h1, h2⟩ := swp_drop_lt (swp_at hn hl hjl hxl hs)
    rw [hs, hs']
    simp only
    obtain ⟨miss', data', rng, e, e1, e2⟩ := ih ms cs (j + 1) (by omega) (by omega) (by simpa [hcl] using hl) (by
      rw [show cases.length - (j + 1) = cases.length - j - 1 by omega]
      exact hd)
    refine ⟨miss', data', rng, e, ?_, ?_⟩
    · have := congrArg (List.take j) e1
      rw [List.take_take, List.take_take] at this
      simpa [h2] using this
    · have hti' : j < (cases.map fun c => cs[c]?).length := by simpa using hjl
      have hti : j < (cases.map fun c => data'[c]?).length := by simpa using hjl
      have hhead : (cases.map fun c => cs[c]?)[j] = (cases.map fun c => data'[c]?)[j] := by
        have := congrArg (fun l => l[j]?) e1
        simp only [List.getElem?_take, Nat.lt_succ_self, if_true] at this
        rw [List.getElem?_eq_getElem hti, List.getElem?_eq_getElem hti'] at this
        exact (Option.some.inj this).symm
      rw [choose, h1, List.drop_eq_getElem_cons hti']
      simp only
      rw [e2, List.drop_eq_getElem_cons hti, hhead]
      rfl

theorem swp_map_fn {β : Type} {s s' : List α} {i j : Nat} (f : α → β) (h : swp s i j = some s') :
    swp (s.map f) i j = some (s'.map f) := by
  unfold swp at h ⊢
  split at h
  · rename_i hl
    cases h
    rw [dif_pos (by simpa using hl)]
    simp
  · cases h

/-- Shuffling moves whatever lies at the positions the same way. -/
theorem shuffleLoop_map {β : Type} (cases : List Nat) (g : α → Bool) (f : α → β) : ∀ (k j : Nat), k = cases.length - j →
    ∀ (miss : List Bool) (p : List α) (rng : Rng) (m' : List Bool) (p' : List α) (rng' : Rng),
      shuffleLoop cases miss p rng j = some (m', p', rng') →
      shuffleLoop cases (p.map g) (p.map f) rng j = some (p'.map g, p'.map f, rng') := by
  intro k
  induction k with
  | zero =>
    intro j hk miss p rng m' p' rng' h
    rw [shuffleLoop, if_neg (by omega)] at h ⊢
    cases h
    rfl
  | succ k ih =>
    intro j hk miss p rng m' p' rng' h
    rw [shuffleLoop, if_pos (by omega)] at h ⊢
    split at h
    · cases h
    split at h
    · split at h
      · rename_i m1 p1 e1 e2
        rw [swp_map_fn g e2, swp_map_fn f e2]
        exact ih (j + 1) (by omega) _ _ _ _ _ _ h
      · cases h
    · cases h

theorem map_get_range (l : List α) (n : Nat) (hl : l.length = n) (z : α) : (List.range n).map (fun i => l.getD i z) = l := by
  subst hl
  apply List.ext_getElem
  · simp
  · intro i h1 h2
    simp [h2]

end CloudForest
