import Verif.Spec.Split

namespace CloudForest

theorem swp_get {α : Type} {s s' : List α} {i j : Nat} (h : swp s i j = some s') (k : Nat) :
    s'[k]? = if k = j then s[i]? else if k = i then s[j]? else s[k]? := by
  unfold swp at h
  split at h
  case isFalse => cases h
  case isTrue hh =>
    cases h
    obtain ⟨hi, hj⟩ := hh
    simp only [List.getElem?_set, List.length_set]
    by_cases h1 : j = k
    · subst h1; simp [hj, hi]
    · simp only [h1, if_false, Ne.symm h1]
      by_cases h2 : i = k
      · subst h2; simp [hi, hj]
      · simp [h2, Ne.symm h2]

theorem swp_perm {α : Type} {s s' : List α} {i j : Nat} (h : swp s i j = some s') :
    s'.Perm s := by
  unfold swp at h
  split at h
  case isFalse => cases h
  case isTrue hh =>
    cases h
    exact List.set_set_perm hh.1 hh.2

theorem swp_isSome {α : Type} {s : List α} {i j : Nat} (hi : i < s.length) (hj : j < s.length) :
    ∃ s', swp s i j = some s' := by
  unfold swp
  simp [hi, hj]

/-- The loop invariant of `splitLoop`. -/
structure LoopInv (miss left : Nat → Option Bool) (cs : List Nat) (i nl lr : Nat) : Prop where
  h1 : nl ≤ i
  h2 : i ≤ lr
  h3 : lr ≤ cs.length
  hl : ∀ k c, k < nl → cs[k]? = some c → miss c = some false ∧ left c = some true
  hm : ∀ k c, nl ≤ k → k < i → cs[k]? = some c → miss c = some true
  hr : ∀ k c, lr ≤ k → cs[k]? = some c → miss c = some false ∧ left c = some false

theorem splitLoop_inv (miss left : Nat → Option Bool) (cs : List Nat) (i nl lr : Nat)
    (hinv : LoopInv miss left cs i nl lr) (r : List Nat × Nat × Nat)
    (hr : splitLoop miss left cs i nl lr = some r) :
    LoopInv miss left r.1 r.2.2 r.2.1 r.2.2 ∧ r.1.Perm cs := by
  fun_induction splitLoop miss left cs i nl lr with
  | case1 => simp at hr
  | case2 => simp at hr
  | case3 cs i nl lr hlt c hc hm ih =>
    refine ih ⟨by have := hinv.h1; omega, hlt, hinv.h3, hinv.hl, ?_, hinv.hr⟩ hr
    intro k d hk1 hk2 hd
    by_cases hk : k = i
    · subst hk; rw [hc] at hd; cases hd; exact hm
    · exact hinv.hm k d hk1 (by omega) hd
  | case4 => simp at hr
  | case5 => simp at hr
  | case6 cs i nl lr hlt c hc hm hl hne cs' hs ih =>
    have hlen := swp_length hs
    have hget := swp_get hs
    have hle : nl < i := by have := hinv.h1; omega
    have := ih ⟨by omega, hinv.h2, by rw [hlen]; exact hinv.h3, ?_, ?_, ?_⟩ hr
    · exact ⟨this.1, this.2.trans (swp_perm hs)⟩
    · intro k d hk hd
      rw [hget] at hd
      by_cases h1 : k = nl
      · simp only [h1, if_true] at hd; rw [hc] at hd; cases hd; exact ⟨hm, hl⟩
      · simp only [h1, if_false] at hd
        have : k ≠ i := by omega
        simp only [this, if_false] at hd
        exact hinv.hl k d (by omega) hd
    · intro k d hk1 hk2 hd
      rw [hget] at hd
      have h1 : k ≠ nl := by omega
      have h2 : k ≠ i := by omega
      simp only [h1, h2, if_false] at hd
      exact hinv.hm k d (by omega) hk2 hd
    · intro k d hk hd
      rw [hget] at hd
      have h1 : k ≠ nl := by omega
      have h2 : k ≠ i := by omega
      simp only [h1, h2, if_false] at hd
      exact hinv.hr k d hk hd
  | case7 cs i nl lr hlt c hc hm hl hne ih =>
    have hieq : i = nl := by omega
    refine ih ⟨by omega, hlt, hinv.h3, ?_, ?_, hinv.hr⟩ hr
    · intro k d hk hd
      by_cases h1 : k = i
      · subst h1; rw [hc] at hd; cases hd; exact ⟨hm, hl⟩
      · exact hinv.hl k d (by omega) hd
    · intro k d hk1 hk2; omega
  | case8 => simp at hr
  | case9 cs i nl lr hlt c hc hm hl cs' hs ih =>
    have hlen := swp_length hs
    have hget := swp_get hs
    have h3 := hinv.h3
    have := ih ⟨hinv.h1, by omega, by omega, ?_, ?_, ?_⟩ hr
    · exact ⟨this.1, this.2.trans (swp_perm hs)⟩
    · intro k d hk hd
      rw [hget] at hd
      have := hinv.h1
      have h1 : k ≠ lr - 1 := by omega
      have h2 : k ≠ i := by omega
      simp only [h1, h2, if_false] at hd
      exact hinv.hl k d hk hd
    · intro k d hk1 hk2 hd
      rw [hget] at hd
      have h1 : k ≠ lr - 1 := by omega
      have h2 : k ≠ i := by omega
      simp only [h1, h2, if_false] at hd
      exact hinv.hm k d hk1 hk2 hd
    · intro k d hk hd
      rw [hget] at hd
      by_cases h1 : k = lr - 1
      · simp only [h1, if_true] at hd; rw [hc] at hd; cases hd; exact ⟨hm, hl⟩
      · have h2 : k ≠ i := by omega
        simp only [h1, h2, if_false] at hd
        exact hinv.hr k d (by omega) hd
  | case10 cs i nl lr hnlt =>
    cases hr
    have h : i = lr := by have := hinv.h2; omega
    subst h
    exact ⟨hinv, List.Perm.refl _⟩

theorem slice3_threeWay {miss left : Nat → Option Bool} {cs : List Nat}
    {r : List Nat × Nat × Nat} (hi : LoopInv miss left r.1 r.2.2 r.2.1 r.2.2)
    (hp : r.1.Perm cs) : ThreeWay miss left cs (slice3 r) := by
  obtain ⟨l, nl, lr⟩ := r
  simp only at hi hp
  have h12 : nl ≤ lr := hi.h1
  refine ⟨?_, hp, ?_, ?_, ?_⟩
  · simp only [slice3, List.append_assoc]
    conv_lhs => rw [← List.take_append_drop nl l]
    congr 1
    conv_lhs => rw [← List.take_append_drop (lr - nl) (l.drop nl)]
    rw [List.drop_drop]
    congr 2
    omega
  · intro c hc
    simp only [slice3] at hc
    obtain ⟨k, hk, rfl⟩ := List.mem_iff_getElem.1 hc
    simp only [List.length_take] at hk
    apply hi.hl k _ (by omega)
    simp [List.getElem_take]
  · intro c hc
    simp only [slice3] at hc
    obtain ⟨k, hk, rfl⟩ := List.mem_iff_getElem.1 hc
    simp only [List.length_drop] at hk
    apply hi.hr (lr + k) _ (by omega)
    simp [List.getElem_drop]
  · intro c hc
    simp only [slice3] at hc
    obtain ⟨k, hk, rfl⟩ := List.mem_iff_getElem.1 hc
    simp only [List.length_take, List.length_drop] at hk
    apply hi.hm (nl + k) _ (by omega) (by omega)
    simp [List.getElem_drop, List.getElem_take]

theorem splitLoop_threeWay (miss left : Nat → Option Bool) (cs : List Nat)
    (r : List Nat × Nat × Nat) (hr : splitLoop miss left cs 0 0 cs.length = some r) :
    ThreeWay miss left cs (slice3 r) := by
  have h := splitLoop_inv miss left cs 0 0 cs.length
    ⟨le_refl _, Nat.zero_le _, le_refl _, by intro k c h; omega, by intro k c h1 h2; omega,
     by intro k c h1 h2; have := List.getElem?_eq_none h1; rw [this] at h2; cases h2⟩ r hr
  exact slice3_threeWay h.1 h.2

theorem splitLoop_bounds (miss left : Nat → Option Bool) (cs : List Nat)
    (r : List Nat × Nat × Nat) (hr : splitLoop miss left cs 0 0 cs.length = some r) :
    r.2.1 ≤ r.2.2 ∧ r.2.2 ≤ r.1.length := by
  have h := splitLoop_inv miss left cs 0 0 cs.length
    ⟨le_refl _, Nat.zero_le _, le_refl _, by intro k c h; omega, by intro k c h1 h2; omega,
     by intro k c h1 h2; have := List.getElem?_eq_none h1; rw [this] at h2; cases h2⟩ r hr
  exact ⟨h.1.h1, h.1.h3⟩

/-- No panic when the tests are defined on every listed case. -/
theorem splitLoop_some (miss left : Nat → Option Bool) (cs : List Nat) (i nl lr : Nat)
    (h1 : nl ≤ i) (h2 : i ≤ lr) (h3 : lr ≤ cs.length)
    (hm : ∀ c ∈ cs, miss c ≠ none) (hl : ∀ c ∈ cs, miss c = some false → left c ≠ none) :
    ∃ r, splitLoop miss left cs i nl lr = some r := by
  fun_induction splitLoop miss left cs i nl lr with
  | case1 cs i nl lr hlt hc =>
    have := List.getElem?_eq_none_iff.1 hc; omega
  | case2 cs i nl lr hlt c hc hmiss =>
    exact absurd hmiss (hm c (List.mem_of_getElem? hc))
  | case3 cs i nl lr hlt c hc hmiss ih => exact ih (by omega) (by omega) h3 hm hl
  | case4 cs i nl lr hlt c hc hmiss hleft =>
    exact absurd hleft (hl c (List.mem_of_getElem? hc) hmiss)
  | case5 cs i nl lr hlt c hc hmiss hleft hne hs =>
    obtain ⟨s', hs'⟩ := swp_isSome (s := cs) (i := i) (j := nl) (by omega) (by omega)
    rw [hs] at hs'; cases hs'
  | case6 cs i nl lr hlt c hc hmiss hleft hne cs' hs ih =>
    have hp := swp_perm hs
    exact ih (by omega) h2 (by rw [swp_length hs]; exact h3)
      (fun c hc => hm c (hp.mem_iff.1 hc)) (fun c hc => hl c (hp.mem_iff.1 hc))
  | case7 cs i nl lr hlt c hc hmiss hleft hne ih => exact ih (by omega) (by omega) h3 hm hl
  | case8 cs i nl lr hlt c hc hmiss hleft hs =>
    obtain ⟨s', hs'⟩ := swp_isSome (s := cs) (i := i) (j := lr - 1) (by omega) (by omega)
    rw [hs] at hs'; cases hs'
  | case9 cs i nl lr hlt c hc hmiss hleft cs' hs ih =>
    have hp := swp_perm hs
    exact ih h1 (by omega) (by rw [swp_length hs]; omega)
      (fun c hc => hm c (hp.mem_iff.1 hc)) (fun c hc => hl c (hp.mem_iff.1 hc))
  | case10 => exact ⟨_, rfl⟩

end CloudForest
