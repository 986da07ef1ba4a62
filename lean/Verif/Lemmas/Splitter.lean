import Verif.Model.Splitter
import Verif.Lemmas.Split
import Verif.Lemmas.XFOrder
import Mathlib.Data.List.Perm.Basic
import Mathlib.Data.List.TakeDrop
import Batteries.Data.List.Perm

/-! # Lemmas about the loop over candidate features -/

set_option linter.unusedSectionVars false

namespace CloudForest
variable {K : Type} [Field K] [LinearOrder K] [IsStrictOrderedRing K] {σ : Type}

theorem swp_take {α : Type} {s s' : List α} {i j k : Nat} (h : swp s i j = some s')
    (hi : k ≤ i) (hj : k ≤ j) : s'.take k = s.take k := by
  apply List.ext_getElem?
  intro n
  rw [List.getElem?_take, List.getElem?_take]
  split
  · rw [swp_get h, if_neg (by omega), if_neg (by omega)]
  · rfl

theorem swp_drop {α : Type} {s s' : List α} {i j k : Nat} (h : swp s i j = some s')
    (hi : i < k) (hj : j < k) : s'.drop k = s.drop k := by
  apply List.ext_getElem?
  intro n
  rw [List.getElem?_drop, List.getElem?_drop, swp_get h, if_neg (by omega), if_neg (by omega)]

/-- The best of the logged evaluations is the one remembered. -/
def BestOf (d : Draw K σ) : Prop :=
  (d.imp = minImp ∧ d.split = none ∧ d.fi = 0 ∧ ∀ e ∈ d.log, ¬ minImp < e.2.imp) ∨
  (minImp < d.imp ∧ (∃ e ∈ d.log, e.1 = d.fi ∧ e.2.code = d.split ∧ e.2.imp = d.imp) ∧
    ∀ e ∈ d.log, ¬ d.imp < e.2.imp)

/-- The invariant of the loop at round `j`. -/
structure DrawInv (P : σ → Prop) (G : Nat → Found K → Prop) (cans : List Nat) (nc j : Nat)
    (d : Draw K σ) : Prop where
  st : P d.st
  good : ∀ e ∈ d.log, G e.1 e.2
  len : d.cans.length = cans.length
  perm : d.cans.Perm cans
  sum : d.nDrawn + d.lastSample = j
  fits : d.lastSample + d.nConst ≤ cans.length
  drawn : d.nDrawn ≤ d.nConst
  more : nc ≤ d.nConst
  news : d.cans.drop (cans.length - d.nConst) =
    (d.log.filter (·.2.constant)).map (·.1) ++ cans.drop (cans.length - nc)
  olds : d.cans.take d.lastSample = ((d.log.filter fun e => !e.2.constant).map (·.1)).reverse
  best : BestOf d

theorem DrawInv.bestImp {P : σ → Prop} {G : Nat → Found K → Prop} {cans : List Nat} {nc j : Nat}
    {d : Draw K σ} (h : DrawInv P G cans nc j d) : d.imp = minImp ∨ minImp < d.imp := by
  rcases h.best with h | h
  · exact .inl h.1
  · exact .inr h.1

theorem BestOf.step {d d' : Draw K σ} (h : BestOf d) (i : Nat) (r : Found K)
    (hlog : d'.log = (i, r) :: d.log)
    (h1 : d.imp < r.imp → d'.fi = i ∧ d'.split = r.code ∧ d'.imp = r.imp)
    (h2 : ¬ d.imp < r.imp → d'.fi = d.fi ∧ d'.split = d.split ∧ d'.imp = d.imp) : BestOf d' := by
  unfold BestOf
  rw [hlog]
  by_cases hlt : d.imp < r.imp
  · obtain ⟨e1, e2, e3⟩ := h1 hlt
    refine .inr ⟨?_, ⟨(i, r), by simp, e1.symm, e2.symm, e3.symm⟩, ?_⟩
    · rw [e3]
      rcases h with h | h
      · rwa [← h.1]
      · exact XF.lt_trans' h.1 hlt
    · intro e he
      rw [e3]
      rcases List.mem_cons.1 he with rfl | he
      · exact XF.lt_irrefl' _
      · intro hlt'
        have := XF.lt_trans' hlt hlt'
        rcases h with h | h
        · rw [h.1] at this; exact h.2.2.2 e he this
        · exact h.2.2 e he this
  · obtain ⟨e1, e2, e3⟩ := h2 hlt
    rcases h with h | h
    · refine .inl ⟨e3.trans h.1, e2.trans h.2.1, e1.trans h.2.2.1, ?_⟩
      intro e he
      rcases List.mem_cons.1 he with rfl | he
      · rwa [← h.1]
      · exact h.2.2.2 e he
    · obtain ⟨ha, ⟨e, he, hb⟩, hc⟩ := h
      rw [e1, e2, e3]
      refine .inr ⟨ha, ⟨e, by simp [he], hb⟩, ?_⟩
      intro e' he'
      rcases List.mem_cons.1 he' with rfl | he'
      · exact hlt
      · exact hc e' he'

section
variable {P : σ → Prop} {G : Nat → Found K → Prop} {cans : List Nat} {nc : Nat}
  {eval : σ → XF K → Nat → Option (Found K × σ)} {intn : σ → Nat → Option (Nat × σ)}

theorem evalAt_ok
    (heval : ∀ st best i, P st → i ∈ cans → best = minImp ∨ minImp < best →
      ∃ r st', eval st best i = some (r, st') ∧ P st' ∧ G i r)
    {j : Nat} {d : Draw K σ} (h : DrawInv P G cans nc j d)
    (hlt : d.lastSample + d.nConst < cans.length) :
    ∃ d', evalAt eval d = some d' ∧ DrawInv P G cans nc (j + 1) d' ∧
      d'.log.length = d.log.length + 1 := by
  have hl : d.lastSample < d.cans.length := by rw [h.len]; omega
  unfold evalAt
  obtain ⟨i, hi⟩ : ∃ i, d.cans[d.lastSample]? = some i := ⟨_, List.getElem?_eq_getElem hl⟩
  have hmem : i ∈ cans := h.perm.subset (List.mem_of_getElem? hi)
  obtain ⟨r, st', e, hP, hG⟩ := heval d.st d.imp i h.st hmem h.bestImp
  rw [hi]
  simp only [e]
  by_cases hc : r.constant = true
  · rw [if_pos hc]
    obtain ⟨cans', hs⟩ := swp_isSome (s := d.cans) (i := d.cans.length - (d.nConst + 1))
      (j := d.lastSample) (by rw [h.len]; omega) hl
    simp only [hs]
    refine ⟨_, rfl, ⟨hP, ?_, ?_, ?_, ?_, ?_, ?_, ?_, ?_, ?_, ?_⟩, rfl⟩
    · intro e he
      rcases List.mem_cons.1 he with rfl | he
      · exact hG
      · exact h.good e he
    · exact (swp_length hs).trans h.len
    · exact (swp_perm hs).trans h.perm
    · have := h.sum; simp only; omega
    · simp only; omega
    · have := h.drawn; simp only; omega
    · have := h.more; simp only; omega
    · simp only
      have hlen' : cans'.length = cans.length := (swp_length hs).trans h.len
      have hk : cans.length - (d.nConst + 1) < cans'.length := by omega
      rw [List.drop_eq_getElem_cons hk]
      have h1 : cans'[cans.length - (d.nConst + 1)] = i := by
        have := swp_get hs (cans.length - (d.nConst + 1))
        rw [List.getElem?_eq_getElem hk] at this
        rw [h.len] at this
        by_cases heq : cans.length - (d.nConst + 1) = d.lastSample
        · rw [if_pos heq] at this
          rw [← heq] at hi
          rw [hi] at this
          exact Option.some.inj this
        · rw [if_neg heq, if_pos rfl, hi] at this
          exact Option.some.inj this
      rw [h1, show cans.length - (d.nConst + 1) + 1 = cans.length - d.nConst by omega,
        swp_drop hs (by rw [h.len]; omega) (by omega), h.news, List.filter_cons_of_pos (by simpa using hc)]
      rfl
    · simp only
      rw [swp_take hs (by rw [h.len]; omega) (le_refl _), h.olds,
        List.filter_cons_of_neg (by simpa using hc)]
    · refine h.best.step i r rfl (fun hlt => ?_) (fun hlt => ?_) <;> simp [hlt]
  · rw [if_neg hc]
    refine ⟨_, rfl, ⟨hP, ?_, h.len, h.perm, ?_, ?_, h.drawn, h.more, ?_, ?_, ?_⟩, rfl⟩
    · intro e he
      rcases List.mem_cons.1 he with rfl | he
      · exact hG
      · exact h.good e he
    · have := h.sum; simp only; omega
    · simp only; omega
    · simp only
      rw [List.filter_cons_of_neg (by simpa using hc)]; exact h.news
    · simp only
      rw [List.filter_cons_of_pos (by simpa using hc), List.map_cons, List.reverse_cons, ← h.olds,
        List.take_add_one, hi]
      rfl
    · refine h.best.step i r rfl (fun hlt => ?_) (fun hlt => ?_) <;> simp [hlt]

/-- What the end of the loop guarantees. -/
structure DrawEnd (mTry : Nat) (force : Bool) (cans : List Nat) (j : Nat) (d : Draw K σ) :
    Prop where
  stop : (¬ ((force = true ∧ mTry ≤ j ∧ j ≤ d.nDrawn) ∨ j < mTry)) ∨ cans.length ≤ d.nConst
  rounds : j ≤ mTry ∨ force = true ∧ d.log.tail.all (·.2.constant) = true

theorem log_length {P : σ → Prop} {j : Nat} {d : Draw K σ} (h : DrawInv P G cans nc j d) :
    d.log.length = (d.nConst - nc) + d.lastSample := by
  have h1 := congrArg List.length h.news
  have h2 := congrArg List.length h.olds
  have h3 : d.log.length = (d.log.filter (·.2.constant)).length +
      (d.log.filter fun e => !e.2.constant).length := by
    simpa using (List.length_eq_length_filter_add (l := d.log) (·.2.constant))
  have := h.len
  have := h.fits
  have := h.more
  simp only [List.length_drop, List.length_append, List.length_map, List.length_take,
    List.length_reverse] at h1 h2
  omega

theorem bestLoop_ok {mTry : Nat} {force : Bool} (hm : mTry ≤ cans.length)
    (heval : ∀ st best i, P st → i ∈ cans → best = minImp ∨ minImp < best →
      ∃ r st', eval st best i = some (r, st') ∧ P st' ∧ G i r)
    (hintn : ∀ st n, P st → 0 < n → ∃ x st', intn st n = some (x, st') ∧ x < n ∧ P st') :
    ∀ (fuel j : Nat) (d : Draw K σ), DrawInv P G cans nc j d →
      (j ≤ mTry ∨ force = true ∧ d.log.tail.all (·.2.constant) = true) →
      cans.length < fuel + j → d.log.length ≤ j →
      ∃ d' j', bestLoop eval intn mTry force fuel j d = some d' ∧ DrawInv P G cans nc j' d' ∧
        DrawEnd mTry force cans j' d' ∧ d'.log.length ≤ j' := by
  intro fuel
  induction fuel with
  | zero =>
    intro j d h _ hf
    have := h.sum; have := h.fits; have := h.drawn
    omega
  | succ fuel ih =>
    intro j d h hr hf hlog
    unfold bestLoop
    by_cases hcond : (force = true ∧ mTry ≤ j ∧ j ≤ d.nDrawn) ∨ j < mTry
    · rw [if_pos hcond]
      by_cases hfull : d.cans.length ≤ d.nConst
      · rw [if_pos hfull]
        exact ⟨d, j, rfl, h, ⟨.inr (by rwa [h.len] at hfull), hr⟩, hlog⟩
      rw [if_neg hfull]
      rw [h.len] at hfull
      have hsum := h.sum
      have hfits := h.fits
      have hdrawn := h.drawn
      have hlt : d.nDrawn + d.lastSample < d.cans.length := by
        rw [h.len]
        rcases hcond with hc | hc <;> omega
      rw [if_pos hlt]
      rw [h.len] at hlt ⊢
      -- all logged features were constant if the loop went past `mTry`
      have hr' : j + 1 ≤ mTry ∨
          force = true ∧ (d.log.all (·.2.constant) = true) := by
        rcases hcond with hc | hc
        · right
          refine ⟨hc.1, ?_⟩
          have h0 : d.lastSample = 0 := by omega
          have := h.olds
          rw [h0] at this
          simp only [List.take_zero] at this
          have h2 : (d.log.filter fun e => !e.2.constant) = [] := by
            have := congrArg List.length this
            simp only [List.length_nil, List.length_reverse, List.length_map] at this
            exact List.length_eq_zero_iff.1 this.symm
          rw [List.filter_eq_nil_iff] at h2
          rw [List.all_eq_true]
          intro e he
          simpa using h2 e he
        · left; omega
      obtain ⟨x, st', e, hx, hP⟩ := hintn d.st (cans.length - d.nDrawn - d.lastSample) h.st (by omega)
      simp only [e]
      by_cases hk : cans.length - d.nConst ≤ d.lastSample + x
      · rw [if_pos hk]
        apply ih
        · refine ⟨hP, h.good, h.len, h.perm, ?_, h.fits, ?_, h.more, h.news, h.olds, h.best⟩
          · simp only; omega
          · simp only; omega
        · rcases hr' with hr' | hr'
          · exact .inl hr'
          · refine .inr ⟨hr'.1, ?_⟩
            have h2 := List.all_eq_true.1 hr'.2
            exact List.all_eq_true.2 fun e he => h2 e (List.mem_of_mem_tail he)
        · omega
        · simp only; omega
      · rw [if_neg hk]
        obtain ⟨cans', hs⟩ := swp_isSome (s := d.cans) (i := d.lastSample + x) (j := d.lastSample)
          (by rw [h.len]; omega) (by rw [h.len]; omega)
        simp only [hs]
        have hi : DrawInv P G cans nc j { d with cans := cans', st := st' } := by
          refine ⟨hP, h.good, (swp_length hs).trans h.len, (swp_perm hs).trans h.perm, h.sum, h.fits,
            h.drawn, h.more, ?_, ?_, h.best⟩
          · simp only
            rw [swp_drop hs (by omega) (by omega)]; exact h.news
          · simp only
            rw [swp_take hs (by omega) (le_refl _)]; exact h.olds
        obtain ⟨d', e', hd', hlen⟩ := evalAt_ok heval hi (by simp only; omega)
        simp only [e']
        simp only at hlen
        apply ih _ _ hd'
        · rcases hr' with hr' | hr'
          · exact .inl hr'
          · refine .inr ⟨hr'.1, ?_⟩
            have : d'.log.tail = d.log := by
              unfold evalAt at e'
              simp only at e'
              split at e'
              · cases e'
              split at e'
              · cases e'
              split at e'
              · split at e'
                · cases e'
                · cases e'; rfl
              · cases e'; rfl
            rw [this]; exact hr'.2
        · omega
        · omega
    · rw [if_neg hcond]
      exact ⟨d, j, rfl, h, ⟨.inl hcond, hr⟩, hlog⟩

end
end CloudForest
