import Verif.Lemmas.Jungle

set_option linter.unusedSectionVars false

namespace CloudForest
variable {K : Type} [Field K] [LinearOrder K] [IsStrictOrderedRing K] {σ : Type}
  {g : Grower K σ} {fm : FeatureMatrix K}

/-- The levels of a jungle while the level `d` is extended: entries `first` to `last` are its nodes, `k0` nodes existed
before. No assumption on the search or on what joining gains. -/
structure JLevels (md : Int) (lev : Nat → Nat) (s : Jungle K σ) (first last k0 d : Nat) : Prop where
  root : lev 0 = 0
  pos : 0 < k0
  more : k0 ≤ s.arena.length
  kids : ∀ i n, s.arena[i]? = some n → ∀ j ∈ n.kids, i < j ∧ j < s.arena.length ∧ lev j = lev i + 1 ∧
    ((lev i : Int) < md ∨ md ≤ 0)
  new : ∀ i, k0 ≤ i → lev i = d + 1
  here : ∀ k e, first ≤ k → k < last → s.entries[k]? = some e → e.node < k0 ∧ lev e.node = d
  next : ∀ k e, last ≤ k → s.entries[k]? = some e → k0 ≤ e.node ∧ e.node < s.arena.length ∧
    ∃ p, e.parent = some p ∧ p < k0 ∧ lev p = d ∧ ((d : Int) < md ∨ md ≤ 0)

theorem kids_leaf (n : JNode K) (p : String) :
    ({ n with coded := none, splitter := none, pred := p } : JNode K).kids = n.kids := rfl

theorem JLevels.expand {lev : Nat → Nat} {s s' : Jungle K σ} {first last k0 d i : Nat}
    (h : JLevels g.maxDepth lev s first last k0 d) (hi : first ≤ i) (hi' : i < last) (hl : last ≤ s.entries.length)
    (he : s.expand g fm d i = some s') :
    JLevels g.maxDepth lev s' first last k0 d ∧ s.entries.length ≤ s'.entries.length := by
  unfold Jungle.expand at he
  simp only [Option.bind_eq_bind, Option.bind_eq_some_iff] at he
  obtain ⟨e, hent, he⟩ := he
  obtain ⟨hnode, hlev⟩ := h.here i e hi hi' hent
  split at he
  · cases he; exact ⟨h, le_refl _⟩
  obtain ⟨cs, -, he⟩ := Option.bind_eq_some_iff.1 he
  obtain ⟨n, hn, he⟩ := Option.bind_eq_some_iff.1 he
  have hleaf : ∀ cs st, JLevels g.maxDepth lev (s.leaf g e n cs st) first last k0 d := by
    intro cs st
    refine ⟨h.root, h.pos, by simpa [Jungle.leaf] using h.more, ?_, h.new, h.here, ?_⟩
    · intro i' n' hi' j hj
      simp only [Jungle.leaf, List.length_set] at hi' ⊢
      rw [List.getElem?_set] at hi'
      split at hi'
      · rename_i heq
        split at hi'
        · cases hi'
          rw [kids_leaf] at hj
          rw [← heq]
          exact h.kids _ _ hn j hj
        · cases hi'
      · exact h.kids _ _ hi' j hj
    · intro k e' hk hk'
      have := h.next k e' hk hk'
      simpa [Jungle.leaf] using this
  split at he
  swap
  · cases he; exact ⟨hleaf _ _, by simp [Jungle.leaf]⟩
  rename_i hcond
  obtain ⟨⟨st, res⟩, -, he⟩ := Option.bind_eq_some_iff.1 he
  simp only at he
  split at he
  · cases he; exact ⟨hleaf _ _, by simp [Jungle.leaf]⟩
  simp only [Option.bind_eq_some_iff] at he
  obtain ⟨f, -, spl, -, ⟨cs', li, ri⟩, -, he⟩ := he
  simp only [Option.some.injEq] at he
  have hmore := h.more
  have hk : s'.arena.length = s.arena.length + if g.splitmissing then 3 else 2 := by
    rw [← he]
    simp only [Jungle.branch, List.length_append, List.length_set]
    split <;> rfl
  have hke : s'.entries.length = s.entries.length + (s'.entries.length - s.entries.length) := by
    rw [← he]; simp [Jungle.branch]
  refine ⟨⟨h.root, h.pos, by rw [hk]; omega, ?_, h.new, ?_, ?_⟩, by omega⟩
  · intro i' n' hi' j hj
    rw [hk]
    rw [← he] at hi'
    simp only [Jungle.branch] at hi'
    by_cases hlt : i' < s.arena.length
    · rw [List.getElem?_append_left (by simpa using hlt), List.getElem?_set] at hi'
      split at hi'
      · rename_i heq
        subst heq
        rw [if_pos (by omega)] at hi'
        cases hi'
        have hlim : (lev e.node : Int) < g.maxDepth ∨ g.maxDepth ≤ 0 := by rw [hlev]; exact hcond.1
        simp only [JNode.kids, Option.toList_some, List.mem_append, List.mem_cons, List.not_mem_nil, or_false,
          Option.mem_toList] at hj
        have hnewj : ∀ j, s.arena.length ≤ j → lev j = lev e.node + 1 := by
          intro j hj; rw [h.new j (by omega), hlev]
        rcases hj with (hj | hj) | hj
        · refine ⟨by omega, ?_, hnewj j (by omega), hlim⟩
          split <;> omega
        · refine ⟨by omega, ?_, hnewj j (by omega), hlim⟩
          split <;> omega
        · by_cases hsm : g.splitmissing = true
          · rw [if_pos hsm] at hj ⊢
            cases hj
            exact ⟨by omega, by omega, hnewj _ (by omega), hlim⟩
          · rw [if_neg hsm] at hj ⊢
            have := h.kids _ _ hn j (by simp [JNode.kids, hj])
            exact ⟨this.1, by omega, this.2.2⟩
      · have := h.kids _ _ hi' j hj
        exact ⟨this.1, by omega, this.2.2⟩
    · rw [List.getElem?_append_right (by simpa using hlt)] at hi'
      have hm := List.mem_of_getElem? hi'
      have : n' = .fresh := by
        simp only [List.mem_cons] at hm
        rcases hm with h | h | h
        · exact h
        · exact h
        · split at h
          · simpa using h
          · simp at h
      rw [this] at hj
      simp [JNode.kids, JNode.fresh] at hj
  · intro k e' hk1 hk2 hent'
    rw [← he] at hent'
    simp only [Jungle.branch] at hent'
    rw [List.getElem?_append_left (by omega)] at hent'
    exact h.here k e' hk1 hk2 hent'
  · intro k e' hk1 hent'
    rw [← he] at hent'
    simp only [Jungle.branch] at hent'
    by_cases hlt : k < s.entries.length
    · rw [List.getElem?_append_left hlt] at hent'
      have := h.next k e' hk1 hent'
      exact ⟨this.1, by omega, this.2.2⟩
    · rw [List.getElem?_append_right (by omega)] at hent'
      have hm := List.mem_of_getElem? hent'
      simp only [List.mem_cons] at hm
      have hp : ∃ p, some e.node = some p ∧ p < k0 ∧ lev p = d ∧ ((d : Int) < g.maxDepth ∨ g.maxDepth ≤ 0) :=
        ⟨_, rfl, hnode, hlev, hcond.1⟩
      rcases hm with rfl | rfl | hm
      · refine ⟨hmore, ?_, hp⟩
        rw [hk]; simp only; split <;> omega
      · refine ⟨by simp only; omega, ?_, hp⟩
        rw [hk]; simp only; split <;> omega
      · split at hm
        · rename_i hc
          simp only [List.mem_cons, List.not_mem_nil, or_false] at hm
          subst hm
          refine ⟨by simp only; omega, ?_, hp⟩
          rw [hk, if_pos hc.1]; simp only; omega
        · simp at hm

theorem JLevels.level {lev : Nat → Nat} {first last k0 d : Nat} :
    ∀ (k i : Nat) (s s' : Jungle K σ), JLevels g.maxDepth lev s first last k0 d → first ≤ i → i + k ≤ last →
      last ≤ s.entries.length → s.level g fm d k i = some s' →
      JLevels g.maxDepth lev s' first last k0 d ∧ last ≤ s'.entries.length := by
  intro k
  induction k with
  | zero => intro i s s' h _ _ hl he; cases he; exact ⟨h, hl⟩
  | succ k ih =>
    intro i s s' h hi hk hl he
    rw [Jungle.level] at he
    obtain ⟨s1, h1, h2⟩ := Option.bind_eq_some_iff.1 he
    obtain ⟨h3, h4⟩ := h.expand hi (by omega) hl h1
    exact ih (i + 1) s1 s' h3 (by omega) (by omega) (by omega) h2

theorem partner_mem {gain : Merger K σ} {s : Jungle K σ} {ei : JEntry} {P : Nat → Prop} :
    ∀ (js : List Nat) (st st' : σ) (mx : XF K) (c c' : Option Nat), (∀ j, c = some j → P j) → (∀ j ∈ js, P j) →
      s.partner gain ei js st mx c = some (c', st') → ∀ j, c' = some j → P j := by
  intro js
  induction js with
  | nil => intro st st' mx c c' hc _ h; cases h; exact hc
  | cons j js ih =>
    intro st st' mx c c' hc hj h
    have hj' : ∀ j ∈ js, P j := fun j hjj => hj j (List.mem_cons_of_mem _ hjj)
    rw [Jungle.partner] at h
    obtain ⟨ej, -, h⟩ := Option.bind_eq_some_iff.1 h
    split at h
    · exact ih _ _ _ _ _ hc hj' h
    split at h
    · obtain ⟨l, -, h⟩ := Option.bind_eq_some_iff.1 h
      obtain ⟨r, -, h⟩ := Option.bind_eq_some_iff.1 h
      obtain ⟨u, -, h⟩ := Option.bind_eq_some_iff.1 h
      obtain ⟨⟨x, st1⟩, -, h⟩ := Option.bind_eq_some_iff.1 h
      simp only at h
      split at h
      · exact ih _ _ _ _ _ (by rintro _ ⟨⟩; exact hj j List.mem_cons_self) hj' h
      · exact ih _ _ _ _ _ hc hj' h
    · exact ih _ _ _ _ _ hc hj' h

theorem mem_kids_replace {n : JNode K} {old new j : Nat} (h : j ∈ (n.replace old new).kids) :
    j ∈ n.kids ∨ j = new ∧ n.kids ≠ [] := by
  unfold JNode.replace at h
  split at h
  · rename_i hc
    simp only [JNode.kids, Option.toList_some, List.mem_append, List.mem_cons, List.not_mem_nil, or_false] at h ⊢
    rcases h with (h | h) | h
    · exact .inr ⟨h, by simp [hc]⟩
    · exact .inl (.inl (.inr h))
    · exact .inl (.inr h)
  split at h
  · rename_i hc
    simp only [JNode.kids, Option.toList_some, List.mem_append, List.mem_cons, List.not_mem_nil, or_false] at h ⊢
    rcases h with (h | h) | h
    · exact .inl (.inl (.inl h))
    · exact .inr ⟨h, by simp [hc]⟩
    · exact .inl (.inr h)
  split at h
  · rename_i hc
    simp only [JNode.kids, Option.toList_some, List.mem_append, List.mem_cons, List.not_mem_nil, or_false] at h ⊢
    rcases h with (h | h) | h
    · exact .inl (.inl (.inl h))
    · exact .inl (.inl (.inr h))
    · exact .inr ⟨h, by simp [hc]⟩
  · exact .inl h

theorem JLevels.join {lev : Nat → Nat} {s s' : Jungle K σ} {first last k0 d i j : Nat} {md : Int} {ei : JEntry}
    (h : JLevels md lev s first last k0 d) (hi : last ≤ i) (hei : s.entries[i]? = some ei) (hj : last ≤ j)
    (he : s.join ei j = some s') :
    JLevels md lev s' first last k0 d ∧ s'.entries.length = s.entries.length := by
  unfold Jungle.join at he
  simp only [Option.bind_eq_bind, Option.bind_eq_some_iff] at he
  obtain ⟨ej, hej, p, hp, n, hn, he⟩ := he
  simp only [Option.some.injEq] at he
  obtain ⟨a1, a2, p', a3, a4, a5, a6⟩ := h.next j ej hj hej
  rw [hp] at a3; cases a3
  obtain ⟨b1, b2, -⟩ := h.next i ei hi hei
  subst he
  refine ⟨⟨h.root, h.pos, by simpa using h.more, ?_, h.new, ?_, ?_⟩, by simp⟩
  · intro i' n' hi' j' hj'
    simp only [List.length_set] at hi' ⊢
    rw [List.getElem?_set] at hi'
    split at hi'
    · rename_i heq
      subst heq
      split at hi'
      · cases hi'
        rcases mem_kids_replace hj' with hh | ⟨rfl, -⟩
        · exact h.kids _ _ hn _ hh
        · exact ⟨by omega, b2, by rw [h.new _ b1, a5], by rw [a5]; exact a6⟩
      · cases hi'
    · exact h.kids _ _ hi' _ hj'
  · intro k e hk1 hk2 hk3
    simp only at hk3
    rw [List.getElem?_set_ne (by omega)] at hk3
    exact h.here k e hk1 hk2 hk3
  · intro k e hk1 hk3
    simp only [List.length_set] at hk3 ⊢
    rw [List.getElem?_set] at hk3
    split at hk3
    · rename_i heq
      split at hk3
      · cases hk3
        exact h.next j ej hj hej
      · cases hk3
    · exact h.next k e hk1 hk3

theorem JLevels.set_st {lev : Nat → Nat} {s : Jungle K σ} {first last k0 d : Nat} {md : Int}
    (h : JLevels md lev s first last k0 d) (st : σ) : JLevels md lev { s with st := st } first last k0 d :=
  ⟨h.root, h.pos, h.more, h.kids, h.new, h.here, h.next⟩

theorem JLevels.pass {gain : Merger K σ} {lev : Nat → Nat} {first last k0 d : Nat} {md : Int} :
    ∀ (is : List Nat) (s s' : Jungle K σ) (b b' : Bool), JLevels md lev s first last k0 d → (∀ i ∈ is, last ≤ i) →
      s.pass gain last is b = some (s', b') →
      JLevels md lev s' first last k0 d ∧ s'.entries.length = s.entries.length := by
  intro is
  induction is with
  | nil => intro s s' b b' h _ he; cases he; exact ⟨h, rfl⟩
  | cons i is ih =>
    intro s s' b b' h hi he
    have hi' : ∀ i ∈ is, last ≤ i := fun j hj => hi j (List.mem_cons_of_mem _ hj)
    rw [Jungle.pass] at he
    obtain ⟨ei, hei, he⟩ := Option.bind_eq_some_iff.1 he
    split at he
    · exact ih _ _ _ _ h hi' he
    obtain ⟨⟨c, st⟩, hc, he⟩ := Option.bind_eq_some_iff.1 he
    have hmem := partner_mem (P := fun j => last ≤ j) _ _ _ _ _ _ (by rintro _ ⟨⟩)
      (fun j hj => (List.mem_range'_1.1 hj).1) hc
    simp only at he
    split at he
    · exact ih { s with st := st } _ _ _ (h.set_st st) hi' he
    · rename_i j
      obtain ⟨s1, h1, h2⟩ := Option.bind_eq_some_iff.1 he
      obtain ⟨h3, h4⟩ := (h.set_st st).join (hi i List.mem_cons_self) hei (hmem j rfl) h1
      obtain ⟨h5, h6⟩ := ih _ _ _ _ h3 hi' h2
      exact ⟨h5, h6.trans h4⟩

theorem JLevels.combine {gain : Merger K σ} {lev : Nat → Nat} {first last k0 d : Nat} {md : Int} :
    ∀ (fuel : Nat) (s s' : Jungle K σ), JLevels md lev s first last k0 d → s.combine gain last fuel = some s' →
      JLevels md lev s' first last k0 d ∧ s'.entries.length = s.entries.length := by
  intro fuel
  induction fuel with
  | zero => intro s s' _ he; simp [Jungle.combine] at he
  | succ fuel ih =>
    intro s s' h he
    rw [Jungle.combine] at he
    obtain ⟨⟨s1, b⟩, h1, he⟩ := Option.bind_eq_some_iff.1 he
    obtain ⟨h2, h3⟩ := JLevels.pass _ _ _ _ _ h (fun i hi => (List.mem_range'_1.1 hi).1) h1
    simp only at he
    split at he
    · obtain ⟨h4, h5⟩ := ih _ _ h2 he
      exact ⟨h4, h5.trans h3⟩
    · cases he; exact ⟨h2, h3⟩

/-- The next level. -/
theorem JLevels.advance {lev : Nat → Nat} {s : Jungle K σ} {first last k0 d : Nat} {md : Int}
    (h : JLevels md lev s first last k0 d) :
    ∃ lev', JLevels md lev' s last s.entries.length s.arena.length (d + 1) := by
  refine ⟨fun i => if i < s.arena.length then lev i else d + 2, ?_, ?_, le_refl _, ?_, ?_, ?_, ?_⟩
  · have := h.pos; have := h.more
    simp only [if_pos (show 0 < s.arena.length by omega)]
    exact h.root
  · have := h.pos; have := h.more; omega
  · intro i n hi j hj
    have hlt := (List.getElem?_eq_some_iff.1 hi).1
    obtain ⟨h1, h2, h3, h4⟩ := h.kids i n hi j hj
    simp only [if_pos hlt, if_pos h2]
    exact ⟨h1, h2, h3, h4⟩
  · intro i hi
    simp only [if_neg (show ¬ i < s.arena.length by omega)]
  · intro k e hk1 hk2 hk3
    obtain ⟨h1, h2, -⟩ := h.next k e hk1 hk3
    simp only [if_pos h2]
    exact ⟨h2, h.new _ h1⟩
  · intro k e hk1 hk2
    rw [List.getElem?_eq_none (by omega)] at hk2
    cases hk2

theorem JLevels.levels {gain : Merger K σ} :
    ∀ (fuel first d k0 : Nat) (lev : Nat → Nat) (s s' : Jungle K σ),
      JLevels g.maxDepth lev s first s.entries.length k0 d → first ≤ s.entries.length →
      s.levels g gain fm fuel first d = some s' →
      ∃ lev' first' last' k0' d', JLevels g.maxDepth lev' s' first' last' k0' d' := by
  intro fuel
  induction fuel with
  | zero => intro first d k0 lev s s' _ _ he; simp [Jungle.levels] at he
  | succ fuel ih =>
    intro first d k0 lev s s' h hf he
    rw [Jungle.levels] at he
    obtain ⟨s1, h1, he⟩ := Option.bind_eq_some_iff.1 he
    obtain ⟨h2, h3⟩ := JLevels.level _ _ _ _ h (le_refl _) (by omega) (le_refl _) h1
    split at he
    · cases he; exact ⟨_, _, _, _, _, h2⟩
    · obtain ⟨s2, h4, he⟩ := Option.bind_eq_some_iff.1 he
      obtain ⟨h5, h6⟩ := JLevels.combine _ _ _ h2 h4
      obtain ⟨lev', h7⟩ := h5.advance
      exact ih _ _ _ _ _ _ h7 (by omega) he

theorem growJungle_levels {gain : Merger K σ} {fuel : Nat} {st : σ} {cases : List Nat} {s : Jungle K σ}
    (h : growJungle g gain fm fuel st cases = some s) :
    ∃ lev : Nat → Nat, lev 0 = 0 ∧ 0 < s.arena.length ∧
      ∀ i n, s.arena[i]? = some n → ∀ j ∈ n.kids, i < j ∧ j < s.arena.length ∧ lev j = lev i + 1 ∧
        ((lev i : Int) < g.maxDepth ∨ g.maxDepth ≤ 0) := by
  have h0 : JLevels g.maxDepth (fun i => if i = 0 then 0 else 1)
      (⟨[.fresh], [⟨0, 0, cases.length, 0, none, false⟩], cases, st⟩ : Jungle K σ) 0 1 1 0 := by
    refine ⟨rfl, by omega, le_refl _, ?_, ?_, ?_, ?_⟩
    · intro i n hi j hj
      have := List.mem_of_getElem? hi
      simp only [List.mem_cons, List.not_mem_nil, or_false] at this
      rw [this] at hj
      simp [JNode.kids, JNode.fresh] at hj
    · intro i hi; simp only [if_neg (show i ≠ 0 by omega)]
    · intro k e hk1 hk2 hk3
      have : k = 0 := by omega
      subst this
      cases hk3
      exact ⟨by simp, rfl⟩
    · intro k e hk1 hk2
      rw [List.getElem?_eq_none (by simpa using hk1)] at hk2
      cases hk2
  obtain ⟨lev, first, last, k0, d, h1⟩ := JLevels.levels fuel 0 0 1 _ _ _ h0 (by simp) h
  exact ⟨lev, h1.root, by have := h1.pos; have := h1.more; omega, h1.kids⟩

/-- Once the fuel reaches past all nodes, more of it changes nothing. -/
theorem unfoldNode_fuel {A : List (JNode K)} (hA : ∀ (i : Nat) (n : JNode K), A[i]? = some n → ∀ j ∈ n.kids, i < j) :
    ∀ (fuel fuel' i : Nat), A.length ≤ fuel + i → A.length ≤ fuel' + i → unfoldNode fuel A i = unfoldNode fuel' A i := by
  intro fuel
  induction fuel with
  | zero =>
    intro fuel' i h _
    cases fuel' with
    | zero => rfl
    | succ k => rw [unfoldNode, unfoldNode, List.getElem?_eq_none (by omega)]
  | succ fuel ih =>
    intro fuel' i h h'
    cases fuel' with
    | zero => rw [unfoldNode, unfoldNode, List.getElem?_eq_none (by omega)]
    | succ k =>
      rw [unfoldNode, unfoldNode]
      cases hn : A[i]? with
      | none => rfl
      | some n =>
        have hstep : ∀ o : Option Nat, (∀ j, o = some j → j ∈ n.kids) →
            o.elim .nil (unfoldNode fuel A) = o.elim .nil (unfoldNode k A) := by
          intro o ho
          cases o with
          | none => rfl
          | some j =>
            have := hA i n hn j (ho j rfl)
            exact ih k j (by omega) (by omega)
        simp only
        rw [hstep n.left (by intro j hj; simp [JNode.kids, hj]), hstep n.right (by intro j hj; simp [JNode.kids, hj]),
          hstep n.missing (by intro j hj; simp [JNode.kids, hj])]

end CloudForest
