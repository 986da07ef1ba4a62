import Verif.Model.Driver
import Verif.Spec.Driver
import Verif.Spec.Matrix
import Verif.Spec.Grow
import Verif.Lemmas.Grow

/-! # Lemmas about the choice of candidates -/

set_option linter.unusedSectionVars false

namespace CloudForest
variable {K : Type} [Field K] [LinearOrder K] [IsStrictOrderedRing K] {σ : Type} {τ : Type}

/-- `n` features, and the count is that of the marks. -/
def Blacklist.Good (b : Blacklist) (n : Nat) : Prop :=
  b.marks.length = n ∧ b.count = b.marks.count true

theorem Blacklist.mark_ok {b : Blacklist} {n : Nat} (h : b.Good n) {i : Nat} (hi : i < n) :
    ∃ b', b.mark i = some b' ∧ b'.Good n ∧
      ∀ j, b'.marks[j]? = if j = i then some true else b.marks[j]? := by
  obtain ⟨h1, h2⟩ := h
  have hi' : i < b.marks.length := by omega
  unfold Blacklist.mark
  rw [List.getElem?_eq_getElem hi', Option.bind_some]
  cases hm : b.marks[i] with
  | true =>
    refine ⟨b, rfl, ⟨h1, h2⟩, fun j => ?_⟩
    split
    · next e => rw [e, List.getElem?_eq_getElem hi', hm]
    · rfl
  | false =>
    refine ⟨_, rfl, ⟨by simpa using h1, ?_⟩, fun j => ?_⟩
    · simp only [h2, Bool.false_eq_true, if_false]
      rw [List.count_set hi', hm]
      simp
    · simp only [Bool.false_eq_true, if_false]
      rw [List.getElem?_set]
      by_cases e : i = j
      · subst e; simp [hi']
      · rw [if_neg e, if_neg (Ne.symm e)]

theorem Blacklist.foldlM_ok {α : Type} (sel : α → Option Nat) {n : Nat} :
    ∀ (xs : List α) (b : Blacklist), b.Good n → (∀ x ∈ xs, ∀ i, sel x = some i → i < n) →
      ∃ b', xs.foldlM (fun b x => (sel x).elim (some b) b.mark) b = some b' ∧ b'.Good n ∧
        ∀ j, b'.marks[j]? = if ∃ x ∈ xs, sel x = some j then some true else b.marks[j]? := by
  intro xs
  induction xs with
  | nil => intro b h _; exact ⟨b, rfl, h, by simp⟩
  | cons x xs ih =>
    intro b h hs
    rw [List.foldlM_cons]
    cases hx : sel x with
    | none =>
      obtain ⟨b', e, g, k⟩ := ih b h (fun y hy => hs y (List.mem_cons_of_mem _ hy))
      refine ⟨b', by simpa using e, g, fun j => ?_⟩
      rw [k j]
      simp [hx]
    | some i =>
      obtain ⟨b1, e1, g1, k1⟩ := mark_ok h (hs x List.mem_cons_self i hx)
      obtain ⟨b', e, g, k⟩ := ih b1 g1 (fun y hy => hs y (List.mem_cons_of_mem _ hy))
      refine ⟨b', by simpa [e1] using e, g, fun j => ?_⟩
      rw [k j, k1 j]
      by_cases hj : ∃ y ∈ xs, sel y = some j
      · rw [if_pos hj, if_pos]
        obtain ⟨y, hy, e⟩ := hj
        exact ⟨y, List.mem_cons_of_mem _ hy, e⟩
      · rw [if_neg hj]
        by_cases hij : j = i
        · subst hij
          rw [if_pos rfl, if_pos ⟨x, List.mem_cons_self, hx⟩]
        · rw [if_neg hij, if_neg]
          rintro ⟨y, hy, e⟩
          rcases List.mem_cons.1 hy with rfl | hy
          · rw [hx] at e; cases e; exact hij rfl
          · exact hj ⟨y, hy, e⟩

theorem Blacklist.byTest_eq (fm : FeatureMatrix K) (targeti : Nat) (p : String → Bool)
    (b : Blacklist) : b.byTest fm targeti p = fm.data.zipIdx.foldlM (fun b x =>
      ((if targeti ≠ x.2 ∧ p x.1.name = true then some x.2 else none : Option Nat)).elim (some b)
        b.mark) b := by
  unfold Blacklist.byTest
  congr 1
  funext b x
  split <;> rfl

theorem Blacklist.byTest_ok (fm : FeatureMatrix K) (targeti : Nat) (p : String → Bool)
    {b : Blacklist} (h : b.Good fm.data.length) :
    ∃ b', b.byTest fm targeti p = some b' ∧ b'.Good fm.data.length ∧
      ∀ j, b'.marks[j]? = if ∃ f, fm.data[j]? = some f ∧ targeti ≠ j ∧ p f.name = true
        then some true else b.marks[j]? := by
  rw [byTest_eq]
  obtain ⟨b', e, g, k⟩ := foldlM_ok (fun x : Feature K × Nat =>
    if targeti ≠ x.2 ∧ p x.1.name = true then some x.2 else none) fm.data.zipIdx b h (by
      intro x hx i hi
      split at hi
      · cases hi
        exact (List.mem_zipIdx' hx).1
      · cases hi)
  refine ⟨b', e, g, fun j => ?_⟩
  rw [k j]
  congr 1
  apply propext
  constructor
  · rintro ⟨x, hx, hs⟩
    split at hs
    · next hc =>
      cases hs
      obtain ⟨h1, h2⟩ := List.mem_zipIdx' hx
      exact ⟨x.1, by rw [List.getElem?_eq_getElem h1, h2], hc.1, hc.2⟩
    · cases hs
  · rintro ⟨f, hf, h1, h2⟩
    refine ⟨(f, j), ?_, by rw [if_pos ⟨h1, h2⟩]⟩
    rw [List.mem_zipIdx_iff_getElem?]
    exact hf

theorem Blacklist.byName_ok (fm : FeatureMatrix K) (hs : ∀ n i, fm.map n = some i →
    i < fm.data.length) {b : Blacklist} (h : b.Good fm.data.length) (ids : List String) :
    ∃ b', b.byName fm ids = some b' ∧ b'.Good fm.data.length ∧
      ∀ j, b'.marks[j]? = if ∃ id ∈ ids, fm.map id = some j then some true else b.marks[j]? :=
  foldlM_ok fm.map ids b h fun x _ i hi => hs x i hi

/-! ## Splits are on candidates -/

theorem evalAt_keeps {eval : σ → XF K → Nat → Option (Found K × σ)} {d d' : Draw K σ}
    {cans : List Nat} (hp : d.cans.Perm cans) (hb : d.split ≠ none → d.fi ∈ cans)
    (h : evalAt eval d = some d') : d'.cans.Perm cans ∧ (d'.split ≠ none → d'.fi ∈ cans) := by
  unfold evalAt at h
  cases hi : d.cans[d.lastSample]? with
  | none => rw [hi] at h; cases h
  | some i =>
    have him : i ∈ cans := hp.mem_iff.1 (List.mem_of_getElem? hi)
    rw [hi] at h
    simp only at h
    cases he : eval d.st d.imp i with
    | none => rw [he] at h; cases h
    | some rs =>
      obtain ⟨r, st⟩ := rs
      rw [he] at h
      simp only at h
      have hbest : ((if d.imp < r.imp then (i, r.code, r.imp) else (d.fi, d.split, d.imp)).2.1 ≠
          none → (if d.imp < r.imp then (i, r.code, r.imp) else (d.fi, d.split, d.imp)).1 ∈ cans) := by
        split
        · intro _; exact him
        · exact hb
      by_cases hc : r.constant = true
      · rw [if_pos hc] at h
        cases hsw : swp d.cans (d.cans.length - (d.nConst + 1)) d.lastSample with
        | none => rw [hsw] at h; cases h
        | some c2 =>
          rw [hsw] at h
          cases h
          exact ⟨(swp_perm hsw).trans hp, hbest⟩
      · rw [if_neg hc] at h
        cases h
        exact ⟨hp, hbest⟩

theorem bestLoop_keeps {eval : σ → XF K → Nat → Option (Found K × σ)}
    {intn : σ → Nat → Option (Nat × σ)} {mTry : Nat} {force : Bool} {cans : List Nat} :
    ∀ (fuel j : Nat) (d d' : Draw K σ), d.cans.Perm cans → (d.split ≠ none → d.fi ∈ cans) →
      bestLoop eval intn mTry force fuel j d = some d' →
      d'.cans.Perm cans ∧ (d'.split ≠ none → d'.fi ∈ cans) := by
  intro fuel
  induction fuel with
  | zero => intro j d d' _ _ h; cases h
  | succ fuel ih =>
    intro j d d' hp hb h
    rw [bestLoop] at h
    split at h
    · split at h
      · cases h; exact ⟨hp, hb⟩
      · split at h
        · split at h
          · cases h
          · split at h
            · exact ih _ _ _ (by exact hp) (by exact hb) h
            · split at h
              · cases h
              · next hsw =>
                split at h
                · cases h
                · next he =>
                  obtain ⟨h1, h2⟩ := evalAt_keeps (cans := cans)
                    (by exact (swp_perm hsw).trans hp) (by exact hb) he
                  exact ih _ _ _ h1 h2 h
        · split at h
          · cases h
          · next he =>
            obtain ⟨h1, h2⟩ := evalAt_keeps hp hb he
            exact ih _ _ _ h1 h2 h
    · cases h; exact ⟨hp, hb⟩

/-- Whatever the data and the target, `BestSplitter` only rearranges the candidates, and splits on
one of them. -/
theorem bestSplitter_keeps {fm : FeatureMatrix K} {T : Target K} {C : Contrast K τ} {o : SplitOpts}
    {st : SplitState K} {cs : List Nat} {nc : Nat} {d : Draw K (Searching K τ)}
    (h : bestSplitter fm T C o st cs nc = some d) :
    d.cans.Perm st.cans ∧ (d.split ≠ none → d.fi ∈ st.cans) := by
  unfold bestSplitter at h
  split at h
  · cases h
  · simp only at h
    split at h
    · cases h
      exact ⟨.refl _, fun h => absurd rfl h⟩
    · exact bestLoop_keeps _ _ _ _ (by exact .refl _) (fun h => absurd rfl h) h

theorem Feature.decodeSplit_name {f : Feature K} {code : Coded K} {s : Splitter K}
    (h : f.decodeSplit code = some s) : s.feature = f.name := by
  cases f <;> cases code <;> simp [Feature.decodeSplit] at h <;> subst h <;> rfl

theorem growChildren_names {sm : Bool} {l r m : Node K} {R : String → Prop}
    (hl : ∀ s ∈ l.splitNames, R s) (hr : ∀ s ∈ r.splitNames, R s) (hm : ∀ s ∈ m.splitNames, R s) :
    (∀ s ∈ (growChildren sm l r m).1.splitNames, R s) ∧
    (∀ s ∈ (growChildren sm l r m).2.1.splitNames, R s) ∧
    (∀ s ∈ (growChildren sm l r m).2.2.splitNames, R s) := by
  have hf : ∀ s ∈ (Node.fresh : Node K).splitNames, R s := by
    intro s hs; simp [Node.fresh, Node.splitNames] at hs
  unfold growChildren
  refine ⟨?_, ?_, ?_⟩
  · simp only; split
    · exact hf
    · exact hl
  · simp only; split
    · exact hf
    · exact hr
  · simp only; split
    · exact hf
    · exact hm

/-- If the search, in the states `P`, splits on features whose names satisfy `R`, so does a tree,
unless other names were in the node it is grown on. -/
theorem grow_names {g : Grower K σ} {fm : FeatureMatrix K} {P : σ → Prop} {R : String → Prop}
    (hg : ∀ st cs nc st' res, P st → g.best st cs nc = some (st', res) →
      P st' ∧ (res.split ≠ none → ∀ f, fm.data[res.fi]? = some f → R f.name)) :
    ∀ (fuel : Nat) (n : Node K) (st : σ) (cs : List Nat) (d nc : Nat) (n' : Node K) (st' : σ),
      P st → (∀ s ∈ n.splitNames, R s) → grow g fm fuel n st cs d nc = some (n', st') →
      P st' ∧ ∀ s ∈ n'.splitNames, R s := by
  intro fuel
  induction fuel with
  | zero => intro n st cs d nc n' st' _ _ h; simp [grow] at h
  | succ fuel ih =>
    intro n st cs d nc n' st' hP hn h
    cases n with
    | nil => simp [grow] at h
    | mk c0 fi0 l r m p0 s0 =>
      have hl : ∀ s ∈ l.splitNames, R s := fun s hs => hn s (by simp [Node.splitNames, hs])
      have hr : ∀ s ∈ r.splitNames, R s := fun s hs => hn s (by simp [Node.splitNames, hs])
      have hm : ∀ s ∈ m.splitNames, R s := fun s hs => hn s (by simp [Node.splitNames, hs])
      have hleaf : ∀ p s, s ∈ (Node.mk none fi0 l r m p none : Node K).splitNames → R s := by
        intro p s hs
        simp only [Node.splitNames, Option.toList_none, List.map_nil, List.nil_append,
          List.mem_append] at hs
        rcases hs with (hs | hs) | hs
        · exact hl s hs
        · exact hr s hs
        · exact hm s hs
      rw [grow] at h
      by_cases hc : ((d : Int) < g.maxDepth ∨ g.maxDepth ≤ 0) ∧ 2 * g.leafSize ≤ cs.length
      · rw [if_pos hc] at h
        simp only [Option.bind_eq_bind] at h
        obtain ⟨⟨st1, res⟩, hb, h⟩ := Option.bind_eq_some_iff.1 h
        obtain ⟨hP1, hR⟩ := hg _ _ _ _ _ hP hb
        cases hres : res.split with
        | none =>
          simp only [hres] at h
          cases h
          exact ⟨hP1, hleaf _⟩
        | some code =>
          simp only [hres] at h
          obtain ⟨f, hf, h⟩ := Option.bind_eq_some_iff.1 h
          obtain ⟨spl, hs, h⟩ := Option.bind_eq_some_iff.1 h
          obtain ⟨⟨cs', li, ri⟩, hp, h⟩ := Option.bind_eq_some_iff.1 h
          obtain ⟨⟨nl, st2⟩, el, h⟩ := Option.bind_eq_some_iff.1 h
          obtain ⟨⟨nr, st3⟩, er, h⟩ := Option.bind_eq_some_iff.1 h
          obtain ⟨k1, k2, k3⟩ := growChildren_names (sm := g.splitmissing) hl hr hm
          obtain ⟨hP2, hnl⟩ := ih _ _ _ _ _ _ _ hP1 k1 el
          obtain ⟨hP3, hnr⟩ := ih _ _ _ _ _ _ _ hP2 k2 er
          have hname : R spl.feature := by
            rw [Feature.decodeSplit_name hs]; exact hR (by rw [hres]; simp) f hf
          have hnode : ∀ nm : Node K, (∀ s ∈ nm.splitNames, R s) → ∀ s ∈
              (Node.mk (some code) res.fi nl nr nm "" (some spl) : Node K).splitNames, R s := by
            intro nm hnm s hs
            simp only [Node.splitNames, Option.toList_some, List.map_cons, List.map_nil,
              List.mem_append, List.mem_singleton] at hs
            rcases hs with rfl | (hs | hs) | hs
            · exact hname
            · exact hnl s hs
            · exact hnr s hs
            · exact hnm s hs
          simp only at h
          split at h
          · obtain ⟨⟨nm, st4⟩, em, h⟩ := Option.bind_eq_some_iff.1 h
            obtain ⟨hP4, hnm⟩ := ih _ _ _ _ _ _ _ hP3 k3 em
            cases h
            exact ⟨hP4, hnode _ hnm⟩
          · cases h
            exact ⟨hP3, hnode _ k3⟩
      · rw [if_neg hc] at h
        cases h
        exact ⟨hP, hleaf _⟩

end CloudForest
