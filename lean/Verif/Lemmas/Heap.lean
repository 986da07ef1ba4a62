import Verif.Spec.Heap
import Verif.Lemmas.Values
import Verif.Lemmas.Shuffle
import Mathlib.Tactic.SplitIfs

/-!
# Lemmas on features in memory
-/

set_option linter.unusedSectionVars false

namespace CloudForest
variable {K : Type} [Field K] [LinearOrder K] [IsStrictOrderedRing K]

/-- What a change to one slice does to the arrays. -/
structure Slice.Step {α : Type} (s : Nat → List α) (next : Nat) (sl : Slice)
    (s' : Nat → List α) (next' : Nat) (sl' : Slice) : Prop where
  ok : sl'.OK s' next'
  le : next ≤ next'
  frame : ∀ a < next, a ≠ sl.addr → s' a = s a
  addr : sl'.addr = sl.addr ∨ next ≤ sl'.addr

section
variable {α : Type} {s : Nat → List α} {next : Nat} {sl : Slice}

theorem Slice.OK.view_length (h : sl.OK s next) : (sl.view s).length = sl.len := by
  rw [Slice.view, List.length_take]; have := h.len; omega

theorem Slice.OK.mono (h : sl.OK s next) {n : Nat} (hn : next ≤ n) : sl.OK s n :=
  ⟨by have := h.addr; omega, h.len⟩

theorem Slice.write_eq (h : sl.OK s next) (i : Nat) (x : α) :
    sl.write s i x = (wr (sl.view s) i x).map (sl.fill s) := by
  unfold Slice.write wr
  rw [h.view_length]
  by_cases hi : i < sl.len
  · rw [if_pos hi, if_pos hi]
    simp only [Option.map_some, Slice.fill, Slice.view, Option.some.injEq]
    congr 1
    have hl := h.len
    conv_lhs => rw [← List.take_append_drop sl.len (s sl.addr)]
    rw [List.set_append_left _ _ (by rw [List.length_take]; omega)]
  · rw [if_neg hi, if_neg hi]; rfl

theorem Slice.fill_view (l : List α) (hl : l.length = sl.len) : sl.view (sl.fill s l) = l := by
  simp [Slice.view, Slice.fill, arrSet, ← hl]

theorem Slice.fill_step (h : sl.OK s next) (l : List α) (hl : l.length = sl.len) :
    Slice.Step s next sl (sl.fill s l) next sl where
  ok := ⟨h.addr, by simp [Slice.fill, arrSet, hl]⟩
  le := le_refl _
  frame := fun a _ ha => by simp [Slice.fill, arrSet, ha]
  addr := .inl rfl

theorem Slice.Step.refl (h : sl.OK s next) : Slice.Step s next sl s next sl :=
  ⟨h, le_refl _, fun _ _ _ => rfl, .inl rfl⟩

theorem Slice.Step.mono {s' : Nat → List α} {n n' m : Nat} {sl' : Slice}
    (h : Slice.Step s n sl s' n' sl') (hm : n' ≤ m) : Slice.Step s n sl s' m sl' :=
  ⟨h.ok.mono hm, le_trans h.le hm, h.frame, h.addr⟩

/-- A step taken when more was allocated already. -/
theorem Slice.Step.weaken {s' : Nat → List α} {n0 n n' : Nat} {sl' : Slice}
    (h : Slice.Step s n sl s' n' sl') (h0 : n0 ≤ n) : Slice.Step s n0 sl s' n' sl' :=
  ⟨h.ok, le_trans h0 h.le, fun a ha hne => h.frame a (by omega) hne,
    h.addr.imp id fun h => le_trans h0 h⟩

theorem Slice.append_spec (grow : Nat → Nat) (zero : α) (h : sl.OK s next) (x : α) :
    (sl.append grow zero s next x).2.2.view (sl.append grow zero s next x).1 = sl.view s ++ [x] ∧
    (sl.append grow zero s next x).2.2.len = sl.len + 1 ∧
    Slice.Step s next sl (sl.append grow zero s next x).1 (sl.append grow zero s next x).2.1
      (sl.append grow zero s next x).2.2 := by
  have ha := h.addr
  have hl := h.len
  unfold Slice.append
  by_cases hc : sl.len < (s sl.addr).length
  · rw [if_pos hc]
    refine ⟨?_, rfl, ⟨ha, by simp [arrSet]; omega⟩, le_refl _, fun a _ hne => by simp [arrSet, hne], .inl rfl⟩
    simp only [Slice.view, arrSet, if_true]
    rw [List.take_succ, List.getElem?_set_self hc, List.take_set_of_le (le_refl _)]
    rfl
  · rw [if_neg hc]
    refine ⟨?_, rfl, ⟨by simp, ?_⟩, by simp, fun a hlt _ => ?_, .inr (le_refl _)⟩
    · simp only [Slice.view, arrSet, if_true]
      rw [List.take_append, List.take_of_length_le (by rw [List.length_take]; omega),
        List.length_take, Nat.min_eq_left hl]
      simp
    · simp [arrSet, h.view_length]
    · simp only [arrSet]; rw [if_neg (by omega)]

theorem Slice.clone_spec (zero : α) (h : sl.OK s next) (n : Nat) (hn : n = sl.len) :
    (sl.clone zero s next n).2.2.view (sl.clone zero s next n).1 = sl.view s ∧
    (sl.clone zero s next n).2.2.OK (sl.clone zero s next n).1 (sl.clone zero s next n).2.1 ∧
    (∀ a < next, (sl.clone zero s next n).1 a = s a) := by
  subst hn
  have hv := h.view_length
  have e : (sl.view s).take sl.len ++ List.replicate (sl.len - sl.len) zero = sl.view s := by
    rw [List.take_of_length_le (by omega)]; simp
  refine ⟨?_, ⟨?_, ?_⟩, ?_⟩
  · simp only [Slice.clone, e]
    simp only [Slice.view, arrSet, if_true]
    rw [List.take_take, Nat.min_self]
  · simp [Slice.clone]
  · simp [Slice.clone, arrSet, hv]
  · intro a ha
    simp only [Slice.clone, arrSet]
    rw [if_neg (by omega)]

theorem Slice.Step.other {s' : Nat → List α} {n' : Nat} {sl' o : Slice}
    (h : Slice.Step s next sl s' n' sl') (ho : o.OK s next) (hne : o.addr ≠ sl.addr) :
    o.OK s' n' ∧ o.view s' = o.view s ∧ o.addr ≠ sl'.addr := by
  have e := h.frame o.addr ho.addr hne
  refine ⟨⟨lt_of_lt_of_le ho.addr h.le, by rw [e]; exact ho.len⟩, by rw [Slice.view, e]; rfl, ?_⟩
  rcases h.addr with h1 | h1
  · rw [h1]; exact hne
  · have := ho.addr; omega

end

theorem imputeLoop_length {α : Type} (x : α) (miss : List Bool) : ∀ (data d' : List α),
    imputeLoop x miss data = some d' → d'.length = data.length := by
  induction miss with
  | nil => intro data d' h; simp only [imputeLoop, Option.some.injEq] at h; rw [h]
  | cons b miss ih =>
    intro data d' h
    cases data with
    | nil =>
      simp only [imputeLoop] at h
      split_ifs at h
      exact ih _ _ h
    | cons d data =>
      simp only [imputeLoop, Option.map_eq_some_iff] at h
      obtain ⟨r, hr, rfl⟩ := h
      simp [ih _ _ hr]

theorem shuffleAllLoop_length {α : Type} (n : Nat) : ∀ (k j : Nat), k = n - j →
    ∀ (miss : List Bool) (data : List α) (rng : Rng) (r : List Bool × List α × Rng),
      shuffleAllLoop n miss data rng j = some r →
      r.1.length = miss.length ∧ r.2.1.length = data.length := by
  intro k
  induction k with
  | zero =>
    intro j hj miss data rng r h
    rw [shuffleAllLoop, if_neg (by omega)] at h
    cases h; exact ⟨rfl, rfl⟩
  | succ k ih =>
    intro j hj miss data rng r h
    rw [shuffleAllLoop, if_pos (by omega)] at h
    cases hr : rng.intn (n - j) with
    | none => rw [hr] at h; cases h
    | some x =>
      obtain ⟨x, rng'⟩ := x
      rw [hr] at h
      simp only at h
      cases h1 : swp miss j (j + x) with
      | none => rw [h1] at h; cases h
      | some m' =>
        cases h2 : swp data j (j + x) with
        | none => rw [h1, h2] at h; cases h
        | some d' =>
          rw [h1, h2] at h
          simp only at h
          obtain ⟨e1, e2⟩ := ih (j + 1) (by omega) m' d' rng' r h
          exact ⟨e1.trans (swp_length h1), e2.trans (swp_length h2)⟩

/-! ## Any pair of features -/

theorem runPair_spec {O V : Type} (exec : HeapMem K → O → FeatureOp K → Option (HeapMem K × O))
    (view : HeapMem K → O → V) (apply : V → FeatureOp K → Option V) (ok : FeatureOp K → Prop)
    (Sep : HeapMem K → O → O → Prop) (symm : ∀ m a b, Sep m a b → Sep m b a)
    (step : ∀ m a b op, ok op → Sep m a b →
      (exec m a op).map (fun r => view r.1 r.2) = apply (view m a) op ∧
      ∀ r, exec m a op = some r → Sep r.1 r.2 b ∧ view r.1 b = view m b) :
    ∀ (prog : List (Bool × FeatureOp K)), (∀ p ∈ prog, ok p.2) → ∀ m a b, Sep m a b →
      (runPair exec prog m a b).map (fun r => (view r.1 r.2.1, view r.1 r.2.2)) =
        (do let x ← (changesTo true prog).foldlM apply (view m a)
            let y ← (changesTo false prog).foldlM apply (view m b)
            some (x, y)) := by
  intro prog
  induction prog with
  | nil => intro _ m a b _; rfl
  | cons p prog ih =>
    intro hok m a b hs
    obtain ⟨side, op⟩ := p
    have hop := hok _ List.mem_cons_self
    have hrest : ∀ p ∈ prog, ok p.2 := fun p hp => hok p (List.mem_cons_of_mem _ hp)
    cases side with
    | true =>
      obtain ⟨e1, e2⟩ := step m a b op hop hs
      have c1 : changesTo true ((true, op) :: prog) = op :: changesTo true prog := by simp [changesTo]
      have c2 : changesTo false ((true, op) :: prog) = changesTo false prog := by simp [changesTo]
      rw [c1, c2, List.foldlM_cons, ← e1]
      cases he : exec m a op with
      | none => simp [runPair, he]
      | some r =>
        obtain ⟨hs', hv⟩ := e2 r he
        have := ih hrest r.1 r.2 b hs'
        simp only [runPair, he, Option.bind_eq_bind, Option.bind_some, Option.map_some]
        simp only [Option.bind_eq_bind] at this
        rw [this, hv]
    | false =>
      obtain ⟨e1, e2⟩ := step m b a op hop (symm _ _ _ hs)
      have c1 : changesTo true ((false, op) :: prog) = changesTo true prog := by simp [changesTo]
      have c2 : changesTo false ((false, op) :: prog) = op :: changesTo false prog := by
        simp [changesTo]
      rw [c1, c2, List.foldlM_cons, ← e1]
      cases he : exec m b op with
      | none =>
        simp [runPair, he]
      | some r =>
        obtain ⟨hs', hv⟩ := e2 r he
        have := ih hrest r.1 a r.2 (symm _ _ _ hs')
        simp only [runPair, he, Option.bind_eq_bind, Option.bind_some, Option.map_some]
        simp only [Option.bind_eq_bind] at this
        rw [this, hv]

/-! ## Numerical features -/

/-- Two numerical features without shared arrays. -/
structure NumObj.Sep (m : HeapMem K) (a b : NumObj) : Prop where
  okA : a.OK m
  okB : b.OK m
  data : a.data.addr ≠ b.data.addr
  missing : a.missing.addr ≠ b.missing.addr

theorem NumObj.Sep.symm {m : HeapMem K} {a b : NumObj} (h : NumObj.Sep m a b) : NumObj.Sep m b a :=
  ⟨h.okB, h.okA, h.data.symm, h.missing.symm⟩

/-- What a change to a numerical feature does to memory. -/
structure NumObj.Step (m : HeapMem K) (o : NumObj) (m' : HeapMem K) (o' : NumObj) : Prop where
  data : Slice.Step m.flts m.next o.data m'.flts m'.next o'.data
  missing : Slice.Step m.bools m.next o.missing m'.bools m'.next o'.missing
  lengths : o'.data.len = o'.missing.len

theorem NumObj.Step.sep {m m' : HeapMem K} {a b a' : NumObj} (h : NumObj.Step m a m' a')
    (hs : NumObj.Sep m a b) : NumObj.Sep m' a' b ∧ b.view m' = b.view m := by
  obtain ⟨o1, v1, n1⟩ := h.data.other hs.okB.data hs.data.symm
  obtain ⟨o2, v2, n2⟩ := h.missing.other hs.okB.missing hs.missing.symm
  refine ⟨⟨⟨h.data.ok, h.missing.ok, h.lengths⟩, ⟨o1, o2, hs.okB.lengths⟩, n1.symm, n2.symm⟩, ?_⟩
  simp only [NumObj.view, v1, v2]

theorem NumObj.append_spec (grow : Nat → Nat) {m : HeapMem K} {o : NumObj} (h : o.OK m) (x : XF K)
    (b : Bool) :
    (o.append grow m x b).2.view (o.append grow m x b).1 =
      ⟨(o.view m).numData ++ [x], (o.view m).missing ++ [b], o.name, o.hasMissing || b⟩ ∧
    NumObj.Step m o (o.append grow m x b).1 (o.append grow m x b).2 := by
  obtain ⟨v1, l1, s1⟩ := Slice.append_spec grow (.fin 0) h.data x
  obtain ⟨v2, l2, s2⟩ := Slice.append_spec grow false (h.missing.mono s1.le) b
  refine ⟨?_, ?_, ?_, ?_⟩
  · simp only [NumObj.append, NumObj.view, v1, v2]
  · exact s1.mono s2.le
  · exact s2.weaken s1.le
  · simp only [NumObj.append]
    rw [l1, l2, h.lengths]

theorem NumObj.put_spec {m : HeapMem K} {o : NumObj} (h : o.OK m) (i : Nat) (x : XF K) :
    (o.put m i x).map (fun r => r.2.view r.1) = (o.view m).put i x ∧
    ∀ r, o.put m i x = some r → NumObj.Step m o r.1 r.2 := by
  have e : o.put m i x = (do
      let d ← wr (o.data.view m.flts) i x
      let b ← wr (o.missing.view m.bools) i false
      some ({ m with flts := o.data.fill m.flts d, bools := o.missing.fill m.bools b }, o)) := by
    unfold NumObj.put
    rw [Slice.write_eq h.data, Slice.write_eq h.missing]
    cases wr (o.data.view m.flts) i x <;> cases wr (o.missing.view m.bools) i false <;> rfl
  rw [e]
  unfold NumFeature.put NumObj.view
  cases h1 : wr (o.data.view m.flts) i x with
  | none => exact ⟨rfl, fun r hr => by cases hr⟩
  | some d =>
    cases h2 : wr (o.missing.view m.bools) i false with
    | none => exact ⟨rfl, fun r hr => by cases hr⟩
    | some b =>
      have l1 : d.length = o.data.len := by
        rw [(wr_spec h1).2, List.length_set, h.data.view_length]
      have l2 : b.length = o.missing.len := by
        rw [(wr_spec h2).2, List.length_set, h.missing.view_length]
      refine ⟨?_, fun r hr => ?_⟩
      · simp only [Option.bind_eq_bind, Option.bind_some, Option.map_some,
          Slice.fill_view d l1, Slice.fill_view b l2]
      · simp only [Option.bind_eq_bind, Option.bind_some, Option.some.injEq] at hr
        subst hr
        exact ⟨Slice.fill_step h.data d l1, Slice.fill_step h.missing b l2, h.lengths⟩

theorem NumObj.putMissing_spec {m : HeapMem K} {o : NumObj} (h : o.OK m) (i : Nat) :
    (o.putMissing m i).map (fun r => r.2.view r.1) = (o.view m).putMissing i ∧
    ∀ r, o.putMissing m i = some r → NumObj.Step m o r.1 r.2 := by
  unfold NumObj.putMissing NumFeature.putMissing
  rw [Slice.write_eq h.missing]
  simp only [NumObj.view]
  cases h2 : wr (o.missing.view m.bools) i true with
  | none => exact ⟨rfl, fun r hr => by cases hr⟩
  | some b =>
    have l2 : b.length = o.missing.len := by
      rw [(wr_spec h2).2, List.length_set, h.missing.view_length]
    refine ⟨?_, fun r hr => ?_⟩
    · simp only [Option.bind_eq_bind, Option.bind_some, Option.map_some, Slice.fill_view b l2]
    · simp only [Option.map_some, Option.bind_eq_bind, Option.bind_some, Option.some.injEq] at hr
      subst hr
      exact ⟨Slice.Step.refl h.data, Slice.fill_step h.missing b l2, h.lengths⟩

theorem NumObj.exec_spec (nt : NumText K) (grow : Nat → Nat) {m : HeapMem K} {o : NumObj} (h : o.OK m)
    (op : FeatureOp K) :
    (o.exec nt grow m op).map (fun r => Feature.num (r.2.view r.1)) =
      (Feature.num (o.view m)).apply nt op ∧
    ∀ r, o.exec nt grow m op = some r → NumObj.Step m o r.1 r.2 := by
  have lift : ∀ {x : Option (HeapMem K × NumObj)} {y : Option (NumFeature K)},
      x.map (fun r => r.2.view r.1) = y →
      x.map (fun r => Feature.num (r.2.view r.1)) = y.map Feature.num := by
    intro x y e
    rw [← e, Option.map_map]; rfl
  cases op with
  | append v =>
    simp only [NumObj.exec, Feature.apply, NumFeature.append]
    cases nt.parse v.toList with
    | none =>
      obtain ⟨e, s⟩ := NumObj.append_spec grow h (.fin 0) true
      refine ⟨?_, fun r hr => ?_⟩
      · simp only [Option.map_some, e]
        simp [NumObj.view]
      · cases hr; exact s
    | some x =>
      obtain ⟨e, s⟩ := NumObj.append_spec grow h x false
      refine ⟨?_, fun r hr => ?_⟩
      · simp only [Option.map_some, e]
        simp [NumObj.view]
      · cases hr; exact s
  | puti i v => exact ⟨rfl, fun r hr => by cases hr⟩
  | put i x =>
    obtain ⟨e, s⟩ := NumObj.put_spec h i x
    exact ⟨lift e, s⟩
  | putStr i v =>
    simp only [NumObj.exec, Feature.apply, NumFeature.putStr]
    cases nt.parse v.toList with
    | none =>
      obtain ⟨e, s⟩ := NumObj.putMissing_spec h i
      exact ⟨lift e, s⟩
    | some x =>
      obtain ⟨e, s⟩ := NumObj.put_spec h i x
      exact ⟨lift e, s⟩
  | putMissing i =>
    obtain ⟨e, s⟩ := NumObj.putMissing_spec h i
    exact ⟨lift e, s⟩
  | impute =>
    simp only [NumObj.exec, Feature.apply]
    cases he : (o.view m).imputeMissing with
    | none => exact ⟨rfl, fun r hr => by cases hr⟩
    | some f =>
      have h0 := he
      unfold NumFeature.imputeMissing at he
      simp only [Option.bind_eq_bind, Option.bind_eq_some_iff, Option.some.injEq] at he
      obtain ⟨mean, _, d, hd, rfl⟩ := he
      have l1 : d.length = o.data.len := by
        rw [imputeLoop_length _ _ _ _ hd]; exact h.data.view_length
      have l2 : ((o.view m).missing.map fun _ => false).length = o.missing.len := by
        rw [List.length_map]; exact h.missing.view_length
      refine ⟨?_, fun r hr => ?_⟩
      · simp only [Option.bind_eq_bind, Option.bind_some, Option.map_some, NumObj.view,
          Slice.fill_view d l1]
        simp only [NumObj.view] at l2
        rw [Slice.fill_view _ l2]
      · simp only [Option.bind_eq_bind, Option.bind_some, Option.some.injEq] at hr
        subst hr
        exact ⟨Slice.fill_step h.data d l1, Slice.fill_step h.missing _ l2, h.lengths⟩
  | shuffle rng =>
    simp only [NumObj.exec, Feature.apply, Feature.shuffle]
    have hl : (o.view m).missing.length = o.missing.len := h.missing.view_length
    rw [hl]
    cases he : shuffleAllLoop o.missing.len (o.view m).missing (o.view m).numData rng 0 with
    | none => exact ⟨rfl, fun r hr => by cases hr⟩
    | some r =>
      obtain ⟨miss, data, rng'⟩ := r
      obtain ⟨l2, l1⟩ := shuffleAllLoop_length _ _ 0 rfl _ _ _ _ he
      have l1 : data.length = o.data.len := l1.trans h.data.view_length
      have l2 : miss.length = o.missing.len := l2.trans h.missing.view_length
      refine ⟨?_, fun r hr => ?_⟩
      · simp only [Option.bind_eq_bind, Option.bind_some, Option.map_some, NumObj.view,
          Slice.fill_view data l1, Slice.fill_view miss l2]
      · simp only [Option.bind_eq_bind, Option.bind_some, Option.some.injEq] at hr
        subst hr
        exact ⟨Slice.fill_step h.data data l1, Slice.fill_step h.missing _ l2, h.lengths⟩

theorem NumObj.copy_spec {m : HeapMem K} {o : NumObj} (h : o.OK m) :
    (o.copy m).2.view (o.copy m).1 = { o.view m with hasMissing := false } ∧
    o.view (o.copy m).1 = o.view m ∧ NumObj.Sep (o.copy m).1 o (o.copy m).2 := by
  obtain ⟨v1, k1, f1⟩ := Slice.clone_spec false h.missing o.missing.len rfl
  have hd : o.data.OK m.flts (m.next + 1) := h.data.mono (by omega)
  obtain ⟨v2, k2, f2⟩ := Slice.clone_spec (.fin 0) hd o.missing.len h.lengths.symm
  have a1 := h.missing.addr
  have a2 := h.data.addr
  have e1 := f1 o.missing.addr a1
  have e2 := f2 o.data.addr (by omega)
  refine ⟨?_, ?_, ⟨⟨⟨?_, ?_⟩, ⟨?_, ?_⟩, h.lengths⟩, ⟨k2, k1.mono ?_, rfl⟩, ?_, ?_⟩⟩
  · change NumFeature.mk _ _ _ _ = _
    unfold NumObj.view
    simp only
    congr 1
  · unfold NumObj.view
    congr 1
    · exact congrArg (List.take _) e2
    · exact congrArg (List.take _) e1
  · change _ < _ + 1 + 1; omega
  · exact (congrArg List.length e2).symm ▸ h.data.len
  · change _ < _ + 1 + 1; omega
  · exact (congrArg List.length e1).symm ▸ h.missing.len
  · change _ + 1 ≤ _ + 1 + 1; omega
  · change _ ≠ _ + 1; omega
  · change _ ≠ m.next; omega

/-! ## Categorical features -/

/-- Two categorical features that share no arrays but perhaps those of the categories, with
categories `g`. -/
structure CatObj.Sep (g : String → Option Nat) (m : HeapMem K) (a b : CatObj) : Prop where
  okA : a.OK m
  okB : b.OK m
  data : a.data.addr ≠ b.data.addr
  missing : a.missing.addr ≠ b.missing.addr
  mapA : m.maps a.map = g
  mapB : m.maps b.map = g

theorem CatObj.Sep.symm {g : String → Option Nat} {m : HeapMem K} {a b : CatObj}
    (h : CatObj.Sep g m a b) : CatObj.Sep g m b a :=
  ⟨h.okB, h.okA, h.data.symm, h.missing.symm, h.mapB, h.mapA⟩

/-- What a change without a new category does to memory. -/
structure CatObj.Step (m : HeapMem K) (o : CatObj) (m' : HeapMem K) (o' : CatObj) : Prop where
  data : Slice.Step m.ints m.next o.data m'.ints m'.next o'.data
  missing : Slice.Step m.bools m.next o.missing m'.bools m'.next o'.missing
  lengths : o'.data.len = o'.missing.len
  strs : m'.strs = m.strs
  maps : m'.maps = m.maps
  map : o'.map = o.map
  back : o'.back = o.back

theorem CatObj.Step.sep {g : String → Option Nat} {m m' : HeapMem K} {a b a' : CatObj}
    (h : CatObj.Step m a m' a') (hs : CatObj.Sep g m a b) :
    CatObj.Sep g m' a' b ∧ b.view m' = b.view m := by
  obtain ⟨o1, v1, n1⟩ := h.data.other hs.okB.data hs.data.symm
  obtain ⟨o2, v2, n2⟩ := h.missing.other hs.okB.missing hs.missing.symm
  have hle := h.data.le
  refine ⟨⟨⟨?_, ?_, h.data.ok, h.missing.ok, h.lengths⟩, ⟨?_, ?_, o1, o2, hs.okB.lengths⟩, n1.symm,
    n2.symm, ?_, ?_⟩, ?_⟩
  · rw [h.map]; exact lt_of_lt_of_le hs.okA.map hle
  · rw [h.back, h.strs]; exact hs.okA.back.mono hle
  · exact lt_of_lt_of_le hs.okB.map hle
  · rw [h.strs]; exact hs.okB.back.mono hle
  · rw [h.maps, h.map]; exact hs.mapA
  · rw [h.maps]; exact hs.mapB
  · simp only [CatObj.view, v1, v2, h.maps, h.strs]

theorem CatObj.append_spec (grow : Nat → Nat) {m : HeapMem K} {o : CatObj} (h : o.OK m) (x : Nat)
    (b : Bool) :
    (o.append grow m x b).2.view (o.append grow m x b).1 =
      { o.view m with catData := (o.view m).catData ++ [x], missing := (o.view m).missing ++ [b],
                      hasMissing := o.hasMissing || b } ∧
    CatObj.Step m o (o.append grow m x b).1 (o.append grow m x b).2 := by
  obtain ⟨v1, l1, s1⟩ := Slice.append_spec grow 0 h.data x
  obtain ⟨v2, l2, s2⟩ := Slice.append_spec grow false (h.missing.mono s1.le) b
  refine ⟨?_, ?_, ?_, ?_, rfl, rfl, rfl, rfl⟩
  · simp only [CatObj.append, CatObj.view, v1, v2]
  · exact s1.mono s2.le
  · exact s2.weaken s1.le
  · simp only [CatObj.append]
    rw [l1, l2, h.lengths]

theorem CatObj.puti_spec {m : HeapMem K} {o : CatObj} (h : o.OK m) (i x : Nat) :
    (o.puti m i x).map (fun r => r.2.view r.1) = (o.view m).puti i x ∧
    ∀ r, o.puti m i x = some r → CatObj.Step m o r.1 r.2 := by
  have e : o.puti m i x = (do
      let d ← wr (o.data.view m.ints) i x
      let b ← wr (o.missing.view m.bools) i false
      some ({ m with ints := o.data.fill m.ints d, bools := o.missing.fill m.bools b }, o)) := by
    unfold CatObj.puti
    rw [Slice.write_eq h.data, Slice.write_eq h.missing]
    cases wr (o.data.view m.ints) i x <;> cases wr (o.missing.view m.bools) i false <;> rfl
  rw [e]
  unfold CatFeature.puti CatObj.view
  cases h1 : wr (o.data.view m.ints) i x with
  | none => exact ⟨rfl, fun r hr => by cases hr⟩
  | some d =>
    cases h2 : wr (o.missing.view m.bools) i false with
    | none => exact ⟨rfl, fun r hr => by cases hr⟩
    | some b =>
      have l1 : d.length = o.data.len := by
        rw [(wr_spec h1).2, List.length_set, h.data.view_length]
      have l2 : b.length = o.missing.len := by
        rw [(wr_spec h2).2, List.length_set, h.missing.view_length]
      refine ⟨?_, fun r hr => ?_⟩
      · simp only [Option.bind_eq_bind, Option.bind_some, Option.map_some,
          Slice.fill_view d l1, Slice.fill_view b l2]
      · simp only [Option.bind_eq_bind, Option.bind_some, Option.some.injEq] at hr
        subst hr
        exact ⟨Slice.fill_step h.data d l1, Slice.fill_step h.missing b l2, h.lengths, rfl, rfl, rfl,
          rfl⟩

theorem CatObj.putMissing_spec {m : HeapMem K} {o : CatObj} (h : o.OK m) (i : Nat) :
    (o.putMissing m i).map (fun r => r.2.view r.1) = (o.view m).putMissing i ∧
    ∀ r, o.putMissing m i = some r → CatObj.Step m o r.1 r.2 := by
  unfold CatObj.putMissing CatFeature.putMissing
  rw [Slice.write_eq h.missing]
  simp only [CatObj.view]
  cases h2 : wr (o.missing.view m.bools) i true with
  | none => exact ⟨rfl, fun r hr => by cases hr⟩
  | some b =>
    have l2 : b.length = o.missing.len := by
      rw [(wr_spec h2).2, List.length_set, h.missing.view_length]
    refine ⟨?_, fun r hr => ?_⟩
    · simp only [Option.bind_eq_bind, Option.bind_some, Option.map_some, Slice.fill_view b l2]
    · simp only [Option.map_some, Option.bind_eq_bind, Option.bind_some, Option.some.injEq] at hr
      subst hr
      exact ⟨Slice.Step.refl h.data, Slice.fill_step h.missing b l2, h.lengths, rfl, rfl, rfl, rfl⟩

theorem CatObj.Step.ok {m m' : HeapMem K} {o o' : CatObj} (h : CatObj.Step m o m' o') (ho : o.OK m) :
    o'.OK m' :=
  ⟨by rw [h.map]; exact lt_of_lt_of_le ho.map h.data.le,
    by rw [h.back, h.strs]; exact ho.back.mono h.data.le, h.data.ok, h.missing.ok, h.lengths⟩

theorem Slice.Step.trans {α : Type} {s s' s'' : Nat → List α} {n n' n'' : Nat} {a b c : Slice}
    (ha : a.addr < n) (h1 : Slice.Step s n a s' n' b) (h2 : Slice.Step s' n' b s'' n'' c) :
    Slice.Step s n a s'' n'' c := by
  refine ⟨h2.ok, le_trans h1.le h2.le, fun x hx hne => ?_, ?_⟩
  · have hxb : x ≠ b.addr := by
      rcases h1.addr with h | h
      · rw [h]; exact hne
      · omega
    rw [h2.frame x (lt_of_lt_of_le hx h1.le) hxb, h1.frame x hx hne]
  · rcases h2.addr with h | h
    · rw [h]; exact h1.addr
    · exact .inr (le_trans h1.le h)

theorem CatObj.exec_spec (nt : NumText K) (grow : Nat → Nat) {m : HeapMem K} {o : CatObj} (h : o.OK m)
    (op : FeatureOp K) (hk : op.Known (m.maps o.map)) :
    (o.exec grow m op).map (fun r => Feature.cat (r.2.view r.1)) =
      (Feature.cat (o.view m)).apply nt op ∧
    ∀ r, o.exec grow m op = some r → CatObj.Step m o r.1 r.2 := by
  have lift : ∀ {x : Option (HeapMem K × CatObj)} {y : Option CatFeature},
      x.map (fun r => r.2.view r.1) = y →
      x.map (fun r => Feature.cat (K := K) (r.2.view r.1)) = y.map Feature.cat := by
    intro x y e
    rw [← e, Option.map_map]; rfl
  cases op with
  | append v =>
    simp only [CatObj.exec, Feature.apply, CatFeature.append]
    by_cases ht : isMissingToken v = true
    · obtain ⟨e, s⟩ := CatObj.append_spec grow h 0 true
      rw [if_pos ht, if_pos ht]
      refine ⟨?_, fun r hr => ?_⟩
      · simp only [Option.map_some, e]
        simp
      · cases hr; exact s
    · rw [if_neg ht, if_neg ht]
      have hk' : (m.maps o.map v).isSome := hk.resolve_left ht
      obtain ⟨n, hn⟩ := Option.isSome_iff_exists.1 hk'
      obtain ⟨e, s⟩ := CatObj.append_spec grow h n false
      have e1 : o.catToNum grow m v = (n, m, o) := by simp only [CatObj.catToNum, hn]
      have e2 : (o.view m).cm.catToNum v = (n, (o.view m).cm) := by
        unfold CatMap.catToNum
        have : (o.view m).cm.map v = some n := hn
        rw [this]
      rw [e1, e2]
      refine ⟨?_, fun r hr => ?_⟩
      · simp only [Option.map_some, e]
        simp [CatObj.view]
      · cases hr; exact s
  | puti i v =>
    obtain ⟨e, s⟩ := CatObj.puti_spec h i v
    exact ⟨lift e, s⟩
  | put i x => exact ⟨rfl, fun r hr => by cases hr⟩
  | putStr i v =>
    obtain ⟨n, hn⟩ := Option.isSome_iff_exists.1 hk
    simp only [CatObj.exec, Feature.apply, CatFeature.putStr]
    by_cases ht : isMissingToken v = true
    · rw [if_pos ht, if_pos ht]
      obtain ⟨e, s⟩ := CatObj.putMissing_spec h i
      cases hp : o.putMissing m i with
      | none =>
        rw [hp] at e
        rw [← e]
        exact ⟨rfl, fun r hr => by cases hr⟩
      | some r =>
        rw [hp] at e
        rw [← e]
        have s1 := s r hp
        have hn' : r.1.maps r.2.map v = some n := by rw [s1.maps, s1.map]; exact hn
        obtain ⟨e3, s3⟩ := CatObj.puti_spec (s1.ok h) i n
        have e1 : r.2.catToNum grow r.1 v = (n, r.1, r.2) := by simp only [CatObj.catToNum, hn']
        have e2 : (r.2.view r.1).cm.catToNum v = (n, (r.2.view r.1).cm) := by
          unfold CatMap.catToNum
          have : (r.2.view r.1).cm.map v = some n := hn'
          rw [this]
        simp only [Option.map_some, Option.bind_eq_bind, Option.bind_some, e1, e2]
        refine ⟨lift e3, fun q hq => ?_⟩
        have s4 := s3 q hq
        exact ⟨s1.data.trans h.data.addr s4.data, s1.missing.trans h.missing.addr s4.missing,
          s4.lengths, s4.strs.trans s1.strs, s4.maps.trans s1.maps, s4.map.trans s1.map,
          s4.back.trans s1.back⟩
    · rw [if_neg ht, if_neg ht]
      obtain ⟨e3, s3⟩ := CatObj.puti_spec h i n
      have e1 : o.catToNum grow m v = (n, m, o) := by simp only [CatObj.catToNum, hn]
      have e2 : (o.view m).cm.catToNum v = (n, (o.view m).cm) := by
        unfold CatMap.catToNum
        have : (o.view m).cm.map v = some n := hn
        rw [this]
      simp only [Option.bind_eq_bind, Option.bind_some, e1, e2]
      exact ⟨lift e3, s3⟩
  | putMissing i =>
    obtain ⟨e, s⟩ := CatObj.putMissing_spec h i
    exact ⟨lift e, s⟩
  | impute =>
    simp only [CatObj.exec, Feature.apply]
    cases he : (o.view m).imputeMissing with
    | none => exact ⟨rfl, fun r hr => by cases hr⟩
    | some f =>
      unfold CatFeature.imputeMissing at he
      simp only [Option.bind_eq_bind, Option.bind_eq_some_iff, Option.some.injEq] at he
      obtain ⟨mode, _, d, hd, rfl⟩ := he
      have l1 : d.length = o.data.len := by
        rw [imputeLoop_length _ _ _ _ hd]; exact h.data.view_length
      have l2 : ((o.view m).missing.map fun _ => false).length = o.missing.len := by
        rw [List.length_map]; exact h.missing.view_length
      refine ⟨?_, fun r hr => ?_⟩
      · simp only [Option.bind_eq_bind, Option.bind_some, Option.map_some, CatObj.view,
          Slice.fill_view d l1]
        simp only [CatObj.view] at l2
        rw [Slice.fill_view _ l2]
      · simp only [Option.bind_eq_bind, Option.bind_some, Option.some.injEq] at hr
        subst hr
        exact ⟨Slice.fill_step h.data d l1, Slice.fill_step h.missing _ l2, h.lengths, rfl, rfl, rfl,
          rfl⟩
  | shuffle rng =>
    simp only [CatObj.exec, Feature.apply, Feature.shuffle]
    have hl : (o.view m).missing.length = o.missing.len := h.missing.view_length
    rw [hl]
    cases he : shuffleAllLoop o.missing.len (o.view m).missing (o.view m).catData rng 0 with
    | none => exact ⟨rfl, fun r hr => by cases hr⟩
    | some r =>
      obtain ⟨miss, data, rng'⟩ := r
      obtain ⟨l2, l1⟩ := shuffleAllLoop_length _ _ 0 rfl _ _ _ _ he
      have l1 : data.length = o.data.len := l1.trans h.data.view_length
      have l2 : miss.length = o.missing.len := l2.trans h.missing.view_length
      refine ⟨?_, fun r hr => ?_⟩
      · simp only [Option.bind_eq_bind, Option.bind_some, Option.map_some, CatObj.view,
          Slice.fill_view data l1, Slice.fill_view miss l2]
      · simp only [Option.bind_eq_bind, Option.bind_some, Option.some.injEq] at hr
        subst hr
        exact ⟨Slice.fill_step h.data data l1, Slice.fill_step h.missing _ l2, h.lengths, rfl, rfl,
          rfl, rfl⟩

theorem CatObj.copy_spec {m : HeapMem K} {o : CatObj} (h : o.OK m) :
    (o.copy m).2.view (o.copy m).1 = o.view m ∧
    o.view (o.copy m).1 = o.view m ∧ CatObj.Sep (m.maps o.map) (o.copy m).1 o (o.copy m).2 := by
  obtain ⟨v1, k1, f1⟩ := Slice.clone_spec false h.missing o.missing.len rfl
  have hd : o.data.OK m.ints (m.next + 1) := h.data.mono (by omega)
  obtain ⟨v2, k2, f2⟩ := Slice.clone_spec 0 hd o.missing.len h.lengths.symm
  have a1 := h.missing.addr
  have a2 := h.data.addr
  have a3 := h.map
  have e1 := f1 o.missing.addr a1
  have e2 := f2 o.data.addr (by omega)
  have hb : o.back.OK (o.copy m).1.strs (o.copy m).1.next := h.back.mono (by
    change m.next ≤ m.next + 1 + 1; omega)
  have hm : o.map < (o.copy m).1.next := by change _ < m.next + 1 + 1; omega
  refine ⟨?_, ?_, ⟨⟨hm, hb, ⟨?_, ?_⟩, ⟨?_, ?_⟩, h.lengths⟩, ⟨hm, hb, k2, k1.mono ?_, rfl⟩, ?_, ?_,
    rfl, rfl⟩⟩
  · change CatFeature.mk _ _ _ _ _ _ = _
    unfold CatObj.view
    congr 1
  · unfold CatObj.view
    congr 1
    · exact congrArg (List.take _) e2
    · exact congrArg (List.take _) e1
  · change _ < _ + 1 + 1; omega
  · exact (congrArg List.length e2).symm ▸ h.data.len
  · change _ < _ + 1 + 1; omega
  · exact (congrArg List.length e1).symm ▸ h.missing.len
  · change _ + 1 ≤ _ + 1 + 1; omega
  · change _ ≠ _ + 1; omega
  · change _ ≠ m.next; omega

end CloudForest
