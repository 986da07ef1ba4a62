import Verif.Model.NumMode
import Verif.Spec.NumMode
import Verif.Spec.Values
import Mathlib.Data.List.Count
import Mathlib.Data.List.Induction
import Mathlib.Tactic.Linarith

/-!
# C174: the most frequent number
-/

set_option linter.unusedSectionVars false
namespace CloudForest
variable {K : Type} [Field K] [LinearOrder K] [IsStrictOrderedRing K]

/-! ## Proof -/

theorem countKey_fst {x : XF K} (hx : x ≠ .nan) : ∀ (es : List (XF K × Nat)) (k : XF K), k ∈ (countKey x es).map (·.1) ↔ k = x ∨ k ∈ es.map (·.1)
  | [], k => by simp [countKey]
  | (k', v) :: es, k => by
    rw [countKey]
    split
    · next h =>
      have : k' = x := h.2
      subst this
      simp
    · simp only [List.map_cons, List.mem_cons, countKey_fst hx es k]
      tauto

theorem countKey_nodup {x : XF K} (hx : x ≠ .nan) : ∀ (es : List (XF K × Nat)), (es.map (·.1)).Nodup → ((countKey x es).map (·.1)).Nodup
  | [], _ => by simp [countKey]
  | (k', v) :: es, h => by
    rw [List.map_cons, List.nodup_cons] at h
    rw [countKey]
    split
    · rw [List.map_cons, List.nodup_cons]
      exact h
    · next hne =>
      rw [List.map_cons, List.nodup_cons]
      refine ⟨fun hm => ?_, countKey_nodup hx es h.2⟩
      rcases (countKey_fst hx es _).1 hm with h1 | h1
      · have h2 : k' = x := h1
        exact hne ⟨by rw [h2]; exact hx, h2⟩
      · exact h.1 h1

theorem countKey_count {x : XF K} (hx : x ≠ .nan) {n : XF K → Nat} : ∀ (es : List (XF K × Nat)), (es.map (·.1)).Nodup →
    (∀ e ∈ es, e.2 = n e.1) → (x ∉ es.map (·.1) → n x = 0) → ∀ e ∈ countKey x es, e.2 = n e.1 + if e.1 = x then 1 else 0
  | [], _, _, h0, e, he => by
    simp only [countKey, List.mem_singleton] at he
    subst he
    simp [h0]
  | (k', v) :: es, hd, hn, h0, e, he => by
    rw [List.map_cons, List.nodup_cons] at hd
    rw [countKey] at he
    split at he
    · next h =>
      have hk : k' = x := h.2
      subst hk
      rcases List.mem_cons.1 he with rfl | he'
      · have h5 : v = n k' := hn (k', v) (by simp)
        simp [h5]
      · rw [if_neg, hn e (by simp [he']), Nat.add_zero]
        intro h6
        exact hd.1 (List.mem_map.2 ⟨e, he', h6⟩)
    · next h =>
      have hk : k' ≠ x := fun hk => h ⟨by rw [hk]; exact hx, hk⟩
      rcases List.mem_cons.1 he with rfl | he
      · rw [if_neg hk, hn (k', v) (by simp)]
        rfl
      · refine countKey_count hx es hd.2 (fun e he => hn e (by simp [he])) (fun hm => h0 ?_) e he
        rw [List.map_cons, List.mem_cons, not_or]
        exact ⟨fun h => hk h.symm, hm⟩

/-- What the map has after some values: each value once, with the number of times it has come. -/
theorem counted {vals : List (XF K)} (hv : XF.nan ∉ vals) : ∃ es : List (XF K × Nat), vals.foldl (fun acc x => countKey x acc) [] = es ∧
    (es.map (·.1)).Nodup ∧ (∀ e ∈ es, e.2 = vals.count e.1) ∧ ∀ x, x ∈ es.map (·.1) ↔ x ∈ vals := by
  induction vals using List.reverseRec with
  | nil => exact ⟨[], rfl, by simp, by simp, by simp⟩
  | append_singleton vs x ih =>
    simp only [List.mem_append, List.mem_singleton, not_or] at hv
    obtain ⟨es, h1, h2, h3, h4⟩ := ih hv.1
    have hx : x ≠ .nan := fun h => hv.2 h.symm
    refine ⟨countKey x es, by rw [List.foldl_append, h1]; rfl, countKey_nodup hx es h2, fun e he => ?_, fun y => ?_⟩
    · rw [countKey_count (n := fun y => vs.count y) hx es h2 h3 (fun hm => List.count_eq_zero.2 fun h => hm ((h4 x).2 h)) e he, List.count_append]
      congr 1
      by_cases h : e.1 = x
      · simp [h]
      · rw [if_neg h, List.count_eq_zero.2]
        simpa using h
    · rw [countKey_fst hx, h4, List.mem_append, List.mem_singleton]
      tauto

theorem pickMost_from (es : List (XF K × Nat)) : ∀ a : XF K × Nat,
    (es.foldl (fun (acc : XF K × Nat) e => if acc.2 < e.2 then e else acc) a) ∈ a :: es ∧
    ∀ e ∈ a :: es, e.2 ≤ (es.foldl (fun (acc : XF K × Nat) e => if acc.2 < e.2 then e else acc) a).2 := by
  induction es with
  | nil => simp
  | cons b es ih =>
    intro a
    rw [List.foldl_cons]
    obtain ⟨h1, h2⟩ := ih (if a.2 < b.2 then b else a)
    refine ⟨?_, ?_⟩
    · rcases List.mem_cons.1 h1 with h | h
      · rw [h]
        split <;> simp
      · simp [h]
    · have h3 := h2 _ (List.mem_cons_self ..)
      intro e he
      rcases List.mem_cons.1 he with rfl | he
      · split at h3 <;> rename_i hlt
        · rw [if_pos hlt]
          omega
        · rw [if_neg hlt]
          exact h3
      · rcases List.mem_cons.1 he with rfl | he
        · split at h3 <;> rename_i hlt
          · rw [if_pos hlt]
            exact h3
          · rw [if_neg hlt]
            omega
        · exact h2 e (by simp [he])

theorem numCounts_eq {f : NumFeature K} {cases : List Nat} (h : ∀ c ∈ cases, c < f.missing.length ∧ c < f.numData.length) :
    f.numCounts cases = some ((f.knownValues cases).foldl (fun acc x => countKey x acc) []) := by
  unfold NumFeature.numCounts NumFeature.knownValues
  generalize ([] : List (XF K × Nat)) = acc
  induction cases generalizing acc with
  | nil => rfl
  | cons c cs ih =>
    obtain ⟨h1, h2⟩ := h c (by simp)
    have ih := ih (fun d hd => h d (by simp [hd]))
    rw [List.foldlM_cons, List.filterMap_cons]
    simp only [List.getElem?_eq_getElem h1, List.getElem?_eq_getElem h2, Option.bind_eq_bind, Option.bind_some]
    cases hm : f.missing[c] with
    | true => simpa using ih acc
    | false => simpa using ih (countKey f.numData[c] acc)

/-! ## C174 -/

/-- **C174**, for values that are not NaN: `Mode` returns a value, in whatever order it meets the entries of its map, that is the value of a
known case, and no value is that of more of the known cases. -/
theorem c174_mode_partial {f : NumFeature K} {cases : List Nat} (hc : ∀ c ∈ cases, c < f.missing.length ∧ c < f.numData.length)
    (hnan : XF.nan ∉ f.knownValues cases) (hne : f.knownValues cases ≠ []) :
    (∃ m, f.ModeMayBe cases m) ∧
    ∀ m, f.ModeMayBe cases m → m ∈ f.knownValues cases ∧ ∀ x, (f.knownValues cases).count x ≤ (f.knownValues cases).count m := by
  obtain ⟨es, h1, _, h3, h4⟩ := counted hnan
  have heq := numCounts_eq hc
  rw [h1] at heq
  refine ⟨⟨_, es, es, heq, .refl _, rfl⟩, ?_⟩
  rintro m ⟨counts, es', q1, q2, rfl⟩
  rw [heq] at q1
  cases q1
  obtain ⟨k1, k2⟩ := pickMost_from es' (.fin 0, 0)
  have hall : ∀ x ∈ f.knownValues cases, ∃ e ∈ es', e.1 = x ∧ e.2 = (f.knownValues cases).count x := by
    intro x hx
    obtain ⟨e, he, rfl⟩ := List.mem_map.1 ((h4 x).2 hx)
    exact ⟨e, q2.mem_iff.2 he, rfl, h3 e he⟩
  have hin : (es'.foldl (fun (acc : XF K × Nat) e => if acc.2 < e.2 then e else acc) (.fin 0, 0)) ∈ es' := by
    rcases List.mem_cons.1 k1 with h | h
    · obtain ⟨x, hx⟩ := List.exists_mem_of_ne_nil _ hne
      obtain ⟨e, he, he1, he2⟩ := hall x hx
      have := k2 e (by simp [he])
      rw [h, he2] at this
      have := List.count_pos_iff.2 hx
      omega
    · exact h
  have hin' := q2.mem_iff.1 hin
  refine ⟨(h4 _).1 (List.mem_map_of_mem hin'), fun x => ?_⟩
  by_cases hx : x ∈ f.knownValues cases
  · obtain ⟨e, he, _, he2⟩ := hall x hx
    rw [← he2, pickMost, ← h3 _ hin']
    exact k2 e (by simp [he])
  · rw [List.count_eq_zero.2 hx]
    exact Nat.zero_le _

/-- **C174**, without ties: if one value is that of more known cases than any other, `Mode` returns it, in whatever order it meets the entries. -/
theorem c174_one {f : NumFeature K} {cases : List Nat} (hc : ∀ c ∈ cases, c < f.missing.length ∧ c < f.numData.length)
    (hnan : XF.nan ∉ f.knownValues cases) {x : XF K}
    (hx : ∀ y, y ≠ x → (f.knownValues cases).count y < (f.knownValues cases).count x) (m : XF K) : f.ModeMayBe cases m ↔ m = x := by
  have hpos : 0 < (f.knownValues cases).count x := by
    by_cases h : x = .nan
    · have := hx (.fin 0) (by rw [h]; simp)
      omega
    · have := hx .nan (fun h' => h h'.symm)
      omega
  have hne : f.knownValues cases ≠ [] := by
    intro h
    rw [h] at hpos
    simp at hpos
  obtain ⟨⟨m', h1⟩, h2⟩ := c174_mode_partial hc hnan hne
  have key : ∀ m, f.ModeMayBe cases m → m = x := by
    intro m hm
    by_contra hmx
    have := hx m hmx
    have := (h2 m hm).2 x
    omega
  refine ⟨key m, ?_⟩
  rintro rfl
  have := key m' h1
  rwa [this] at h1

/-- **C174**, with `FilterMissing`: it adds the known cases to what is there, in order, and `Mode` of what it gives for an empty slice is as
that of the cases. -/
theorem c174_filter {f : NumFeature K} {cases : List Nat} (hc : ∀ c ∈ cases, c < f.missing.length ∧ c < f.numData.length) (before : List Nat) :
    filterMissing f.missing cases before = some (before ++ knownOf f.missing cases) ∧
    ∀ kept, filterMissing f.missing cases [] = some kept → ∀ m, f.ModeMayBe kept m ↔ f.ModeMayBe cases m := by
  have key : ∀ before, filterMissing f.missing cases before = some (before ++ knownOf f.missing cases) := by
    unfold filterMissing knownOf
    clear before
    induction cases with
    | nil => simp
    | cons c cs ih =>
      intro before
      obtain ⟨h1, _⟩ := hc c (by simp)
      have ih := ih (fun d hd => hc d (by simp [hd]))
      rw [List.foldlM_cons]
      simp only [Option.bind_eq_bind] at ih
      simp only [List.getElem?_eq_getElem h1, Option.bind_eq_bind, Option.bind_some]
      rw [ih]
      cases hm : f.missing[c] <;> simp [List.filter_cons, List.getElem?_eq_getElem h1, hm]
  refine ⟨key before, fun kept hk m => ?_⟩
  rw [key] at hk
  cases hk
  have : f.numCounts ([] ++ knownOf f.missing cases) = f.numCounts cases := by
    have hk : ∀ c ∈ knownOf f.missing cases, c < f.missing.length ∧ c < f.numData.length := fun c hc' => hc c (List.mem_filter.1 hc').1
    rw [List.nil_append, numCounts_eq hc, numCounts_eq hk]
    congr 2
    unfold NumFeature.knownValues knownOf
    rw [List.filterMap_filter]
    congr 1
    funext c
    by_cases h : f.missing[c]? = some false <;> simp [h]
  unfold NumFeature.ModeMayBe
  rw [this]

/-! ## Examples -/

/-- Five values, one of them missing. -/
def exModes : NumFeature ℚ := ⟨[.fin 2, .fin 5, .fin 2, .pinf, .fin 5], [false, false, false, true, false], "N:x", true⟩

/-- The conditions of `c174_mode_partial` and `c174_filter` hold, with a tie. -/
example : (∀ c ∈ [0, 1, 2, 3, 4], c < exModes.missing.length ∧ c < exModes.numData.length) ∧ XF.nan ∉ exModes.knownValues [0, 1, 2, 3, 4] ∧
    exModes.knownValues [0, 1, 2, 3, 4] = [.fin 2, .fin 5, .fin 2, .fin 5] ∧
    filterMissing exModes.missing [0, 1, 2, 3, 4] [] = some [0, 1, 2, 4] := by
  decide +kernel

/-- The conditions of `c174_one` hold: a case that comes twice decides. -/
example : ∀ y, y ≠ XF.fin 5 → (exModes.knownValues [1, 0, 1, 3]).count y < (exModes.knownValues [1, 0, 1, 3]).count (.fin 5) := by
  have h : exModes.knownValues [1, 0, 1, 3] = [.fin 5, .fin 2, .fin 5] := by decide +kernel
  intro y hy
  rw [h]
  simp only [List.count_cons, List.count_nil, beq_iff_eq]
  rw [if_neg (fun h => hy h.symm)]
  split <;> simp

/-! ## Negations -/

/-- **C174 is false of the code for NaN.** Each NaN is a key of its own, so that a value that occurs once may be returned though three cases
have NaN. -/
theorem c174_nan : ∃ (f : NumFeature ℚ) (cases : List Nat) (m : XF ℚ), (∀ c ∈ cases, c < f.missing.length ∧ c < f.numData.length) ∧
    f.ModeMayBe cases m ∧ (f.knownValues cases).count m = 1 ∧ (f.knownValues cases).count .nan = 3 := by
  refine ⟨⟨[.fin 7, .nan, .nan, .nan], [false, false, false, false], "N:x", false⟩, [0, 1, 2, 3], .fin 7, by decide +kernel, ?_, by decide +kernel,
    by decide +kernel⟩
  exact ⟨[(.fin 7, 1), (.nan, 1), (.nan, 1), (.nan, 1)], _, by decide +kernel, .refl _, by decide +kernel⟩

/-- **C174 is false of the code for ties, and without known cases.** The same call may return either of two values; and without a known case
it returns zero, a value that no case has. -/
theorem c174_tie : (∃ (f : NumFeature ℚ) (cases : List Nat) (m m' : XF ℚ), f.ModeMayBe cases m ∧ f.ModeMayBe cases m' ∧ m ≠ m') ∧
    ∃ (f : NumFeature ℚ) (cases : List Nat) (m : XF ℚ), cases ≠ [] ∧ f.ModeMayBe cases m ∧ m ∉ f.numData := by
  refine ⟨⟨exModes, [0, 1, 2, 3, 4], .fin 2, .fin 5, ?_, ?_, by decide +kernel⟩, ⟨exModes, [3], .fin 0, by decide, ?_, by decide +kernel⟩⟩
  · exact ⟨[(.fin 2, 2), (.fin 5, 2)], _, by decide +kernel, .refl _, by decide +kernel⟩
  · exact ⟨[(.fin 2, 2), (.fin 5, 2)], [(.fin 5, 2), (.fin 2, 2)], by decide +kernel, List.Perm.swap .., by decide +kernel⟩
  · exact ⟨[], _, by decide +kernel, .refl _, by decide +kernel⟩

end CloudForest
