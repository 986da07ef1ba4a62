import Verif.Spec.Text
import Mathlib.Data.List.Basic
import Mathlib.Tactic.SplitIfs

/-!
# Splitting, joining and trimming text
-/

namespace CloudForest

theorem splitC_ne_nil (sep : Char) (s : Text) : splitC sep s ≠ [] := by
  cases s with
  | nil => simp [splitC]
  | cons c s =>
    unfold splitC
    split_ifs
    · simp
    · split <;> simp

theorem splitC_cons_ne {sep c : Char} (h : c ≠ sep) (s : Text) :
    ∃ p ps, splitC sep s = p :: ps ∧ splitC sep (c :: s) = (c :: p) :: ps := by
  cases hs : splitC sep s with
  | nil => exact absurd hs (splitC_ne_nil sep s)
  | cons p ps =>
    refine ⟨p, ps, rfl, ?_⟩
    rw [splitC, if_neg h, hs]

theorem splitC_cons_eq (sep : Char) (s : Text) : splitC sep (sep :: s) = [] :: splitC sep s := by
  rw [splitC, if_pos rfl]

theorem splitC_append_cons (sep : Char) (a b : Text) :
    splitC sep (a ++ sep :: b) = splitC sep a ++ splitC sep b := by
  induction a with
  | nil => rw [List.nil_append, splitC_cons_eq]; rfl
  | cons c a ih =>
    rw [List.cons_append]
    by_cases h : c = sep
    · subst h
      rw [splitC_cons_eq, splitC_cons_eq, ih]; rfl
    · obtain ⟨p, ps, h1, h2⟩ := splitC_cons_ne h a
      obtain ⟨q, qs, h3, h4⟩ := splitC_cons_ne h (a ++ sep :: b)
      rw [h2, h4]
      rw [ih, h1] at h3
      cases h3
      rfl

theorem splitC_none {sep : Char} {s : Text} (h : sep ∉ s) : splitC sep s = [s] := by
  induction s with
  | nil => rfl
  | cons c s ih =>
    have hc : c ≠ sep := fun e => h (by simp [e])
    obtain ⟨p, ps, h1, h2⟩ := splitC_cons_ne hc s
    rw [ih fun hm => h (by simp [hm])] at h1
    cases h1
    rw [h2]

theorem joinC_cons_cons (sep : Char) (p q : Text) (ps : List Text) :
    joinC sep (p :: q :: ps) = p ++ sep :: joinC sep (q :: ps) := rfl

theorem joinC_cons {sep : Char} {p : Text} {ps : List Text} (h : ps ≠ []) :
    joinC sep (p :: ps) = p ++ sep :: joinC sep ps := by
  cases ps with
  | nil => exact absurd rfl h
  | cons q ps => rfl

theorem splitC_join {sep : Char} {ps : List Text} (h : ps ≠ []) (hn : ∀ p ∈ ps, sep ∉ p) :
    splitC sep (joinC sep ps) = ps := by
  induction ps with
  | nil => exact absurd rfl h
  | cons p ps ih =>
    cases ps with
    | nil => exact splitC_none (hn p (by simp))
    | cons q ps =>
      rw [joinC_cons_cons, splitC_append_cons, splitC_none (hn p (by simp)),
        ih (by simp) (fun x hx => hn x (by simp [hx]))]
      rfl

theorem join_splitC (sep : Char) (s : Text) : joinC sep (splitC sep s) = s := by
  induction s with
  | nil => rfl
  | cons c s ih =>
    by_cases h : c = sep
    · subst h
      rw [splitC_cons_eq, joinC_cons (splitC_ne_nil _ _), ih]; rfl
    · obtain ⟨p, ps, h1, h2⟩ := splitC_cons_ne h s
      rw [h2]
      rw [h1] at ih
      cases ps with
      | nil => simp only [joinC] at ih ⊢; rw [ih]
      | cons q ps =>
        rw [joinC_cons_cons] at ih ⊢
        rw [← ih]; rfl

/-- The pieces contain nothing new. -/
theorem mem_of_mem_splitC {sep : Char} {s p : Text} (hp : p ∈ splitC sep s) {c : Char} (hc : c ∈ p) :
    c ∈ s := by
  induction s generalizing p with
  | nil => simp [splitC] at hp; subst hp; cases hc
  | cons d s ih =>
    by_cases h : d = sep
    · subst h
      rw [splitC_cons_eq, List.mem_cons] at hp
      rcases hp with rfl | hp
      · cases hc
      · exact List.mem_cons_of_mem _ (ih hp hc)
    · obtain ⟨q, qs, h1, h2⟩ := splitC_cons_ne h s
      rw [h2, List.mem_cons] at hp
      rcases hp with rfl | hp
      · rw [List.mem_cons] at hc
        rcases hc with rfl | hc
        · simp
        · exact List.mem_cons_of_mem _ (ih (by rw [h1]; simp) hc)
      · exact List.mem_cons_of_mem _ (ih (by rw [h1]; simp [hp]) hc)

theorem sep_not_mem_splitC {sep : Char} {s p : Text} (hp : p ∈ splitC sep s) : sep ∉ p := by
  induction s generalizing p with
  | nil => simp [splitC] at hp; subst hp; simp
  | cons d s ih =>
    by_cases h : d = sep
    · subst h
      rw [splitC_cons_eq, List.mem_cons] at hp
      rcases hp with rfl | hp
      · simp
      · exact ih hp
    · obtain ⟨q, qs, h1, h2⟩ := splitC_cons_ne h s
      rw [h2, List.mem_cons] at hp
      rcases hp with rfl | hp
      · rw [List.mem_cons]
        rintro (e | hc)
        · exact h e.symm
        · exact ih (by rw [h1]; simp) hc
      · exact ih (by rw [h1]; simp [hp])

/-- Where two texts meet, the last piece of one and the first of the other become one. -/
theorem splitC_append {sep : Char} {a b : Text} {as bs : List Text} {x y : Text}
    (ha : splitC sep a = as ++ [x]) (hb : splitC sep b = y :: bs) :
    splitC sep (a ++ b) = as ++ (x ++ y) :: bs := by
  induction a generalizing as x with
  | nil =>
    rw [splitC] at ha
    have : as = [] ∧ x = [] := by
      cases as with
      | nil => simpa using ha.symm
      | cons z as => simp at ha
    obtain ⟨rfl, rfl⟩ := this
    simpa using hb
  | cons c a ih =>
    rw [List.cons_append]
    by_cases h : c = sep
    · subst h
      rw [splitC_cons_eq] at ha ⊢
      cases as with
      | nil =>
        simp only [List.nil_append, List.cons.injEq] at ha
        exact absurd ha.2 (splitC_ne_nil _ _)
      | cons z as =>
        simp only [List.cons_append, List.cons.injEq] at ha
        rw [ih ha.2, ← ha.1]; rfl
    · obtain ⟨p, ps, h1, h2⟩ := splitC_cons_ne h a
      obtain ⟨q, qs, h3, h4⟩ := splitC_cons_ne h (a ++ b)
      rw [h4]
      rw [h2] at ha
      cases as with
      | nil =>
        simp only [List.nil_append, List.cons.injEq] at ha
        obtain ⟨rfl, rfl⟩ := ha
        rw [ih (as := []) (x := p) (by rw [h1]; rfl)] at h3
        simp only [List.nil_append, List.cons.injEq] at h3
        rw [← h3.1, ← h3.2]; rfl
      | cons z as =>
        simp only [List.cons_append, List.cons.injEq] at ha
        obtain ⟨rfl, rfl⟩ := ha
        rw [ih (as := p :: as) (x := x) (by rw [h1]; rfl)] at h3
        simp only [List.cons_append, List.cons.injEq] at h3
        rw [← h3.1, ← h3.2]; rfl

/-! ## Trimming -/

theorem trimC_id {p : Char → Bool} {s : Text} (h1 : ∀ c, s.head? = some c → p c = false)
    (h2 : ∀ c, s.getLast? = some c → p c = false) : trimC p s = s := by
  have hd : ∀ l : Text, (∀ c, l.head? = some c → p c = false) → l.dropWhile p = l := by
    intro l hl
    cases l with
    | nil => rfl
    | cons c l => rw [List.dropWhile_cons_of_neg (by simp [hl c rfl])]
  unfold trimC
  rw [hd s h1, hd s.reverse (by rw [List.head?_reverse]; exact h2), List.reverse_reverse]

theorem trimSpace_id {s : Text} (h : NoEdgeSpace s) : trimSpace s = s := trimC_id h.1 h.2

theorem NoEdgeSpace.append {a b : Text} (ha : NoEdgeSpace a) (hb : NoEdgeSpace b) (hna : a ≠ [])
    (hnb : b ≠ []) : NoEdgeSpace (a ++ b) := by
  constructor
  · intro c hc
    rw [List.head?_append_of_ne_nil _ hna] at hc
    exact ha.1 c hc
  · intro c hc
    rw [List.getLast?_append_of_ne_nil _ hnb] at hc
    exact hb.2 c hc

theorem NoEdgeSpace.nil : NoEdgeSpace [] := ⟨fun _ h => (by cases h), fun _ h => (by cases h)⟩

/-- Text, a character that is not white space, text. -/
theorem NoEdgeSpace.middle {a b : Text} {d : Char} (ha : NoEdgeSpace a) (hb : NoEdgeSpace b)
    (hd : isSpaceC d = false) : NoEdgeSpace (a ++ d :: b) := by
  constructor
  · intro c hc
    cases a with
    | nil => simp at hc; subst hc; exact hd
    | cons x a => simp at hc; subst hc; exact ha.1 _ rfl
  · intro c hc
    rw [List.getLast?_append_of_ne_nil _ (by simp)] at hc
    cases b with
    | nil => simp at hc; subst hc; exact hd
    | cons x b =>
      rw [List.getLast?_cons_cons] at hc
      exact hb.2 c hc

theorem trimSpace_line {s : Text} (h : NoEdgeSpace s) (hne : s ≠ []) : trimSpace (s ++ ['\n']) = s := by
  unfold trimSpace trimC
  have h1 : (s ++ ['\n']).dropWhile isSpaceC = s ++ ['\n'] := by
    cases s with
    | nil => exact absurd rfl hne
    | cons c s => rw [List.cons_append, List.dropWhile_cons_of_neg (by simp [h.1 c rfl])]
  rw [h1, List.reverse_append]
  have h2 : (['\n'].reverse ++ s.reverse).dropWhile isSpaceC = s.reverse.dropWhile isSpaceC := by
    rw [List.reverse_singleton, List.singleton_append, List.dropWhile_cons_of_pos (by decide)]
  rw [h2]
  have h3 : s.reverse.dropWhile isSpaceC = s.reverse := by
    cases hs : s.reverse with
    | nil => rfl
    | cons c l =>
      have : s.getLast? = some c := by rw [← List.head?_reverse, hs]; rfl
      rw [List.dropWhile_cons_of_neg (by simp [h.2 c this])]
  rw [h3, List.reverse_reverse]

theorem trimQuotes_plain {s : Text} (h : '"' ∉ s) : trimQuotes s = s := by
  apply trimC_id
  · intro c hc
    have : c ∈ s := List.mem_of_mem_head? hc
    simp only [beq_eq_false_iff_ne]
    rintro rfl; exact h this
  · intro c hc
    have : c ∈ s := List.mem_of_mem_getLast? hc
    simp only [beq_eq_false_iff_ne]
    rintro rfl; exact h this

theorem trimQuotes_quoted {s : Text} (h : '"' ∉ s) : trimQuotes ('"' :: s ++ ['"']) = s := by
  have key : ∀ l : Text, '"' ∉ l → ('"' :: l).dropWhile (· == '"') = l := by
    intro l hl
    rw [List.dropWhile_cons_of_pos (by simp)]
    cases l with
    | nil => rfl
    | cons c l =>
      rw [List.dropWhile_cons_of_neg]
      simp only [beq_iff_eq]
      rintro rfl; exact hl (by simp)
  unfold trimQuotes trimC
  by_cases hs : s = []
  · subst hs; rfl
  · have h1 : ('"' :: s ++ ['"']).dropWhile (· == '"') = s ++ ['"'] := by
      rw [List.cons_append, List.dropWhile_cons_of_pos (by simp)]
      cases s with
      | nil => exact absurd rfl hs
      | cons c s =>
        rw [List.cons_append, List.dropWhile_cons_of_neg]
        simp only [beq_iff_eq]
        rintro rfl; exact h (by simp)
    rw [h1, List.reverse_append, List.reverse_singleton, List.singleton_append,
      key s.reverse (by simpa using h), List.reverse_reverse]

/-! ## Lines -/

theorem readLine_append {l : Text} (h : '\n' ∉ l) (rest : Text) :
    readLine (l ++ '\n' :: rest) = some (l ++ ['\n'], rest) := by
  induction l with
  | nil => simp [readLine]
  | cons c l ih =>
    have hc : c ≠ '\n' := fun e => h (by simp [e])
    rw [List.cons_append, readLine, if_neg hc, ih fun hm => h (by simp [hm])]
    rfl

end CloudForest
