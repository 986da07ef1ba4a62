import Verif.Lemmas.Text
import Verif.Model.Csv
import Verif.Spec.Csv

/-!
# Lemmas on separated values
-/

namespace CloudForest

/-! ## Line ends -/

/-- No carriage return is directly before a line end. -/
def crIn : Text → Bool
  | [] => true
  | c :: s => (c != '\r' || s.head? != some '\n') && crIn s

theorem crIn_iff (s : Text) : crIn s = true ↔ ¬ ['\r', '\n'] <:+: s := by
  induction s with
  | nil => simp [crIn]
  | cons c s ih =>
    rw [crIn, Bool.and_eq_true, ih, List.infix_cons_iff]
    constructor
    · rintro ⟨h1, h2⟩ (h | h)
      · rw [List.cons_prefix_cons] at h
        obtain ⟨rfl, h⟩ := h
        cases s with
        | nil => exact absurd h (by simp)
        | cons d s =>
          rw [List.cons_prefix_cons] at h
          obtain ⟨rfl, -⟩ := h
          simp at h1
      · exact h2 h
    · intro h
      rw [not_or] at h
      refine ⟨?_, h.2⟩
      by_contra hc
      apply h.1
      simp only [Bool.not_eq_true, Bool.or_eq_false_iff, bne_eq_false_iff_eq] at hc
      obtain ⟨rfl, hc⟩ := hc
      cases s with
      | nil => simp at hc
      | cons d s =>
        have : d = '\n' := by simpa using hc
        subst this
        exact ⟨s, rfl⟩

theorem crIn_of_not_mem {s : Text} (h : '\r' ∉ s) : crIn s = true := by
  rw [crIn_iff]
  intro hi
  exact h (hi.subset (by simp))

theorem crIn_of_no_line {s : Text} (h : '\n' ∉ s) : crIn s = true := by
  rw [crIn_iff]
  intro hi
  exact h (hi.subset (by simp))

theorem crIn_append {a : Text} {c : Char} {b : Text} (ha : crIn a = true)
    (hl : a.getLast? ≠ some '\r' ∨ c ≠ '\n') (hb : crIn (c :: b) = true) : crIn (a ++ c :: b) = true := by
  induction a with
  | nil => exact hb
  | cons x a ih =>
    rw [crIn, Bool.and_eq_true] at ha
    rw [List.cons_append, crIn, Bool.and_eq_true]
    cases a with
    | nil =>
      refine ⟨?_, hb⟩
      rcases hl with hl | hl
      · have : x ≠ '\r' := by simpa using hl
        simp [this]
      · simp [hl]
    | cons y a =>
      refine ⟨by simpa using ha.1, ih ha.2 ?_⟩
      simpa [List.getLast?_cons_cons] using hl

theorem splitC_first_nil {s : Text} {ps : List Text} (h : splitC '\n' s = [] :: ps) :
    s = [] ∨ s.head? = some '\n' := by
  cases s with
  | nil => exact .inl rfl
  | cons c s =>
    right
    by_contra hc
    have hc : c ≠ '\n' := by simpa using hc
    obtain ⟨p, qs, -, e⟩ := splitC_cons_ne hc s
    rw [e] at h
    simp at h

theorem normCR_id {t : Text} (h : crIn t = true) (hl : t.getLast? ≠ some '\r') : normCR t = t := by
  have key : ∀ t : Text, crIn t = true → t.getLast? ≠ some '\r' → ∀ p ∈ splitC '\n' t, dropCR p = p := by
    intro t
    induction t with
    | nil =>
      intro _ _ p hp
      have : p = [] := by simpa [splitC] using hp
      subst this
      rfl
    | cons c s ih =>
      intro h hl p hp
      rw [crIn, Bool.and_eq_true] at h
      have hls : s.getLast? ≠ some '\r' := by
        cases s with
        | nil => simp
        | cons d s => simpa [List.getLast?_cons_cons] using hl
      by_cases hc : c = '\n'
      · subst hc
        rw [splitC_cons_eq] at hp
        rcases List.mem_cons.1 hp with rfl | hp
        · rfl
        · exact ih h.2 hls p hp
      · obtain ⟨q, qs, hs, e⟩ := splitC_cons_ne hc s
        rw [e] at hp
        simp only [List.mem_cons] at hp
        rcases hp with rfl | hp
        · unfold dropCR
          rw [if_neg]
          intro e
          cases q with
          | nil =>
            have hcr : c = '\r' := by simpa using e
            subst hcr
            rcases splitC_first_nil hs with rfl | hh
            · simp at hl
            · rw [hh] at h; simp at h
          | cons d q =>
            have hd := ih h.2 hls (d :: q) (by rw [hs]; simp)
            rw [List.getLast?_cons_cons] at e
            unfold dropCR at hd
            rw [if_pos e] at hd
            have := congrArg List.length hd
            simp at this
        · exact ih h.2 hls p (by rw [hs]; simp [hp])
  unfold normCR
  have : (splitC '\n' t).map dropCR = splitC '\n' t := by
    conv_rhs => rw [← List.map_id (splitC '\n' t)]
    exact List.map_congr_left fun p hp => key t h hl p hp
  rw [this, join_splitC]

/-! ## Fields -/

/-- `w` in a line is read as the field `f`, whatever comes after it. -/
def ReadsAs (comma : Char) (comment : Option Char) (w f : Text) : Prop :=
  ∀ (fields : List Text) (rest : Text),
    csvScan comma comment .start [] fields (w ++ comma :: rest) = csvScan comma comment .start [] (fields ++ [f]) rest ∧
    csvScan comma comment .start [] fields (w ++ '\n' :: rest) =
      (fields ++ [f]) :: csvScan comma comment .line [] [] rest

theorem scan_plain {comma : Char} {comment : Option Char} {f : Text} (h : PlainField comma f) (cur : Text)
    (fields : List Text) (rest : Text) :
    csvScan comma comment .plain cur fields (f ++ rest) = csvScan comma comment .plain (cur ++ f) fields rest := by
  induction f generalizing cur with
  | nil => simp
  | cons c f ih =>
    obtain ⟨h1, h2, h3⟩ := h
    simp only [List.mem_cons, not_or] at h1 h2 h3
    rw [List.cons_append, csvScan, if_neg (Ne.symm h2.1), if_neg (Ne.symm h1.1), if_neg (Ne.symm h3.1),
      ih ⟨h1.2, h2.2, h3.2⟩]
    simp

theorem readsAs_plain {comma : Char} {comment : Option Char} (hq : comma ≠ '"') (hn : comma ≠ '\n') {f : Text}
    (h : PlainField comma f) : ReadsAs comma comment f f := by
  intro fields rest
  cases f with
  | nil =>
    constructor
    · rw [List.nil_append, csvScan, if_neg hq, if_pos rfl]
    · rw [List.nil_append, csvScan, if_neg (by decide), if_neg (Ne.symm hn), if_pos rfl]
  | cons c f =>
    obtain ⟨h1, h2, h3⟩ := h
    simp only [List.mem_cons, not_or] at h1 h2 h3
    constructor
    · rw [List.cons_append, csvScan, if_neg (Ne.symm h2.1), if_neg (Ne.symm h1.1), if_neg (Ne.symm h3.1),
        scan_plain ⟨h1.2, h2.2, h3.2⟩, csvScan, if_neg hq, if_pos rfl]
      rfl
    · rw [List.cons_append, csvScan, if_neg (Ne.symm h2.1), if_neg (Ne.symm h1.1), if_neg (Ne.symm h3.1),
        scan_plain ⟨h1.2, h2.2, h3.2⟩, csvScan, if_neg (by decide), if_neg (Ne.symm hn), if_pos rfl]
      rfl

theorem scan_doubled (comma : Char) (comment : Option Char) (f cur : Text) (fields : List Text) (rest : Text) :
    csvScan comma comment .quoted cur fields (doubled f ++ '"' :: rest) =
      csvScan comma comment .closed (cur ++ f) fields rest := by
  induction f generalizing cur with
  | nil => simp [doubled, csvScan]
  | cons c f ih =>
    by_cases hc : c = '"'
    · subst hc
      have : doubled ('"' :: f) = '"' :: '"' :: doubled f := by simp [doubled]
      rw [this, List.cons_append, List.cons_append, csvScan, if_pos rfl, csvScan, if_pos rfl, ih]
      simp
    · have : doubled (c :: f) = c :: doubled f := by simp [doubled, hc]
      rw [this, List.cons_append, csvScan, if_neg hc, ih]
      simp

theorem readsAs_quoted {comma : Char} {comment : Option Char} (hq : comma ≠ '"') (hn : comma ≠ '\n') (f : Text) :
    ReadsAs comma comment (inQuotes f) f := by
  intro fields rest
  constructor
  · rw [inQuotes, List.append_assoc, List.cons_append, csvScan, if_pos rfl]
    rw [List.singleton_append, scan_doubled, csvScan, if_neg hq, if_pos rfl]
    rfl
  · rw [inQuotes, List.append_assoc, List.cons_append, csvScan, if_pos rfl]
    rw [List.singleton_append, scan_doubled, csvScan, if_neg (by decide), if_neg (Ne.symm hn), if_pos rfl]
    rfl

theorem crIn_doubled {f : Text} (h : crIn f = true) : crIn (doubled f) = true := by
  induction f with
  | nil => rfl
  | cons c f ih =>
    rw [crIn, Bool.and_eq_true] at h
    have hh : ∀ f : Text, (doubled f).head? = f.head? := by
      intro f
      cases f with
      | nil => rfl
      | cons d f =>
        by_cases hd : d = '"'
        · subst hd; simp [doubled]
        · simp [doubled, hd]
    by_cases hc : c = '"'
    · subst hc
      have : doubled ('"' :: f) = '"' :: '"' :: doubled f := by simp [doubled]
      rw [this]
      simp [crIn, ih h.2]
    · have : doubled (c :: f) = c :: doubled f := by simp [doubled, hc]
      rw [this, crIn, Bool.and_eq_true, hh]
      exact ⟨h.1, ih h.2⟩

/-! ## Records -/

theorem scan_row {α : Type} {comma : Char} {comment : Option Char} (w v : α → Text) (fs : List α) (hne : fs ≠ [])
    (h : ∀ f ∈ fs, ReadsAs comma comment (w f) (v f)) (fields : List Text) (rest : Text) :
    csvScan comma comment .start [] fields (joinC comma (fs.map w) ++ '\n' :: rest) =
      (fields ++ fs.map v) :: csvScan comma comment .line [] [] rest := by
  induction fs generalizing fields with
  | nil => exact absurd rfl hne
  | cons f fs ih =>
    cases fs with
    | nil => simpa [joinC] using (h f (by simp) fields rest).2
    | cons g gs =>
      rw [List.map_cons, List.map_cons, joinC, List.append_assoc, List.cons_append,
        (h f (by simp) fields _).1]
      have := ih (by simp) (fun x hx => h x (by simp [hx])) (fields ++ [v f])
      rw [List.map_cons] at this
      rw [this]
      simp

theorem scan_line {comma : Char} {comment : Option Char} {t : Text} (hc : ∀ c, t.head? = some c → c ≠ '\n' ∧
    comment ≠ some c) (hne : t ≠ []) :
    csvScan comma comment .line [] [] t = csvScan comma comment .start [] [] t := by
  cases t with
  | nil => exact absurd rfl hne
  | cons c t =>
    obtain ⟨h1, h2⟩ := hc c rfl
    rw [csvScan, if_neg h1, if_neg h2, csvScan]
    by_cases hq : c = '"'
    · rw [if_pos hq, if_pos hq]
    · rw [if_neg hq, if_neg hq]
      by_cases hk : c = comma
      · rw [if_pos hk, if_pos hk]; rfl
      · rw [if_neg hk, if_neg hk, if_neg h1]

theorem scan_rows {α : Type} {comma : Char} {comment : Option Char} (w v : α → Text) (rows : List (List α))
    (h : ∀ r ∈ rows, ∀ f ∈ r, ReadsAs comma comment (w f) (v f)) (hr : ∀ r ∈ rows, r ≠ [])
    (hb : ∀ r ∈ rows, joinC comma (r.map w) ≠ [] ∧ ∀ c, (joinC comma (r.map w)).head? = some c → c ≠ '\n' ∧
      comment ≠ some c) :
    csvScan comma comment .line [] [] (rows.map fun r => joinC comma (r.map w) ++ ['\n']).flatten =
      rows.map (·.map v) := by
  induction rows with
  | nil => rfl
  | cons r rows ih =>
    obtain ⟨h1, h2⟩ := hb r (by simp)
    rw [List.map_cons, List.flatten_cons, List.append_assoc, List.singleton_append, scan_line, scan_row w v r (hr r (by simp))
      (h r (by simp)), ih (fun q hq => h q (by simp [hq])) (fun q hq => hr q (by simp [hq]))
      (fun q hq => hb q (by simp [hq]))]
    · simp
    · intro c hc
      rw [List.head?_append_of_ne_nil _ h1] at hc
      exact h2 c hc
    · simp

theorem sameFields_id {n : Nat} {rows : List (List Text)} (h : ∀ r ∈ rows, r.length = n) : sameFields rows = rows := by
  cases rows with
  | nil => rfl
  | cons r rs =>
    rw [sameFields]
    congr 1
    have gen : ∀ l : List (List Text), (∀ q ∈ l, q.length = r.length) →
        (l.takeWhile fun q => q.length = r.length) = l := by
      intro l hl
      induction l with
      | nil => rfl
      | cons q l ih =>
        rw [List.takeWhile_cons_of_pos (by simp [hl q (by simp)]), ih fun x hx => hl x (by simp [hx])]
    exact gen rs fun q hq => by rw [h q (by simp [hq]), h r (by simp)]

theorem WritesAs.readsAs {comma : Char} {comment : Option Char} (hq : comma ≠ '"') (hn : comma ≠ '\n') {w f : Text}
    (h : WritesAs comma w f) : ReadsAs comma comment w f := by
  rcases h with ⟨rfl, h, -⟩ | rfl
  · exact readsAs_plain hq hn h
  · exact readsAs_quoted hq hn f

theorem WritesAs.crIn {comma : Char} {w f : Text} (h : WritesAs comma w f) (hf : CloudForest.crIn f = true) :
    CloudForest.crIn w = true ∧ w.getLast? ≠ some '\r' := by
  rcases h with ⟨rfl, -, h⟩ | rfl
  · refine ⟨crIn_of_not_mem h, fun e => h (List.mem_of_getLast? e)⟩
  · refine ⟨?_, by rw [inQuotes, List.getLast?_append]; simp⟩
    rw [inQuotes, List.cons_append, CloudForest.crIn, Bool.and_eq_true]
    exact ⟨by simp, crIn_append (crIn_doubled hf) (.inr (by decide)) (by decide)⟩

theorem crIn_row {comma : Char} (hr : comma ≠ '\r') (hn : comma ≠ '\n') (ws : List Text)
    (h : ∀ w ∈ ws, crIn w = true ∧ w.getLast? ≠ some '\r') :
    crIn (joinC comma ws) = true ∧ (joinC comma ws).getLast? ≠ some '\r' := by
  induction ws with
  | nil => exact ⟨rfl, by simp [joinC]⟩
  | cons w ws ih =>
    cases ws with
    | nil => exact h w (by simp)
    | cons v vs =>
      obtain ⟨h1, h2⟩ := ih fun x hx => h x (by simp [hx])
      rw [joinC]
      constructor
      · apply crIn_append (h w (by simp)).1 (.inr hn)
        rw [crIn, Bool.and_eq_true]
        exact ⟨by simp [hr], h1⟩
      · rw [List.getLast?_append]
        cases hj : joinC comma (v :: vs) with
        | nil => simp [hr]
        | cons c cs =>
          rw [List.getLast?_cons_cons, ← hj]
          cases hg : (joinC comma (v :: vs)).getLast? with
          | none => rw [hj] at hg; simp at hg
          | some d => rw [Option.some_or, ← hg]; exact h2

theorem crIn_rows {comma : Char} (hr : comma ≠ '\r') (hn : comma ≠ '\n') (rows : List (List Text))
    (h : ∀ r ∈ rows, ∀ w ∈ r, crIn w = true ∧ w.getLast? ≠ some '\r') :
    crIn (rows.map fun r => joinC comma r ++ ['\n']).flatten = true ∧
      (rows.map fun r => joinC comma r ++ ['\n']).flatten.getLast? ≠ some '\r' := by
  induction rows with
  | nil => exact ⟨rfl, by simp⟩
  | cons r rows ih =>
    obtain ⟨h1, h2⟩ := ih fun x hx => h x (by simp [hx])
    obtain ⟨h3, h4⟩ := crIn_row hr hn r (h r (by simp))
    rw [List.map_cons, List.flatten_cons, List.append_assoc, List.singleton_append]
    constructor
    · apply crIn_append h3 (.inl h4)
      rw [crIn, Bool.and_eq_true]
      exact ⟨by simp, h1⟩
    · rw [List.getLast?_append]
      cases hj : (rows.map fun r => joinC comma r ++ ['\n']).flatten with
      | nil => simp
      | cons c cs =>
        rw [List.getLast?_cons_cons, ← hj]
        cases hg : (rows.map fun r => joinC comma r ++ ['\n']).flatten.getLast? with
        | none => rw [hj] at hg; simp at hg
        | some d => rw [Option.some_or, ← hg]; exact h2

/-- Rows of equally many fields, written plainly or in quotes, are read back. -/
theorem csv_written {comma : Char} {comment : Option Char} (hq : comma ≠ '"') (hn : comma ≠ '\n') (hcr : comma ≠ '\r')
    {α : Type} (w v : α → Text) (rows : List (List α)) {n : Nat} (hn0 : 0 < n) (hlen : ∀ r ∈ rows, r.length = n)
    (hw : ∀ r ∈ rows, ∀ f ∈ r, WritesAs comma (w f) (v f)) (hf : ∀ r ∈ rows, ∀ f ∈ r, crIn (v f) = true)
    (h1 : n = 1 → ∀ r ∈ rows, ∀ f ∈ r, w f ≠ [])
    (hc : ∀ r ∈ rows, ∀ f, r.head? = some f → ∀ c, comment = some c → c ≠ comma ∧ (w f).head? ≠ some c) :
    sameFields (csvScan comma comment .line [] [] (normCR (rows.map fun r => joinC comma (r.map w) ++ ['\n']).flatten)) =
      rows.map (·.map v) := by
  have hcrs := crIn_rows hcr hn (rows.map (·.map w)) (by
    intro r hr v hv
    obtain ⟨q, hq', rfl⟩ := List.mem_map.1 hr
    obtain ⟨f, hf', rfl⟩ := List.mem_map.1 hv
    exact (hw q hq' f hf').crIn (hf q hq' f hf'))
  rw [List.map_map] at hcrs
  have e : normCR (rows.map fun r => joinC comma (r.map w) ++ ['\n']).flatten =
      (rows.map fun r => joinC comma (r.map w) ++ ['\n']).flatten := normCR_id hcrs.1 hcrs.2
  rw [e, scan_rows w v rows (fun r hr f hf' => (hw r hr f hf').readsAs hq hn), sameFields_id (n := n) (by
    intro r hr
    obtain ⟨q, hq', rfl⟩ := List.mem_map.1 hr
    rw [List.length_map]
    exact hlen q hq')]
  · intro r hr e
    have := hlen r hr
    rw [e] at this
    simp at this
    omega
  · intro r hr
    have hl := hlen r hr
    cases r with
    | nil => simp at hl; omega
    | cons f fs =>
      have hhead : ∀ c, (w f).head? = some c → c ≠ '\n' := by
        intro c hcc
        rcases hw _ hr f (by simp) with ⟨e, h, -⟩ | e
        · rw [e] at hcc
          rintro rfl
          exact h.2.2 (List.mem_of_head? hcc)
        · rw [e] at hcc
          have : '"' = c := by simpa [inQuotes] using hcc
          rw [← this]
          decide
      have hcc : ∀ c, (w f).head? = some c → comment ≠ some c := fun c hcc hk => (hc _ hr f rfl c hk).2 hcc
      cases fs with
      | nil =>
        rw [List.map_cons, List.map_nil, joinC]
        exact ⟨h1 (by simpa using hl.symm) _ hr f (by simp), fun c hc' => ⟨hhead c hc', hcc c hc'⟩⟩
      | cons g gs =>
        rw [List.map_cons, List.map_cons, joinC]
        refine ⟨by simp, fun c hc' => ?_⟩
        cases hwf : w f with
        | nil =>
          rw [hwf, List.nil_append] at hc'
          have : comma = c := by simpa using hc'
          subst this
          exact ⟨hn, fun hk => (hc _ hr f rfl comma hk).1 rfl⟩
        | cons d ds =>
          rw [hwf, List.cons_append] at hc'
          have hc' : some d = some c := hc'
          exact ⟨hhead c (by rw [hwf]; exact hc'), hcc c (by rw [hwf]; exact hc')⟩

/-- A table, with each field written plainly or in quotes, is read. -/
theorem csvRecords_table {comma : Char} (hq : comma ≠ '"') (hn : comma ≠ '\n') (hcr : comma ≠ '\r') {text : Text}
    {rows : List (List Text)} (h : WritesTable comma text rows) {n : Nat} (hn2 : 2 ≤ n)
    (hlen : ∀ r ∈ rows, r.length = n) (hf : ∀ r ∈ rows, ∀ f ∈ r, ¬ ['\r', '\n'] <:+: f) :
    csvRecords comma text = rows := by
  obtain ⟨ws, h, rfl⟩ := h
  have pairs : ∃ z : List (List (Text × Text)), ws = z.map (·.map Prod.fst) ∧ rows = z.map (·.map Prod.snd) ∧
      ∀ r ∈ z, ∀ x ∈ r, WritesAs comma x.1 x.2 := by
    clear hlen hf
    induction h with
    | nil => exact ⟨[], rfl, rfl, by simp⟩
    | @cons a b as bs h1 _ ih =>
      obtain ⟨z, rfl, rfl, hz⟩ := ih
      have : ∃ y : List (Text × Text), a = y.map Prod.fst ∧ b = y.map Prod.snd ∧ ∀ x ∈ y, WritesAs comma x.1 x.2 := by
        clear hz
        induction h1 with
        | nil => exact ⟨[], rfl, rfl, by simp⟩
        | @cons p q ps qs hp _ ih =>
          obtain ⟨y, rfl, rfl, hy⟩ := ih
          refine ⟨(p, q) :: y, rfl, rfl, fun x hx => ?_⟩
          rcases List.mem_cons.1 hx with rfl | hx
          · exact hp
          · exact hy x hx
      obtain ⟨y, rfl, rfl, hy⟩ := this
      refine ⟨y :: z, rfl, rfl, fun r hr => ?_⟩
      rcases List.mem_cons.1 hr with rfl | hr
      · exact hy
      · exact hz r hr
  obtain ⟨z, rfl, rfl, hz⟩ := pairs
  have := csv_written (comment := none) hq hn hcr Prod.fst Prod.snd z (n := n) (by omega)
    (fun r hr => by rw [← hlen _ (List.mem_map_of_mem hr), List.length_map]) hz
    (fun r hr x hx => (crIn_iff _).2 (hf _ (List.mem_map_of_mem hr) _ (List.mem_map_of_mem hx)))
    (fun e => by omega) (fun _ _ _ _ _ hc => by cases hc)
  rw [← this, csvRecords, List.map_map]
  rfl

/-- A text with `\r\n` for each line end. -/
def crlf (text : Text) : Text := text.flatMap fun c => if c = '\n' then ['\r', '\n'] else [c]

theorem normCR_crlf {t : Text} (h : '\r' ∉ t) : normCR (crlf t) = t := by
  have key : ∀ t : Text, '\r' ∉ t → (splitC '\n' (crlf t)).map dropCR = splitC '\n' t ∧
      ∀ p ps, splitC '\n' t = p :: ps → (splitC '\n' (crlf t)).head? = some (if ps = [] then p else p ++ ['\r']) := by
    intro t
    induction t with
    | nil =>
      intro _
      refine ⟨rfl, fun p ps e => ?_⟩
      have e : [[]] = p :: ps := e
      injection e with e1 e2
      subst e1 e2
      rfl
    | cons c t ih =>
      intro h
      simp only [List.mem_cons, not_or] at h
      obtain ⟨ih1, ih2⟩ := ih h.2
      by_cases hc : c = '\n'
      · subst hc
        have e : crlf ('\n' :: t) = '\r' :: '\n' :: crlf t := by simp [crlf]
        obtain ⟨p, ps, e2, e3⟩ := splitC_cons_ne (sep := '\n') (c := '\r') (by decide) ('\n' :: crlf t)
        rw [splitC_cons_eq] at e2
        injection e2 with e4 e5
        subst e4 e5
        rw [e, e3, splitC_cons_eq]
        refine ⟨by rw [List.map_cons, ih1]; rfl, ?_⟩
        intro p ps e
        injection e with e6 e7
        subst e6 e7
        rw [if_neg (splitC_ne_nil _ _)]
        rfl
      · have e : crlf (c :: t) = c :: crlf t := by simp [crlf, hc]
        obtain ⟨p, ps, e2, e3⟩ := splitC_cons_ne hc (crlf t)
        obtain ⟨q, qs, e4, e5⟩ := splitC_cons_ne hc t
        have hh := ih2 q qs e4
        rw [e2] at hh ih1
        rw [e4] at ih1
        have hp : p = if qs = [] then q else q ++ ['\r'] := by simpa using hh
        rw [e, e3, e5]
        rw [List.map_cons] at ih1
        injection ih1 with e6 e7
        constructor
        · rw [List.map_cons, e7]
          congr 1
          rw [← e6, hp]
          split
          · have hq : '\r' ∉ q := fun hm => h.2 (mem_of_mem_splitC (by rw [e4]; simp) hm)
            have d : ∀ l : Text, '\r' ∉ l → dropCR l = l := by
              intro l hl
              unfold dropCR
              rw [if_neg]
              exact fun e => hl (List.mem_of_getLast? e)
            rw [d q hq, d (c :: q)]
            simp only [List.mem_cons, not_or]
            exact ⟨h.1, hq⟩
          · have d : ∀ l : Text, dropCR (l ++ ['\r']) = l := by
              intro l
              unfold dropCR
              rw [if_pos (by simp)]
              simp
            rw [d q, ← List.cons_append, d (c :: q)]
        · intro p' ps' e8
          injection e8 with e9 e10
          subst e9 e10
          rw [List.head?_cons, hp]
          split <;> rfl
  unfold normCR
  rw [(key t h).1, join_splitC]

/-- Line ends may be written either way. -/
theorem csvRecords_crlf (comma : Char) {t : Text} (h : '\r' ∉ t) : csvRecords comma (crlf t) = csvRecords comma t := by
  unfold csvRecords
  rw [normCR_crlf h, normCR_id (crIn_of_not_mem h) fun e => h (List.mem_of_getLast? e)]

/-! ## The writer -/

theorem csvField_writesAs (comma : Char) (f : Text) : WritesAs comma (csvField comma f) f := by
  unfold csvField
  split
  · exact .inr rfl
  · rename_i h
    left
    unfold needsQuotes at h
    rw [Bool.not_eq_true, Bool.or_eq_false_iff, Bool.or_eq_false_iff, List.any_eq_false] at h
    obtain ⟨⟨-, h⟩, -⟩ := h
    refine ⟨rfl, ⟨?_, ?_, ?_⟩, ?_⟩ <;> intro hm <;> have := h _ hm <;> simp at this

theorem csvField_ne_nil {comma : Char} {f : Text} (h : f ≠ []) : csvField comma f ≠ [] := by
  unfold csvField
  split
  · simp
  · exact h

/-- A field without spaces, quotes and commas that is not `\.` is written as it is. -/
theorem csvField_word {comma : Char} {f : Text} (h1 : ∀ c ∈ f, isSpaceC c = false) (h2 : '"' ∉ f) (h3 : comma ∉ f)
    (h4 : f ≠ ['\\', '.']) : csvField comma f = f := by
  unfold csvField
  rw [if_neg]
  unfold needsQuotes
  rw [Bool.not_eq_true, Bool.or_eq_false_iff, Bool.or_eq_false_iff]
  refine ⟨⟨by simpa using h4, ?_⟩, ?_⟩
  · rw [List.any_eq_false]
    intro c hc
    have hs := h1 c hc
    have e1 : c ≠ comma := fun e => h3 (e ▸ hc)
    have e2 : c ≠ '"' := fun e => h2 (e ▸ hc)
    have e3 : c ≠ '\n' := by rintro rfl; revert hs; decide
    have e4 : c ≠ '\r' := by rintro rfl; revert hs; decide
    simp [e1, e2, e3, e4]
  · cases f with
    | nil => rfl
    | cons c f => exact h1 c (by simp)

end CloudForest
