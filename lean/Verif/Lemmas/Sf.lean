import Verif.Model.Sf
import Verif.Lemmas.Text
import Mathlib.Data.List.Induction

/-!
# A line of a forest file, written and parsed
-/

set_option linter.unusedSectionVars false

namespace CloudForest

/-- A field `KEY=value` or `KEY="value"` of a line. -/
structure SfField where
  key : Text
  value : Text
  quoted : Bool

/-- The field as written. -/
def SfField.text (f : SfField) : Text :=
  f.key ++ '=' :: (if f.quoted then '"' :: (f.value ++ ['"']) else f.value)

/-- A field that can be read back. -/
structure SfField.OK (f : SfField) : Prop where
  ne : f.key ≠ []
  noquote : '"' ∉ f.key
  noequals : '=' ∉ f.key
  noline : '\n' ∉ f.key
  nocomma : ',' ∉ f.key
  edges : NoEdgeSpace f.key
  value : Plain f.value

theorem Plain.noEdge {s : Text} (h : Plain s) : NoEdgeSpace s := by
  rw [← join_splitC ',' s]
  have hall := h.edges
  revert hall
  generalize splitC ',' s = ps
  intro hall
  induction ps with
  | nil => exact NoEdgeSpace.nil
  | cons p ps ih =>
    cases ps with
    | nil => exact hall p (by simp)
    | cons q ps =>
      rw [joinC_cons_cons]
      exact (hall p (by simp)).middle (ih fun x hx => hall x (by simp [hx])) (by decide)

theorem count_zero {c : Char} {s : Text} (h : c ∉ s) : s.count c = 0 := List.count_eq_zero.2 h

/-- Terms without quote or equals sign are joined to the clause before them. -/
theorem parseTerm_join (cl : List Text) (t : Text) (ps : List Text)
    (h : ∀ p ∈ ps, NoEdgeSpace p ∧ '"' ∉ p ∧ '=' ∉ p) :
    ps.foldlM parseTerm (cl ++ [t], []) = some (cl ++ [joinC ',' (t :: ps)], []) := by
  induction ps generalizing t with
  | nil => rfl
  | cons p ps ih =>
    obtain ⟨h1, h2, h3⟩ := h p (by simp)
    have : parseTerm (cl ++ [t], []) p = some (cl ++ [t ++ ',' :: p], []) := by
      unfold parseTerm
      simp [trimSpace_id h1, count_zero h2, count_zero h3]
    rw [List.foldlM_cons, this]
    simp only [Option.bind_eq_bind, Option.bind_some]
    rw [ih (t ++ ',' :: p) fun x hx => h x (by simp [hx])]
    congr 4
    cases ps with
    | nil => rfl
    | cons q ps =>
      rw [joinC_cons_cons, joinC_cons_cons, joinC_cons_cons]
      simp

/-- Between an opening and a closing quote terms are collected. -/
theorem parseTerm_inside (cl : List Text) (ins : List Text) (hins : ins ≠ []) (ps : List Text)
    (h : ∀ p ∈ ps, NoEdgeSpace p ∧ '"' ∉ p) :
    ps.foldlM parseTerm (cl, ins) = some (cl, ins ++ ps) := by
  induction ps generalizing ins with
  | nil => simp
  | cons p ps ih =>
    obtain ⟨h1, h2⟩ := h p (by simp)
    have hpos : 0 < ins.length := List.length_pos_iff.2 hins
    have : parseTerm (cl, ins) p = some (cl, ins ++ [p]) := by
      unfold parseTerm
      simp [trimSpace_id h1, count_zero h2, hpos]
    rw [List.foldlM_cons, this]
    simp only [Option.bind_eq_bind, Option.bind_some]
    rw [ih (ins ++ [p]) (by simp) fun x hx => h x (by simp [hx])]
    simp

theorem snoc_cases {α : Type} (l : List α) : l = [] ∨ ∃ l' x, l = l' ++ [x] := by
  cases l using List.reverseRecOn with
  | nil => exact .inl rfl
  | append_singleton l x => exact .inr ⟨l, x, rfl⟩

theorem parseTerm_field (cl : List Text) (f : SfField) (hf : f.OK) :
    (splitC ',' f.text).foldlM parseTerm (cl, []) = some (cl ++ [f.text], []) := by
  obtain ⟨key, value, quoted⟩ := f
  have hkey : splitC ',' (key ++ ['=']) = [] ++ [key ++ ['=']] :=
    splitC_none (by simpa using hf.nocomma)
  have hkq := count_zero hf.noquote
  have hke := count_zero hf.noequals
  cases hv : splitC ',' value with
  | nil => exact absurd hv (splitC_ne_nil _ _)
  | cons p0 ps =>
  have hp : ∀ p ∈ p0 :: ps, NoEdgeSpace p ∧ '"' ∉ p ∧ '=' ∉ p := by
    intro p hp
    rw [← hv] at hp
    exact ⟨hf.value.edges p hp, fun hc => hf.value.noquote (mem_of_mem_splitC hp hc),
      fun hc => hf.value.noequals (mem_of_mem_splitC hp hc)⟩
  obtain ⟨h01, h02, h03⟩ := hp p0 (by simp)
  cases quoted with
  | false =>
    have htext : SfField.text ⟨key, value, false⟩ = (key ++ ['=']) ++ value := by
      simp [SfField.text]
    have hsp : splitC ',' (SfField.text ⟨key, value, false⟩) = (key ++ '=' :: p0) :: ps := by
      rw [htext, splitC_append hkey hv]; simp
    have hjoin := join_splitC ',' (SfField.text ⟨key, value, false⟩)
    rw [hsp] at hjoin ⊢
    have h0 : parseTerm (cl, []) (key ++ '=' :: p0) = some (cl ++ [key ++ '=' :: p0], []) := by
      unfold parseTerm
      have : NoEdgeSpace (key ++ '=' :: p0) := hf.edges.middle h01 (by decide)
      simp [trimSpace_id this, List.count_append, hkq, hke, count_zero h02, count_zero h03]
    rw [List.foldlM_cons, h0]
    simp only [Option.bind_eq_bind, Option.bind_some]
    rw [parseTerm_join cl _ ps fun p h => hp p (by simp [h]), hjoin]
  | true =>
    have htext : SfField.text ⟨key, value, true⟩ = (key ++ ['=']) ++ ('"' :: (value ++ ['"'])) := by
      simp [SfField.text]
    have hq : splitC ',' ['"'] = ['"'] :: [] := rfl
    rcases snoc_cases ps with rfl | ⟨mid, last, rfl⟩
    · have h1 : splitC ',' (value ++ ['"']) = [] ++ (p0 ++ ['"']) :: [] :=
        splitC_append (as := []) (x := p0) (by rw [hv]; rfl) hq
      obtain ⟨q, qs, h2, h3⟩ := splitC_cons_ne (sep := ',') (c := '"') (by decide) (value ++ ['"'])
      rw [h1] at h2
      cases h2
      have hsp : splitC ',' (SfField.text ⟨key, value, true⟩) =
          [key ++ '=' :: '"' :: (p0 ++ ['"'])] := by
        rw [htext, splitC_append hkey h3]; simp
      have hjoin := join_splitC ',' (SfField.text ⟨key, value, true⟩)
      rw [hsp] at hjoin ⊢
      simp only [joinC] at hjoin
      have h0 : parseTerm (cl, []) (key ++ '=' :: '"' :: (p0 ++ ['"'])) =
          some (cl ++ [key ++ '=' :: '"' :: (p0 ++ ['"'])], []) := by
        unfold parseTerm
        have : NoEdgeSpace (key ++ '=' :: '"' :: (p0 ++ ['"'])) := by
          refine hf.edges.middle ?_ (by decide)
          have := (NoEdgeSpace.nil.middle h01 (d := '"') (by decide)).middle NoEdgeSpace.nil (d := '"')
            (by decide)
          simpa using this
        simp [trimSpace_id this, List.count_append, hkq, hke, count_zero h02, count_zero h03]
      rw [List.foldlM_cons, h0, ← hjoin]
      rfl
    · have h1 : splitC ',' (value ++ ['"']) = (p0 :: mid) ++ (last ++ ['"']) :: [] :=
        splitC_append (as := p0 :: mid) (x := last) (by rw [hv]; rfl) hq
      obtain ⟨q, qs, h2, h3⟩ := splitC_cons_ne (sep := ',') (c := '"') (by decide) (value ++ ['"'])
      rw [h1] at h2
      cases h2
      have hsp : splitC ',' (SfField.text ⟨key, value, true⟩) =
          (key ++ '=' :: '"' :: p0) :: (mid ++ [last ++ ['"']]) := by
        rw [htext, splitC_append hkey h3]; simp
      have hjoin := join_splitC ',' (SfField.text ⟨key, value, true⟩)
      rw [hsp] at hjoin ⊢
      obtain ⟨hl1, hl2, hl3⟩ := hp last (by simp)
      have h0 : parseTerm (cl, []) (key ++ '=' :: '"' :: p0) = some (cl, [key ++ '=' :: '"' :: p0]) := by
        unfold parseTerm
        have : NoEdgeSpace (key ++ '=' :: '"' :: p0) :=
          hf.edges.middle (by simpa using NoEdgeSpace.nil.middle h01 (d := '"') (by decide)) (by decide)
        simp [trimSpace_id this, List.count_append, hkq, count_zero h02]
      have hlast : parseTerm (cl, (key ++ '=' :: '"' :: p0) :: mid) (last ++ ['"']) =
          some (cl ++ [joinC ',' ((key ++ '=' :: '"' :: p0) :: (mid ++ [last ++ ['"']]))], []) := by
        unfold parseTerm
        have : NoEdgeSpace (last ++ ['"']) := hl1.middle NoEdgeSpace.nil (by decide)
        simp [trimSpace_id this, List.count_append, count_zero hl2]
      rw [List.foldlM_cons, h0]
      simp only [Option.bind_eq_bind, Option.bind_some]
      rw [List.foldlM_append, parseTerm_inside cl _ (by simp) mid
        fun p h => ⟨(hp p (by simp [h])).1, (hp p (by simp [h])).2.1⟩]
      simp only [Option.bind_eq_bind, Option.bind_some, List.foldlM_cons, List.foldlM_nil,
        List.singleton_append, hlast, hjoin]
      rfl

theorem parseClause_field (f : SfField) (hf : f.OK) : parseClause f.text = some (f.key, f.value) := by
  obtain ⟨key, value, quoted⟩ := f
  have hne : '=' ∉ (if quoted then '"' :: (value ++ ['"']) else value) := by
    cases quoted with
    | false => simpa using hf.value.noequals
    | true => simpa using hf.value.noequals
  unfold parseClause SfField.text
  simp only
  rw [splitC_append_cons, splitC_none hf.noequals, splitC_none hne]
  simp only [List.cons_append, List.nil_append, List.map_cons, List.map_nil, Option.some.injEq,
    Prod.mk.injEq]
  refine ⟨by rw [trimSpace_id hf.edges, trimQuotes_plain hf.noquote], ?_⟩
  cases quoted with
  | false =>
    simp only [Bool.false_eq_true, if_false]
    rw [trimSpace_id hf.value.noEdge, trimQuotes_plain hf.value.noquote]
  | true =>
    simp only [if_true]
    have : NoEdgeSpace ('"' :: (value ++ ['"'])) := by
      have := (NoEdgeSpace.nil.middle hf.value.noEdge (d := '"') (by decide)).middle NoEdgeSpace.nil
        (d := '"') (by decide)
      simpa using this
    rw [trimSpace_id this]
    exact trimQuotes_quoted hf.value.noquote

theorem SfField.text_edges (f : SfField) (hf : f.OK) : NoEdgeSpace f.text := by
  obtain ⟨key, value, quoted⟩ := f
  refine hf.edges.middle ?_ (by decide)
  cases quoted with
  | false => simpa using hf.value.noEdge
  | true =>
    have := (NoEdgeSpace.nil.middle hf.value.noEdge (d := '"') (by decide)).middle NoEdgeSpace.nil
      (d := '"') (by decide)
    simpa using this

/-- A line of fields. -/
def sfLine (fs : List SfField) : Text := joinC ',' (fs.map SfField.text)

theorem sfLine_ne_nil (f : SfField) (fs : List SfField) : sfLine (f :: fs) ≠ [] := by
  unfold sfLine
  cases fs <;> simp [joinC, SfField.text]

theorem sfLine_edges (fs : List SfField) (h : ∀ f ∈ fs, f.OK) : NoEdgeSpace (sfLine fs) := by
  unfold sfLine
  induction fs with
  | nil => exact NoEdgeSpace.nil
  | cons f fs ih =>
    cases fs with
    | nil => exact f.text_edges (h f (by simp))
    | cons g fs =>
      exact (f.text_edges (h f (by simp))).middle (ih fun x hx => h x (by simp [hx])) (by decide)

theorem splitC_sfLine (fs : List SfField) (hne : fs ≠ []) :
    splitC ',' (sfLine fs) = fs.flatMap fun f => splitC ',' f.text := by
  unfold sfLine
  induction fs with
  | nil => exact absurd rfl hne
  | cons f fs ih =>
    cases fs with
    | nil => simp [joinC]
    | cons g fs =>
      simp only [List.map_cons] at ih ⊢
      rw [joinC_cons_cons, splitC_append_cons, ih (by simp)]
      rfl

theorem parse_fields (cl : List Text) (fs : List SfField) (h : ∀ f ∈ fs, f.OK) :
    (fs.flatMap fun f => splitC ',' f.text).foldlM parseTerm (cl, []) =
      some (cl ++ fs.map SfField.text, []) := by
  induction fs generalizing cl with
  | nil => simp
  | cons f fs ih =>
    rw [List.flatMap_cons, List.foldlM_append, parseTerm_field cl f (h f (by simp))]
    simp only [Option.bind_eq_bind, Option.bind_some]
    rw [ih (cl ++ [f.text]) fun x hx => h x (by simp [hx])]
    simp

theorem mapM_clauses (fs : List SfField) (h : ∀ f ∈ fs, f.OK) :
    (fs.map SfField.text).mapM parseClause = some (fs.map fun f => (f.key, f.value)) := by
  induction fs with
  | nil => rfl
  | cons f fs ih =>
    rw [List.map_cons, List.mapM_cons, parseClause_field f (h f (by simp)),
      ih fun x hx => h x (by simp [hx])]
    rfl

/-- Reading a line gives its fields. -/
theorem parseSfLine_line (f : SfField) (fs : List SfField) (h : ∀ g ∈ f :: fs, g.OK) :
    parseSfLine (sfLine (f :: fs) ++ ['\n']) = some ((f :: fs).map fun f => (f.key, f.value)) := by
  unfold parseSfLine
  rw [trimSpace_line (sfLine_edges _ h) (sfLine_ne_nil f fs), splitC_sfLine _ (by simp),
    parse_fields [] _ h]
  simp only [Option.bind_eq_bind, Option.bind_some, List.nil_append]
  exact mapM_clauses _ h

theorem SfField.text_noline (f : SfField) (hf : f.OK) : '\n' ∉ f.text := by
  obtain ⟨key, value, quoted⟩ := f
  have h1 := hf.noline
  have h2 := hf.value.noline
  simp only at h1 h2
  cases quoted <;> simp [SfField.text, h1, h2]

theorem sfLine_noline (fs : List SfField) (h : ∀ f ∈ fs, f.OK) : '\n' ∉ sfLine fs := by
  unfold sfLine
  induction fs with
  | nil => simp [joinC]
  | cons f fs ih =>
    cases fs with
    | nil => exact f.text_noline (h f (by simp))
    | cons g fs =>
      simp only [List.map_cons] at ih ⊢
      rw [joinC_cons_cons, List.mem_append, List.mem_cons]
      rintro (hm | hm | hm)
      · exact f.text_noline (h f (by simp)) hm
      · cases hm
      · exact ih (fun x hx => h x (by simp [hx])) hm

end CloudForest
