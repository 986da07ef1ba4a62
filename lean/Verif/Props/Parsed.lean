import Verif.Lemmas.Parsed
import Verif.Props.Libsvm

/-!
# C139: what a parser returns has no holes
-/

set_option linter.unusedSectionVars false

namespace CloudForest
variable {K : Type} [Field K] [LinearOrder K] [IsStrictOrderedRing K]

/-- **C139, AFM.** Whatever the text, if `ParseAFM` returns then every feature of the matrix has a value or a missing mark
for every case and no more, known categories have valid numbers, and features are found by their names. -/
theorem c139_afm (nt : NumText K) (text : Text) (fm : FeatureMatrix K) (h : parseAFM nt text = some fm) :
    fm.Rectangular ∧ fm.Indexed := by
  refine ⟨?_, c43_parse nt text fm h⟩
  have hsame := sameFields_length (csvScan '\t' none .line [] [] (normCR text))
  unfold parseAFM at h
  cases hr : (csvRecords '\t' text).map (·.map String.ofList) with
  | nil => rw [hr] at h; cases h
  | cons header rest =>
    have hlen : ∀ r ∈ rest, r.length = header.length := by
      intro r hrm
      obtain ⟨r', h1, rfl⟩ := List.mem_map.1 (hr ▸ List.mem_cons_of_mem header hrm)
      obtain ⟨q', h2, rfl⟩ := List.mem_map.1 (hr ▸ (List.mem_cons_self : header ∈ header :: rest))
      simpa using hsame r' h1 q' h2
    rw [hr] at h
    simp only at h
    cases ht : header.tail with
    | nil => rw [ht] at h; cases h
    | cons h0 hs =>
      have hhl : header.length = (h0 :: hs).length + 1 := by
        cases header with
        | nil => cases ht
        | cons a t => simp only [List.tail_cons] at ht; rw [ht]; rfl
      rw [ht] at h
      simp only at h
      split at h
      · cases hm : (h0 :: hs).mapM (columnFeature (K := K)) with
        | none => rw [hm] at h; cases h
        | some data =>
          rw [hm] at h
          have hnew : ∀ f ∈ data, f.Consistent ∧ f.length = 0 := by
            intro f hf
            obtain ⟨l, -, hl⟩ := (mapM_results hm).2 f hf
            exact columnFeature_new hl
          have hdl : data.length = (h0 :: hs).length := (mapM_results hm).1
          refine (loadCases_rectangular nt true rest _ 0 fm ⟨?_, ?_⟩ ?_ h).1
          · intro f hf
            rw [pushAll_data] at hf
            exact (hnew f (by simpa using hf)).1
          · intro f hf
            rw [pushAll_data] at hf
            rw [pushAll_labels, (hnew f (by simpa using hf)).2]
            rfl
          · intro r hrm
            rw [pushAll_data, hlen r hrm, hhl, ← hdl]
            simp
      · cases hm : rest.mapM (parseFeature nt) with
        | none => rw [hm] at h; cases h
        | some data =>
          rw [hm] at h
          cases h
          refine ⟨fun f hf => ?_, fun f hf => ?_⟩ <;>
          · rw [pushAll_data] at hf
            obtain ⟨r, hrm, hl⟩ := (mapM_results hm).2 f (by simpa using hf)
            have := parseFeature_length hl
            first
              | exact this.1
              | (rw [pushAll_labels]
                 have h1 := this.2
                 rw [hlen r hrm, hhl] at h1
                 simpa using h1)

/-- **C139.** So if no two features have the same name the matrix is one that trees can be grown from. -/
theorem c139_sound (nt : NumText K) (text : Text) (fm : FeatureMatrix K) (h : parseAFM nt text = some fm)
    (hn : (fm.data.map Feature.name).Nodup) : MatrixOk fm (List.range fm.caseLabels.length) :=
  (c139_afm nt text fm h).1.matrixOk (c139_afm nt text fm h).2 hn

theorem parseFeature_none (nt : NumText K) (r : List String) :
    parseFeature nt r = none ↔ r = [] ∨ ∃ n ∈ r.head?, n.utf8ByteSize < 2 := by
  cases r with
  | nil => simp [parseFeature]
  | cons n vs =>
    simp only [parseFeature]
    split_ifs with h1 h2
    · simpa using h1
    · simpa using h1
    · simpa using h1

theorem columnFeature_none (l : String) : columnFeature (K := K) l = none ↔ l.utf8ByteSize < 2 := by
  unfold columnFeature
  split_ifs with h1 h2
  · simpa using h1
  · simpa using h1
  · simpa using h1

/-- **C139.** `ParseAFM` panics on exactly four kinds of text: one without records, one whose first record has one field, one with
the features in columns and a label of fewer than two bytes, and one with the features in rows and a name of fewer than two bytes. -/
theorem c139_panics (nt : NumText K) (text : Text) : parseAFM nt text = none ↔
    afmRecords text = [] ∨ ∃ header rest, afmRecords text = header :: rest ∧
      (header.length ≤ 1 ∨ (InColumns header ∧ ∃ l ∈ header.tail, l.utf8ByteSize < 2) ∨
        (¬ InColumns header ∧ ∃ r ∈ rest, ∃ n ∈ r.head?, n.utf8ByteSize < 2)) := by
  have hsame := sameFields_length (csvScan '\t' none .line [] [] (normCR text))
  unfold afmRecords parseAFM
  cases hr : (csvRecords '\t' text).map (·.map String.ofList) with
  | nil => simp
  | cons header rest =>
    have hlen : ∀ r ∈ rest, r.length = header.length := by
      intro r hrm
      obtain ⟨r', h1, rfl⟩ := List.mem_map.1 (hr ▸ List.mem_cons_of_mem header hrm)
      obtain ⟨q', h2, rfl⟩ := List.mem_map.1 (hr ▸ (List.mem_cons_self : header ∈ header :: rest))
      simpa using hsame r' h1 q' h2
    simp only [List.cons.injEq, reduceCtorEq, false_or, exists_and_left, ↓existsAndEq, true_and, exists_eq_left']
    cases header with
    | nil => simp
    | cons a t =>
      cases t with
      | nil => simp
      | cons h0 hs =>
        simp only [List.tail_cons]
        have hcol : InColumns (a :: h0 :: hs) ↔
            (hasPrefix2 ['N', ':'] h0 || hasPrefix2 ['C', ':'] h0 || hasPrefix2 ['B', ':'] h0) = true := by
          simp [InColumns, hasPrefix2, or_assoc]
        split_ifs with hc
        · have hI := hcol.2 hc
          simp only [hI, true_and, not_true, false_and, or_false]
          have hge : ¬ (a :: h0 :: hs).length ≤ 1 := by simp
          simp only [hge, false_or]
          cases hm : (h0 :: hs).mapM (columnFeature (K := K)) with
          | none =>
            obtain ⟨l, hl, h⟩ := mapM_none_iff.1 hm
            exact ⟨fun _ => ⟨l, hl, (columnFeature_none l).1 h⟩, fun _ => rfl⟩
          | some data =>
            have hdl : data.length = (h0 :: hs).length := (mapM_results hm).1
            obtain ⟨fm', hfm⟩ := loadCases_total nt true rest (data.foldl .push ⟨[], fun _ => none, []⟩) 0 (by
              intro r hrm
              rw [pushAll_data, hlen r hrm]
              simp [hdl])
            constructor
            · intro h
              exact absurd (hfm.symm.trans h) nofun
            · rintro ⟨l, hl, h⟩
              have : (h0 :: hs).mapM (columnFeature (K := K)) = none := mapM_none_iff.2 ⟨l, hl, (columnFeature_none l).2 h⟩
              rw [hm] at this
              cases this
        · have hI : ¬ InColumns (a :: h0 :: hs) := fun h => hc (hcol.1 h)
          simp only [hI, false_and, not_false_eq_true, true_and, false_or]
          have hge : ¬ (a :: h0 :: hs).length ≤ 1 := by simp
          simp only [hge, false_or]
          cases hm : rest.mapM (parseFeature nt) with
          | none =>
            obtain ⟨r, hrm, h⟩ := mapM_none_iff.1 hm
            refine ⟨fun _ => ⟨r, hrm, ?_⟩, fun _ => rfl⟩
            rcases (parseFeature_none nt r).1 h with rfl | h
            · have := hlen [] hrm
              simp at this
            · exact h
          | some data =>
            constructor
            · intro h; cases h
            · rintro ⟨r, hrm, h⟩
              have : rest.mapM (parseFeature nt) = none := mapM_none_iff.2 ⟨r, hrm, (parseFeature_none nt r).2 (.inr h)⟩
              rw [hm] at this
              cases this

/-- **C139, libsvm.** The same for `ParseLibSVM`, whatever the text: there is one case for every full line, and columns that appear
only in later lines have been filled up for the earlier ones. -/
theorem c139_libsvm (nt : NumText K) (text : Text) (fm : FeatureMatrix K) (h : parseLibSVM nt text = some fm) :
    fm.Rectangular ∧ fm.caseLabels.length = (fullLines text).length := by
  obtain ⟨h1, h2⟩ := filled_lines (fullLines text) _ fm (by intro f hf; cases hf) h
  exact ⟨⟨fun f hf => (h1 f hf).1, fun f hf => (h1 f hf).2⟩, by simpa using h2⟩

/-- **C139, ARFF, in part.** The first columns, as many as the data records have fields, are full; what is missing is the columns
of attributes after them, which are empty (`c139_arff_short`). -/
theorem c139_arff_partial (nt : NumText K) (text : Text) (fm : FeatureMatrix K) (h : parseARFF nt text = some (some fm)) :
    (∀ f ∈ fm.data, f.Consistent) ∧ ∃ w, (fm.caseLabels = [] ∨ w ≤ fm.data.length) ∧
      ∀ (i : Nat) (f : Feature K), fm.data[i]? = some f → f.length = if i < w then fm.caseLabels.length else 0 := by
  unfold parseARFF at h
  simp only at h
  split at h
  · cases h
  · cases h
  · rename_i fm0 rest hh
    obtain ⟨hnew, hlab⟩ := arffHeader_new _ _ _ _ (by intro f hf; cases hf) hh
    rw [Option.map_eq_some_iff] at h
    obtain ⟨g, hg, h⟩ := h
    simp only [Option.some.injEq] at h
    subst h
    have hsame := sameFields_length (csvScan ',' (some '%') .line [] [] (normCR (joinC '\n'
      (rest ++ [(splitC '\n' text).getLast?.getD []]))))
    have hlen : ∃ w, ∀ r ∈ (csvRecordsComment ',' '%' (joinC '\n' (rest ++ [(splitC '\n' text).getLast?.getD []]))).map
        (·.map String.ofList), r.length = w := by
      unfold csvRecordsComment
      cases hs : sameFields (csvScan ',' (some '%') .line [] [] (normCR (joinC '\n'
          (rest ++ [(splitC '\n' text).getLast?.getD []])))) with
      | nil => exact ⟨0, by simp⟩
      | cons q rs =>
        refine ⟨q.length, fun r hrm => ?_⟩
        obtain ⟨r', h1, rfl⟩ := List.mem_map.1 hrm
        rw [hs] at hsame
        simpa using hsame r' h1 q List.mem_cons_self
    obtain ⟨w, hw⟩ := hlen
    obtain ⟨h1, h2, h3, h4, h5⟩ := loadCases_columns nt w _ _ _ _ (fun f hf => (hnew f hf).1) hw hg
    rw [hlab] at h3
    simp only [List.length_nil, Nat.zero_add] at h3
    refine ⟨h4, w, ?_, fun i f hf => ?_⟩
    · rcases h1 with h1 | h1
      · rw [h1] at h3
        exact .inl (List.length_eq_zero_iff.1 h3)
      · exact .inr (by omega)
    · have hlt : i < fm0.data.length := by rw [← h2]; exact (List.getElem?_eq_some_iff.1 hf).1
      rw [h5 i _ f (List.getElem?_eq_getElem hlt) hf, (hnew _ (List.getElem_mem hlt)).2, h3]
      simp

/-- **C139 is false of ARFF**: records with fewer fields than there are attributes are taken, and the matrix has an empty column. -/
theorem c139_arff_short : ∃ fm : FeatureMatrix ℚ,
    parseARFF exNums0 "@attribute a numeric\n@attribute b numeric\n@data\n1\n0\n".toList = some (some fm) ∧
      fm.data.map Feature.length = [2, 0] ∧ fm.caseLabels.length = 2 ∧ ¬ fm.Rectangular := by
  have key : (parseARFF exNums0 "@attribute a numeric\n@attribute b numeric\n@data\n1\n0\n".toList).map (·.map fun fm =>
      (fm.data.map Feature.length, fm.caseLabels.length)) = some (some ([2, 0], 2)) := by decide +kernel
  rw [Option.map_eq_some_iff] at key
  obtain ⟨o, ho, hk⟩ := key
  rw [Option.map_eq_some_iff] at hk
  obtain ⟨fm, rfl, hk⟩ := hk
  simp only [Prod.mk.injEq] at hk
  refine ⟨fm, ho, hk.1, hk.2, fun hR => ?_⟩
  have : ∀ n ∈ fm.data.map Feature.length, n = 2 := by
    intro n hn
    obtain ⟨f, hf, rfl⟩ := List.mem_map.1 hn
    rw [hR.lengths f hf, hk.2]
  rw [hk.1] at this
  exact absurd (this 0 (by simp)) (by decide)

/-- A line of another length ends the reading of an AFM without a word: only the feature before it is there. -/
theorem c139_truncated : (parseAFM exNums0 ".\tx\ty\nN:a\t1\t0\nN:b\t1\nN:c\t1\t0\n".toList).map (fun fm =>
    (fm.data.map fun f => (f.name, f.length), fm.caseLabels)) = some ([("N:a", 2)], ["x", "y"]) := by decide +kernel

example : ((parseAFM exNums0 ".\tN:a\tC:b\nx\t1\tu\ny\tNA\tv\nz\t0\tu\n".toList).map fun fm =>
      (fm.data.map Feature.length, fm.caseLabels.length)) = some ([3, 3], 3) ∧
    ((parseAFM exNums0 ".\tx\ty\nN:a\t1\tNA\nC:b\tu\tv\n".toList).map fun fm =>
      (fm.data.map Feature.length, fm.data.map Feature.name, fm.caseLabels.length)) = some ([2, 2], ["N:a", "C:b"], 2) ∧
    ((parseLibSVM exNums0 "a 1:1\nb\na 3:1 2:0\n".toList).map fun fm =>
      (fm.data.map Feature.length, fm.caseLabels.length)) = some ([3, 3, 3, 3], 3) ∧
    (parseAFM exNums0 ".\tN:a\tb\nx\t1\tu\n".toList).isNone ∧
    (parseAFM exNums0 ".\tx\nb\tu\n".toList).isNone ∧ (parseAFM exNums0 ".\nN:b\n".toList).isNone ∧
    (parseAFM exNums0 "\n\n".toList).isNone :=
  ⟨by decide +kernel, by decide +kernel, by decide +kernel, by decide +kernel, by decide +kernel, by decide +kernel,
    by decide +kernel⟩

end CloudForest
