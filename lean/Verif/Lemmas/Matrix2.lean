import Verif.Lemmas.Matrix
import Mathlib.Data.List.Nodup

/-!
# Matrices written and read: lemmas
-/

set_option linter.unusedSectionVars false

namespace CloudForest
variable {K : Type} [Field K] [LinearOrder K] [IsStrictOrderedRing K]

theorem tabless_NA : Tabless "NA".toList := by
  refine ⟨?_, ?_, ?_, ?_⟩ <;> decide +kernel

theorem token_NA : isMissingToken "NA" = true := by decide +kernel

theorem cat_cell {nt : NumText K} {f : CatFeature} {c : Nat} (h : (Feature.cat f : Feature K).CaseWritable nt c) :
    ∃ v, f.getStr c = some v ∧ Tabless v.toList ∧ f.missing[c]? = some (isMissingToken v) := by
  rcases h with h | ⟨h, k, s, h1, h2, h3, h4⟩
  · exact ⟨"NA", CatFeature.getStr_missing h, tabless_NA, by rw [h, token_NA]⟩
  · exact ⟨s, by rw [CatFeature.getStr_known h, h1]; exact h2, h3, by rw [h, h4]⟩

theorem num_cell {nt : NumText K} (na : nt.parse "NA".toList = none) {f : NumFeature K} {c : Nat}
    (h : (Feature.num f : Feature K).CaseWritable nt c) :
    ∃ v, f.getStr nt c = some v ∧ Tabless v.toList ∧ f.missing[c]? = some (nt.parse v.toList).isNone ∧
      (f.missing[c]? = some false → f.numData[c]? = some ((nt.parse v.toList).getD (.fin 0))) := by
  rcases h with h | ⟨h, x, h1, h2, h3⟩
  · exact ⟨"NA", by unfold NumFeature.getStr; rw [h]; rfl, tabless_NA, by rw [h, na]; rfl,
      fun e => by rw [h] at e; cases e⟩
  · refine ⟨String.ofList (nt.fmt x), by unfold NumFeature.getStr; rw [h, h1]; rfl, ?_, ?_, ?_⟩
    · rw [String.toList_ofList]; exact h2
    · rw [String.toList_ofList, h3, h]; rfl
    · intro; rw [String.toList_ofList, h3, h1]; rfl

theorem getStr_writable {nt : NumText K} (na : nt.parse "NA".toList = none) {f : Feature K} {c : Nat}
    (h : f.CaseWritable nt c) : ∃ v, f.getStr nt c = some v ∧ Tabless v.toList := by
  cases f with
  | cat f => obtain ⟨v, h1, h2, -⟩ := cat_cell h; exact ⟨v, h1, h2⟩
  | num f => obtain ⟨v, h1, h2, -⟩ := num_cell na h; exact ⟨v, h1, h2⟩

/-- The string written for a case. -/
def cellOf (nt : NumText K) (f : Feature K) (c : Nat) : String := (f.getStr nt c).getD ""

/-- The label written for a case. -/
def labelOf (fm : FeatureMatrix K) (c : Nat) : String := (fm.caseLabels[c]?).getD ""

theorem utf8_two {s : String} (h : s.toList.take 2 = ['N', ':']) : ¬ s.utf8ByteSize < 2 := by
  have : s = "N:" ++ String.ofList (s.toList.drop 2) := by
    rw [← String.toList_inj, String.toList_append, String.toList_ofList]
    show s.toList = ['N', ':'] ++ _
    rw [← h, String.toList_ofList, List.take_append_drop]
  rw [this, String.utf8ByteSize_append]
  have e : "N:".utf8ByteSize = 2 := by decide
  omega

theorem parseFeature_cat (nt : NumText K) {name : String} (vals : List String) (h1 : 2 ≤ name.utf8ByteSize)
    (h2 : name.toList.take 2 ≠ ['N', ':']) :
    parseFeature nt (name :: vals) = some (.cat (vals.foldl (fun f v => f.append v) (.new name))) := by
  unfold parseFeature
  simp only
  rw [if_neg (by omega), if_neg (by unfold hasPrefix2; simpa using h2)]

theorem parseFeature_num (nt : NumText K) {name : String} (vals : List String)
    (h : name.toList.take 2 = ['N', ':']) :
    parseFeature nt (name :: vals) = some (.num (vals.foldl (fun f v => f.append nt v) (.new name))) := by
  unfold parseFeature
  simp only
  rw [if_neg (utf8_two h), if_pos (by unfold hasPrefix2; exact decide_eq_true h)]

theorem parseFeature_written {nt : NumText K} (na : nt.parse "NA".toList = none) {f : Feature K}
    {cases : List Nat} (ht : f.TypedName) (hc : ∀ c ∈ cases, f.CaseWritable nt c) :
    ∃ g, parseFeature nt (f.name :: cases.map (cellOf nt f)) = some g ∧ f.SameOn cases g ∧ g.name = f.name := by
  cases f with
  | cat f =>
    refine ⟨.cat ((cases.map (cellOf nt (.cat f))).foldl (fun f v => f.append v) (.new f.name)), ?_, ?_, ?_⟩
    · exact parseFeature_cat nt _ ht.1 ht.2
    · obtain ⟨h1, h2⟩ := cat_appends (cases.map (cellOf nt (.cat f))) (CatFeature.new f.name)
      obtain ⟨-, h3⟩ := cat_appends_reads (cases.map (cellOf nt (.cat f))) (CatFeature.new f.name) []
        (consistent_new _) ⟨rfl, fun i => by simp [CatFeature.new, CatFeature.getStr]⟩
      refine ⟨h2, by rw [h1]; simp [CatFeature.new], ?_⟩
      intro j c hj
      have hmem : c ∈ cases := List.mem_of_getElem? hj
      obtain ⟨v, hv1, -, hv3⟩ := cat_cell (hc c hmem)
      have hcell : cellOf nt (.cat f) c = v := by simp [cellOf, Feature.getStr, hv1]
      refine ⟨?_, fun hk => ?_⟩
      · rw [h1, hv3, ← hcell]
        simp [CatFeature.new, hj]
      · rw [h3.2 j, hv1]
        rw [hk] at hv3
        simp only [List.nil_append, List.getElem?_map, hj, Option.map_some, hcell]
        rw [catCell, if_neg (by rw [← Option.some.inj hv3]; simp)]
    · exact (cat_appends (cases.map (cellOf nt (.cat f))) (CatFeature.new f.name)).2
  | num f =>
    refine ⟨.num ((cases.map (cellOf nt (.num f))).foldl (fun f v => f.append nt v) (.new f.name)), ?_, ?_, ?_⟩
    · exact parseFeature_num nt _ ht
    · obtain ⟨h1, h2, h3⟩ := num_appends nt (cases.map (cellOf nt (.num f))) (NumFeature.new f.name)
      refine ⟨h3, by rw [h1]; simp [NumFeature.new], ?_⟩
      intro j c hj
      have hmem : c ∈ cases := List.mem_of_getElem? hj
      obtain ⟨v, hv1, -, hv3, hv4⟩ := num_cell na (hc c hmem)
      have hcell : cellOf nt (.num f) c = v := by simp [cellOf, Feature.getStr, hv1]
      refine ⟨?_, fun hk => ?_⟩
      · rw [h1, hv3, ← hcell]
        simp [NumFeature.new, hj]
      · rw [h2, hv4 hk, ← hcell]
        simp [NumFeature.new, hj]
    · exact (num_appends nt (cases.map (cellOf nt (.num f))) (NumFeature.new f.name)).2.2

theorem writeCases_eq {nt : NumText K} {fm : FeatureMatrix K} {cases : List Nat}
    (hl : ∀ c ∈ cases, ∃ l, fm.caseLabels[c]? = some l)
    (hv : ∀ f ∈ fm.data, ∀ c ∈ cases, ∃ v, f.getStr nt c = some v) :
    fm.writeCases nt cases = some ((("." :: cases.map (labelOf fm)) ::
      fm.data.map fun f => f.name :: cases.map (cellOf nt f)).map
        fun r => joinC '\t' (r.map String.toList) ++ ['\n']).flatten := by
  unfold FeatureMatrix.writeCases
  have h1 : cases.mapM (fun c => fm.caseLabels[c]?) = some (cases.map (labelOf fm)) :=
    mapM_some fun c hc => by
      obtain ⟨l, hl⟩ := hl c hc
      simp [labelOf, hl]
  have h2 : fm.data.mapM (fun f => do
      let vals ← cases.mapM fun c => f.getStr nt c
      some (f.name :: vals)) = some (fm.data.map fun f => f.name :: cases.map (cellOf nt f)) :=
    mapM_some fun f hf => by
      have : cases.mapM (fun c => f.getStr nt c) = some (cases.map (cellOf nt f)) :=
        mapM_some fun c hc => by
          obtain ⟨v, hv⟩ := hv f hf c hc
          simp [cellOf, hv]
      rw [this]
      rfl
  rw [h1, h2]
  rfl

/-- The records that are read are those written. -/
theorem csvRecords_written {nt : NumText K} {fm : FeatureMatrix K} {cases : List Nat} (h : fm.Writable nt cases) :
    ∃ text, fm.writeCases nt cases = some text ∧
      (csvRecords '\t' text).map (·.map String.ofList) = ("." :: cases.map (labelOf fm)) ::
        fm.data.map fun f => f.name :: cases.map (cellOf nt f) := by
  refine ⟨_, writeCases_eq (fun c hc => let ⟨l, hl, _⟩ := h.labels c hc; ⟨l, hl⟩)
    (fun f hf c hc => let ⟨v, hv, _⟩ := getStr_writable h.na (h.cases f hf c hc); ⟨v, hv⟩), ?_⟩
  obtain ⟨rows, hrows⟩ : ∃ rows, rows = ("." :: cases.map (labelOf fm)) ::
    fm.data.map fun f => f.name :: cases.map (cellOf nt f) := ⟨_, rfl⟩
  rw [← hrows]
  have e : (rows.map fun r => joinC '\t' (r.map String.toList) ++ ['\n']) =
      (rows.map (List.map String.toList)).map fun r => joinC '\t' r ++ ['\n'] := by
    rw [List.map_map]; rfl
  rw [e, csvRecords_lines _ (cases.length + 1) (by omega)]
  · rw [List.map_map]
    conv_rhs => rw [← List.map_id rows]
    apply List.map_congr_left
    intro r _
    simp only [Function.comp_apply, List.map_map, id_eq]
    conv_rhs => rw [← List.map_id r]
    apply List.map_congr_left
    intro s _
    simp
  · intro r hr
    obtain ⟨q, hq, rfl⟩ := List.mem_map.1 hr
    rw [hrows] at hq
    rcases List.mem_cons.1 hq with rfl | hq
    · simp
    · obtain ⟨f, -, rfl⟩ := List.mem_map.1 hq
      simp
  · intro r hr v hv
    obtain ⟨q, hq, rfl⟩ := List.mem_map.1 hr
    obtain ⟨s, hs, rfl⟩ := List.mem_map.1 hv
    rw [hrows] at hq
    rcases List.mem_cons.1 hq with rfl | hq
    · rcases List.mem_cons.1 hs with rfl | hs
      · refine ⟨?_, ?_, ?_, ?_⟩ <;> decide +kernel
      · obtain ⟨c, hc, rfl⟩ := List.mem_map.1 hs
        obtain ⟨l, hl, ht⟩ := h.labels c hc
        simpa [labelOf, hl] using ht
    · obtain ⟨f, hf, rfl⟩ := List.mem_map.1 hq
      rcases List.mem_cons.1 hs with rfl | hs
      · exact (h.names f hf).1
      · obtain ⟨c, hc, rfl⟩ := List.mem_map.1 hs
        obtain ⟨v, hv, ht⟩ := getStr_writable h.na (h.cases f hf c hc)
        simpa [cellOf, hv] using ht
  · intro r hr
    obtain ⟨q, hq, rfl⟩ := List.mem_map.1 hr
    have hq2 : ∃ x xs, q = x :: xs ∧ xs ≠ [] := by
      rw [hrows] at hq
      rcases List.mem_cons.1 hq with rfl | hq
      · exact ⟨_, _, rfl, by simpa using h.nonempty⟩
      · obtain ⟨f, -, rfl⟩ := List.mem_map.1 hq
        exact ⟨_, _, rfl, by simpa using h.nonempty⟩
    obtain ⟨x, xs, rfl, hne⟩ := hq2
    rw [List.map_cons, joinC_cons (by simpa using hne)]
    simp

/-! ## Distinct column names -/

/-- The part of a name before the first `=`. -/
def stem (s : String) : List Char := s.toList.takeWhile (· != '=')

theorem takeWhile_append_cons {α : Type} (p : α → Bool) (l : List α) (x : α) (r : List α)
    (h : ∀ y ∈ l, p y = true) (hx : p x = false) : (l ++ x :: r).takeWhile p = l := by
  induction l with
  | nil => simp [hx]
  | cons y ys ih =>
    rw [List.cons_append, List.takeWhile_cons, h y (by simp), if_pos rfl, ih fun z hz => h z (by simp [hz])]

theorem stem_plain {s : String} (h : '=' ∉ s.toList) : stem s = s.toList := by
  unfold stem
  apply takeWhile_all
  intro c hc
  simp only [bne_iff_ne, ne_eq]
  exact fun e => h (e ▸ hc)

theorem stem_column {s t : String} (h : '=' ∉ s.toList) : stem (s ++ "==" ++ t) = s.toList := by
  unfold stem
  have e : (s ++ "==" ++ t).toList = s.toList ++ '=' :: '=' :: t.toList := by
    rw [String.toList_append, String.toList_append]
    have : "==".toList = ['=', '='] := by decide
    rw [this]
    simp
  rw [e]
  apply takeWhile_append_cons
  · intro c hc
    simp only [bne_iff_ne, ne_eq]
    exact fun e => h (e ▸ hc)
  · rfl

/-- The columns of a feature have distinct names with the feature's name as stem. -/
theorem columns_names {f : Feature K} (hf : f.Consistent) (hn : '=' ∉ f.name.toList) :
    ∃ cols, columnsOf (fun f => (f.encodeToNum (K := K)).map (·.map .num)) f = some cols ∧
      (cols.map Feature.name).Nodup ∧ ∀ c ∈ cols, stem c.name = f.name.toList := by
  cases f with
  | num f => exact ⟨[.num f], rfl, by simp, fun c hc => by rw [List.mem_singleton.1 hc]; exact stem_plain hn⟩
  | cat f =>
    by_cases h : f.cm.nCats ≤ 2
    · refine ⟨_, by simp only [columnsOf]; rw [encodeToNum_le hf h]; rfl, by simp, fun c hc => ?_⟩
      rw [List.mem_singleton.1 hc]
      exact stem_plain hn
    · refine ⟨_, by simp only [columnsOf]; rw [encodeToNum_gt hf (by omega)]; rfl, ?_, fun c hc => ?_⟩
      · rw [List.map_map, List.map_map]
        have : ((Feature.name ∘ Feature.num) ∘ fun e : String × Nat =>
            (⟨f.catData.map fun v => if e.2 = v then .fin 1 else .fin 0, f.missing, f.name ++ "==" ++ e.1,
              f.hasMissing⟩ : NumFeature K)) = (fun s => f.name ++ "==" ++ s) ∘ Prod.fst := rfl
        rw [this, ← List.map_map, List.zipIdx_map_fst]
        refine List.Nodup.map (fun a b e => ?_) (CatMap.WF.nodup (CatFeature.Consistent.map hf))
        have e : f.name ++ "==" ++ a = f.name ++ "==" ++ b := e
        rw [← String.toList_inj, String.toList_append (s := f.name ++ "==") (t := a), String.toList_append (s := f.name ++ "==") (t := b)] at e
        exact String.toList_inj.1 (List.append_cancel_left e)
      · obtain ⟨g, hg, rfl⟩ := List.mem_map.1 hc
        obtain ⟨e, -, rfl⟩ := List.mem_map.1 hg
        exact stem_column hn

theorem encodedColumns_names (fs : List (Feature K)) (hf : ∀ f ∈ fs, f.Consistent)
    (hn : ∀ f ∈ fs, '=' ∉ f.name.toList) (hd : (fs.map Feature.name).Nodup) :
    ∃ cols, encodedColumns (fun f => (f.encodeToNum (K := K)).map (·.map .num)) fs = some cols ∧
      (cols.map Feature.name).Nodup ∧ ∀ c ∈ cols, ∃ f ∈ fs, stem c.name = f.name.toList := by
  induction fs with
  | nil => exact ⟨[], rfl, by simp, by simp⟩
  | cons f fs ih =>
    obtain ⟨cs, h1, h2, h3⟩ := ih (fun g hg => hf g (by simp [hg])) (fun g hg => hn g (by simp [hg]))
      (List.nodup_cons.1 hd).2
    obtain ⟨c, h4, h5, h6⟩ := columns_names (hf f (by simp)) (hn f (by simp))
    refine ⟨c ++ cs, ?_, ?_, ?_⟩
    · unfold encodedColumns at h1 ⊢
      rw [List.mapM_cons, h4]
      rw [Option.map_eq_some_iff] at h1
      obtain ⟨L, h1, rfl⟩ := h1
      rw [h1]
      rfl
    · rw [List.map_append, List.nodup_append]
      refine ⟨h5, h2, ?_⟩
      intro a ha b hb e
      obtain ⟨x, hx, rfl⟩ := List.mem_map.1 ha
      obtain ⟨y, hy, rfl⟩ := List.mem_map.1 hb
      obtain ⟨g, hg, hgy⟩ := h3 y hy
      have : f.name.toList = g.name.toList := by rw [← h6 x hx, ← hgy, e]
      rw [String.toList_inj] at this
      rw [List.map_cons, List.nodup_cons] at hd
      exact hd.1 (this ▸ List.mem_map_of_mem hg)
    · intro x hx
      rcases List.mem_append.1 hx with hx | hx
      · exact ⟨f, by simp, h6 x hx⟩
      · obtain ⟨g, hg, h⟩ := h3 x hx
        exact ⟨g, by simp [hg], h⟩

end CloudForest
