import Verif.Lemmas.Csv
import Verif.Spec.Matrix
import Verif.Lemmas.Values
import Verif.Lemmas.Text
import Verif.Lemmas.CatSearch

/-!
# Matrices: lemmas
-/

set_option linter.unusedSectionVars false

namespace CloudForest
variable {K : Type} [Field K] [LinearOrder K] [IsStrictOrderedRing K]

/-! ## Encoding -/

theorem fillColumn_eq {α : Type} {l : Nat} (zero : α) (g : Nat → α) {catData : List Nat} (h : catData.length = l) :
    fillColumn l zero g catData = some (catData.map g) := by
  unfold fillColumn
  rw [if_pos h.le, h]
  simp

theorem encodeToNum_le {f : CatFeature} (hf : f.Consistent) (h : f.cm.nCats ≤ 2) :
    f.encodeToNum (K := K) = some [⟨f.catData.map fun v => XF.ofNat v, f.missing, f.name, f.hasMissing⟩] := by
  unfold CatFeature.encodeToNum
  rw [if_pos h, fillColumn_eq _ _ hf.lengths]
  rfl

theorem encodeToNum_gt {f : CatFeature} (hf : f.Consistent) (h : 2 < f.cm.nCats) :
    f.encodeToNum (K := K) = some (f.cm.back.zipIdx.map fun e =>
      ⟨f.catData.map fun v => if e.2 = v then .fin 1 else .fin 0, f.missing, f.name ++ "==" ++ e.1,
        f.hasMissing⟩) := by
  unfold CatFeature.encodeToNum
  rw [if_neg (by omega)]
  refine mapM_some fun e _ => ?_
  obtain ⟨sv, j⟩ := e
  simp only [fillColumn_eq _ _ hf.lengths]
  rfl

theorem oneHot_gt {f : CatFeature} (hf : f.Consistent) (h : 2 < f.cm.nCats) :
    f.oneHot = some (f.cm.back.zipIdx.map fun e =>
      ⟨boolMap, f.catData.map fun v => if e.2 = v then 1 else 0, f.missing, f.name ++ "==" ++ e.1,
        f.randomSearch, f.hasMissing⟩) := by
  unfold CatFeature.oneHot
  rw [if_pos h]
  refine mapM_some fun e _ => ?_
  obtain ⟨sv, j⟩ := e
  simp only [fillColumn_eq _ _ hf.lengths]
  rfl

theorem encodeLoop_eq (enc : CatFeature → Option (List (Feature K))) (fs : List (Feature K)) (s : EncodeState K) :
    encodeLoop enc fs s = (encodedColumns enc fs).map fun cols => cols.foldl .add s := by
  induction fs generalizing s with
  | nil => rfl
  | cons f fs ih =>
    have hrest : encodedColumns enc (f :: fs) =
        (columnsOf enc f).bind fun c => (encodedColumns enc fs).map fun cs => c ++ cs := by
      unfold encodedColumns
      rw [List.mapM_cons]
      cases columnsOf enc f with
      | none => rfl
      | some c =>
        simp only [Option.bind_eq_bind, Option.bind_some, Option.pure_def]
        cases List.mapM (columnsOf enc) fs <;> simp
    rw [hrest]
    cases f with
    | num f =>
      rw [encodeLoop, ih]
      simp only [columnsOf, Option.bind_some, Option.map_map]
      congr 1
    | cat f =>
      rw [encodeLoop]
      simp only [columnsOf]
      cases enc f with
      | none => rfl
      | some cols =>
        simp only [Option.bind_eq_bind, Option.bind_some, Option.map_map]
        rw [ih]
        congr 1
        funext cs
        simp

/-- The state indexes its data by name, which are distinct. -/
structure EncodeState.Good (s : EncodeState K) : Prop where
  keys : s.keys = s.data.map Feature.name
  nodup : s.keys.Nodup
  map : ∀ (n : String) (i : Nat), s.map n = some i ↔ s.keys[i]? = some n

theorem EncodeState.Good.add {s : EncodeState K} (h : s.Good) {f : Feature K} (hf : f.name ∉ s.keys) :
    (s.add f).Good where
  keys := by
    simp only [EncodeState.add, if_neg hf, List.map_append, List.map_cons, List.map_nil]
    rw [h.keys]
  nodup := by
    simp only [EncodeState.add, if_neg hf]
    rw [List.nodup_append]
    refine ⟨h.nodup, by simp, ?_⟩
    intro a ha b hb
    rw [List.mem_singleton.1 hb]
    exact fun e => hf (e ▸ ha)
  map := by
    intro n i
    simp only [EncodeState.add, if_neg hf, getElem?_snoc]
    by_cases hn : n = f.name
    · subst hn
      rw [if_pos rfl]
      by_cases hi : i = s.keys.length
      · rw [if_pos hi]; simp [hi]
      · rw [if_neg hi]
        constructor
        · intro e; exact absurd (Option.some.inj e).symm hi
        · intro e; exact absurd (List.mem_of_getElem? e) hf
    · rw [if_neg hn, h.map]
      by_cases hi : i = s.keys.length
      · rw [if_pos hi, hi, List.getElem?_eq_none (le_refl _)]
        constructor
        · intro e; cases e
        · intro e; exact absurd (Option.some.inj e).symm hn
      · rw [if_neg hi]

theorem foldl_add_data (cols : List (Feature K)) (s : EncodeState K) :
    (cols.foldl .add s).data = s.data ++ cols := by
  induction cols generalizing s with
  | nil => simp
  | cons c cs ih => rw [List.foldl_cons, ih]; simp [EncodeState.add]

theorem foldl_add_good (cols : List (Feature K)) (s : EncodeState K) (h : s.Good)
    (hn : (s.keys ++ cols.map Feature.name).Nodup) : (cols.foldl .add s).Good := by
  induction cols generalizing s with
  | nil => exact h
  | cons c cs ih =>
    have hc : c.name ∉ s.keys := by
      rw [List.nodup_append] at hn
      intro hm
      exact hn.2.2 _ hm _ (by simp) rfl
    refine ih (s.add c) (h.add hc) ?_
    simp only [EncodeState.add, if_neg hc]
    simpa using hn

theorem Good.start : (⟨[], fun _ => none, []⟩ : EncodeState K).Good :=
  ⟨rfl, List.nodup_nil, fun n i => by simp⟩

/-! ## Indexing -/

theorem FeatureMatrix.Indexed.empty (labels : List String) :
    (⟨[], fun _ => none, labels⟩ : FeatureMatrix K).Indexed :=
  ⟨fun _ _ h => (by cases h), fun _ h => (by cases h)⟩

theorem FeatureMatrix.Indexed.push {fm : FeatureMatrix K} (h : fm.Indexed) (f : Feature K) : (fm.push f).Indexed where
  sound := by
    intro n i hi
    simp only [FeatureMatrix.push] at hi ⊢
    rw [getElem?_snoc]
    by_cases hn : n = f.name
    · rw [if_pos hn] at hi
      rw [if_pos (Option.some.inj hi).symm]
      exact ⟨f, rfl, hn.symm⟩
    · rw [if_neg hn] at hi
      obtain ⟨g, hg, hgn⟩ := h.sound n i hi
      rw [if_neg]
      · exact ⟨g, hg, hgn⟩
      · intro e
        rw [e, List.getElem?_eq_none (le_refl _)] at hg
        cases hg
  complete := by
    intro g hg
    simp only [FeatureMatrix.push] at hg ⊢
    by_cases hn : g.name = f.name
    · exact ⟨_, if_pos hn⟩
    · rw [if_neg hn]
      rcases List.mem_append.1 hg with hg | hg
      · exact h.complete g hg
      · rw [List.mem_singleton.1 hg] at hn
        exact absurd rfl hn

theorem FeatureMatrix.Indexed.pushAll {fm : FeatureMatrix K} (h : fm.Indexed) (fs : List (Feature K)) :
    (fs.foldl .push fm).Indexed := by
  induction fs generalizing fm with
  | nil => exact h
  | cons f fs ih => exact ih (h.push f)

theorem pushAll_data (fs : List (Feature K)) (fm : FeatureMatrix K) :
    (fs.foldl .push fm).data = fm.data ++ fs := by
  induction fs generalizing fm with
  | nil => simp
  | cons f fs ih => rw [List.foldl_cons, ih]; simp [FeatureMatrix.push]

theorem pushAll_labels (fs : List (Feature K)) (fm : FeatureMatrix K) :
    (fs.foldl .push fm).caseLabels = fm.caseLabels := by
  induction fs generalizing fm with
  | nil => rfl
  | cons f fs ih => rw [List.foldl_cons, ih]; rfl

/-- With distinct names the map is onto the indices. -/
theorem FeatureMatrix.Indexed.exact {fm : FeatureMatrix K} (h : fm.Indexed)
    (hn : (fm.data.map Feature.name).Nodup) {i : Nat} {f : Feature K} (hi : fm.data[i]? = some f) :
    fm.map f.name = some i := by
  obtain ⟨j, hj⟩ := h.complete f (List.mem_of_getElem? hi)
  obtain ⟨g, hg, hgn⟩ := h.sound _ j hj
  have h1 : (fm.data.map Feature.name)[i]? = some f.name := by rw [List.getElem?_map, hi]; rfl
  have h2 : (fm.data.map Feature.name)[j]? = some f.name := by rw [List.getElem?_map, hg]; simp [hgn]
  have hlt : i < (fm.data.map Feature.name).length := by
    by_contra hc
    rw [List.getElem?_eq_none (by omega)] at h1
    cases h1
  have := (List.nodup_iff_injective_getElem.1 hn)
  have hlt2 : j < (fm.data.map Feature.name).length := by
    by_contra hc
    rw [List.getElem?_eq_none (by omega)] at h2
    cases h2
  rw [List.getElem?_eq_getElem hlt] at h1
  rw [List.getElem?_eq_getElem hlt2] at h2
  have e := @this ⟨i, hlt⟩ ⟨j, hlt2⟩ (by simpa using (Option.some.inj h1).trans (Option.some.inj h2).symm)
  have : i = j := by simpa using e
  rw [hj, this]

theorem append_name (nt : NumText K) (f : Feature K) (v : String) : (f.append nt v).name = f.name := by
  cases f with
  | cat f =>
    simp only [Feature.append, Feature.name, CatFeature.append]
    split <;> rfl
  | num f =>
    simp only [Feature.append, Feature.name, NumFeature.append]
    split <;> rfl

theorem appendRecord_names (nt : NumText K) (fs : List (Feature K)) (vs : List String) (fs' : List (Feature K))
    (h : appendRecord nt fs vs = some fs') : fs'.map Feature.name = fs.map Feature.name := by
  induction fs generalizing vs fs' with
  | nil =>
    cases vs with
    | nil => cases h; rfl
    | cons v vs => cases h
  | cons f fs ih =>
    cases vs with
    | nil => cases h; rfl
    | cons v vs =>
      rw [appendRecord, Option.map_eq_some_iff] at h
      obtain ⟨r, hr, rfl⟩ := h
      simp only [List.map_cons, append_name, ih vs r hr]

theorem loadCases_map (nt : NumText K) (rl : Bool) (rs : List (List String)) (fm : FeatureMatrix K) (n : Nat)
    (fm' : FeatureMatrix K) (h : loadCases nt rl rs fm n = some fm') :
    fm'.map = fm.map ∧ fm'.data.map Feature.name = fm.data.map Feature.name := by
  induction rs generalizing fm n with
  | nil => cases h; exact ⟨rfl, rfl⟩
  | cons r rs ih =>
    cases rl with
    | true =>
      cases r with
      | nil => cases h
      | cons l vs =>
        rw [loadCases] at h
        cases ha : appendRecord nt fm.data vs with
        | none => rw [ha] at h; cases h
        | some d =>
          rw [ha] at h
          obtain ⟨h1, h2⟩ := ih _ _ h
          exact ⟨h1, h2.trans (appendRecord_names nt _ _ _ ha)⟩
    | false =>
      have h : (do
        let data ← appendRecord nt fm.data r
        loadCases nt false rs { fm with data := data, caseLabels := fm.caseLabels ++ [natStr n] } (n + 1)) =
          some fm' := by
        cases r <;> exact h
      cases ha : appendRecord nt fm.data r with
      | none => rw [ha] at h; cases h
      | some d =>
        rw [ha] at h
        obtain ⟨h1, h2⟩ := ih _ _ h
        exact ⟨h1, h2.trans (appendRecord_names nt _ _ _ ha)⟩

theorem FeatureMatrix.Indexed.congr {fm fm' : FeatureMatrix K} (h : fm.Indexed) (hm : fm'.map = fm.map)
    (hd : fm'.data.map Feature.name = fm.data.map Feature.name) : fm'.Indexed where
  sound := by
    intro n i hi
    rw [hm] at hi
    obtain ⟨f, hf, hn⟩ := h.sound n i hi
    have : (fm'.data.map Feature.name)[i]? = some n := by rw [hd, List.getElem?_map, hf]; simp [hn]
    rw [List.getElem?_map, Option.map_eq_some_iff] at this
    exact this
  complete := by
    intro f hf
    have : f.name ∈ fm.data.map Feature.name := by rw [← hd]; exact List.mem_map_of_mem hf
    obtain ⟨g, hg, hgn⟩ := List.mem_map.1 this
    rw [hm, ← hgn]
    exact h.complete g hg

theorem lastIndex_some (s : String) (data : List (Feature K)) (k : Nat) (m0 : Option Nat) (i : Nat)
    (h : (data.zipIdx k).foldl (fun m e => if s = e.1.name then some e.2 else m) m0 = some i) :
    m0 = some i ∨ ∃ j f, i = k + j ∧ data[j]? = some f ∧ f.name = s := by
  induction data generalizing k m0 with
  | nil => exact .inl h
  | cons f fs ih =>
    rw [List.zipIdx_cons, List.foldl_cons] at h
    rcases ih _ _ h with h1 | ⟨j, g, h1, h2, h3⟩
    · by_cases hs : s = f.name
      · rw [if_pos hs] at h1
        exact .inr ⟨0, f, by have := Option.some.inj h1; omega, rfl, hs.symm⟩
      · rw [if_neg hs] at h1
        exact .inl h1
    · exact .inr ⟨j + 1, g, by omega, by simpa using h2, h3⟩

theorem lastIndex_mem (s : String) (data : List (Feature K)) (k : Nat) (m0 : Option Nat)
    (h : m0.isSome = true ∨ ∃ f ∈ data, f.name = s) :
    ((data.zipIdx k).foldl (fun m e => if s = e.1.name then some e.2 else m) m0).isSome = true := by
  induction data generalizing k m0 with
  | nil =>
    rcases h with h | ⟨f, hf, -⟩
    · exact h
    · cases hf
  | cons f fs ih =>
    rw [List.zipIdx_cons, List.foldl_cons]
    apply ih
    by_cases hs : s = f.name
    · left; rw [if_pos hs]; rfl
    · rw [if_neg hs]
      rcases h with h | ⟨g, hg, hgn⟩
      · exact .inl h
      · rcases List.mem_cons.1 hg with rfl | hg
        · exact absurd hgn.symm hs
        · exact .inr ⟨g, hg, hgn⟩

/-! ## Appended values -/

theorem cat_appends (vals : List String) (f : CatFeature) :
    (vals.foldl (fun f v => f.append v) f).missing = f.missing ++ vals.map isMissingToken ∧
      (vals.foldl (fun f v => f.append v) f).name = f.name := by
  induction vals generalizing f with
  | nil => simp
  | cons v vs ih =>
    rw [List.foldl_cons, (ih _).1, (ih _).2]
    have : (f.append v).missing = f.missing ++ [isMissingToken v] ∧ (f.append v).name = f.name := by
      unfold CatFeature.append
      by_cases h : isMissingToken v = true
      · rw [if_pos h, h]; exact ⟨rfl, rfl⟩
      · rw [if_neg h]
        have : isMissingToken v = false := by simpa using h
        rw [this]; exact ⟨rfl, rfl⟩
    rw [this.1, this.2]
    simp

theorem cat_appends_reads (vals : List String) (f : CatFeature) (col : List String) (hf : f.Consistent)
    (h : f.Reads col) :
    (vals.foldl (fun f v => f.append v) f).Consistent ∧
      (vals.foldl (fun f v => f.append v) f).Reads (col ++ vals.map catCell) := by
  induction vals generalizing f col with
  | nil => simpa using ⟨hf, h⟩
  | cons v vs ih =>
    rw [List.foldl_cons]
    have := ih (f.append v) _ (hf.append v) (h.append hf v)
    simpa using this

theorem num_appends (nt : NumText K) (vals : List String) (f : NumFeature K) :
    (vals.foldl (fun f v => f.append nt v) f).missing =
        f.missing ++ vals.map (fun v => (nt.parse v.toList).isNone) ∧
      (vals.foldl (fun f v => f.append nt v) f).numData =
        f.numData ++ vals.map (fun v => (nt.parse v.toList).getD (.fin 0)) ∧
      (vals.foldl (fun f v => f.append nt v) f).name = f.name := by
  induction vals generalizing f with
  | nil => simp
  | cons v vs ih =>
    rw [List.foldl_cons, (ih _).1, (ih _).2.1, (ih _).2.2]
    unfold NumFeature.append
    cases h : nt.parse v.toList <;> simp [h]

/-! ## Fields and lines -/

theorem mem_joinC {sep c : Char} {ps : List Text} (h : c ∈ joinC sep ps) : c = sep ∨ ∃ p ∈ ps, c ∈ p := by
  induction ps with
  | nil => cases h
  | cons p ps ih =>
    cases ps with
    | nil => exact .inr ⟨p, by simp, h⟩
    | cons q ps =>
      rw [joinC_cons_cons] at h
      rcases List.mem_append.1 h with h | h
      · exact .inr ⟨p, by simp, h⟩
      · rcases List.mem_cons.1 h with h | h
        · exact .inl h
        · rcases ih h with h | ⟨x, hx, hc⟩
          · exact .inl h
          · exact .inr ⟨x, by simp [hx], hc⟩

theorem splitC_lines (ls : List Text) (h : ∀ l ∈ ls, '\n' ∉ l) :
    splitC '\n' (ls.map (· ++ ['\n'])).flatten = ls ++ [[]] := by
  induction ls with
  | nil => rfl
  | cons l ls ih =>
    rw [List.map_cons, List.flatten_cons, List.append_assoc, List.singleton_append, splitC_append_cons,
      splitC_none (h l (by simp)), ih fun x hx => h x (by simp [hx])]
    rfl

theorem takeWhile_all {α : Type} (p : α → Bool) (l : List α) (h : ∀ x ∈ l, p x = true) : l.takeWhile p = l := by
  induction l with
  | nil => rfl
  | cons x xs ih =>
    rw [List.takeWhile_cons, h x (by simp), if_pos rfl, ih fun y hy => h y (by simp [hy])]

/-- Records of tabless fields of the same number survive, if none is a single empty field. -/
theorem csvRecords_lines (rows : List (List Text)) (n : Nat) (hn : 0 < n) (hlen : ∀ r ∈ rows, r.length = n)
    (ht : ∀ r ∈ rows, ∀ v ∈ r, Tabless v) (hne : ∀ r ∈ rows, joinC '\t' r ≠ []) :
    csvRecords '\t' (rows.map fun r => joinC '\t' r ++ ['\n']).flatten = rows := by
  have h := csv_written (comma := '\t') (comment := none) (by decide) (by decide) (by decide) id id rows hn hlen
    (fun r hr f hf => .inl ⟨rfl, ⟨(ht r hr f hf).1, (ht r hr f hf).2.1, (ht r hr f hf).2.2.1⟩, (ht r hr f hf).2.2.2⟩)
    (fun r hr f hf => crIn_of_not_mem (ht r hr f hf).2.2.2)
    (fun h1 r hr f hf e => by
      have hl := hlen r hr
      rw [h1] at hl
      obtain ⟨g, rfl⟩ := List.length_eq_one_iff.1 hl
      have : f = g := by simpa using hf
      subst this
      exact hne [f] hr e)
    (fun r hr f hf c hc => by cases hc)
  simpa [csvRecords] using h

end CloudForest
