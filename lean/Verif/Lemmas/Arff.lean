import Verif.Lemmas.Libsvm

/-!
# Lemmas on ARFF files
-/

set_option linter.unusedSectionVars false

namespace CloudForest
variable {K : Type} [Field K] [LinearOrder K] [IsStrictOrderedRing K]

/-! ## The header -/

theorem take_map_prefix (p : Text) (l : Text) : (p ++ l).take p.length = p := by simp

theorem hasPrefixFold_eq (p q l : Text) (h : q.map lowerC = p) : hasPrefixFold p (q ++ l) = true := by
  unfold hasPrefixFold
  rw [List.map_append, h, take_map_prefix]
  simp

theorem fieldsC_attribute (name : Text) (hn : name ≠ []) (hs : ∀ c ∈ name, isSpaceC c = false) (type : Text)
    (ty : Text) (rest : List Text) (ht : fieldsC type = ty :: rest) :
    fieldsC ("@ATTRIBUTE ".toList ++ name ++ ' ' :: type) = "@ATTRIBUTE".toList :: name :: ty :: rest := by
  have e : "@ATTRIBUTE ".toList ++ name ++ ' ' :: type = "@ATTRIBUTE".toList ++ ' ' :: (name ++ ' ' :: type) := by
    have : "@ATTRIBUTE ".toList = "@ATTRIBUTE".toList ++ [' '] := by decide
    rw [this]; simp
  unfold fieldsC at ht ⊢
  rw [e, splitP_append_cons (by decide) (by decide), splitP_append_cons hs (by decide),
    List.filter_cons_of_pos (by decide), List.filter_cons_of_pos (by simpa using hn), ht]

/-- The first field of a text that begins with `{` does so too. -/
theorem fieldsC_brace (s : Text) : ∃ ty rest, fieldsC ('{' :: s) = ('{' :: ty) :: rest := by
  unfold fieldsC
  rw [splitP, if_neg (by decide)]
  cases h : splitP isSpaceC s with
  | nil => exact ⟨[], [], by simp⟩
  | cons q qs => exact ⟨q, qs.filter (· ≠ []), by simp⟩

theorem lower_brace (ty : Text) : ¬ (('{' :: ty).map lowerC = "numeric".toList ∨ ('{' :: ty).map lowerC = "real".toList) := by
  have h1 : "numeric".toList = ['n', 'u', 'm', 'e', 'r', 'i', 'c'] := by decide
  have h2 : "real".toList = ['r', 'e', 'a', 'l'] := by decide
  have h3 : lowerC '{' = '{' := by decide
  rw [h1, h2, List.map_cons, h3]
  rintro (h | h)
  · injection h with h _; exact absurd h (by decide)
  · injection h with h _; exact absurd h (by decide)

/-- The feature with a name and kind, without cases. -/
def Feature.blank : Feature K → Feature K
  | .num f => .num (.new f.name)
  | .cat f => .cat (.new f.name)

theorem attributeFeature_written (f : Feature K) (hn : f.name.toList ≠ []) (hs : ∀ c ∈ f.name.toList, isSpaceC c = false) :
    attributeFeature ("@ATTRIBUTE ".toList ++ f.name.toList ++ ' ' :: arffType f) = some f.blank := by
  cases f with
  | num f =>
    unfold attributeFeature
    rw [fieldsC_attribute _ hn hs (arffType (.num f)) "NUMERIC".toList [] (by show fieldsC "NUMERIC".toList = _; decide)]
    simp only
    rw [if_pos (.inl (by decide))]
    simp only [Feature.name, String.ofList_toList]
    rfl
  | cat f =>
    obtain ⟨ty, rest, h⟩ := fieldsC_brace (joinC ',' (f.cm.back.map String.toList) ++ ['}'])
    unfold attributeFeature
    rw [fieldsC_attribute _ hn hs (arffType (.cat f)) ('{' :: ty) rest h]
    simp only
    rw [if_neg (lower_brace ty)]
    simp only [Feature.name, String.ofList_toList]
    rfl

theorem arffHeader_attributes (fs : List (Feature K))
    (h : ∀ f ∈ fs, f.name.toList ≠ [] ∧ ∀ c ∈ f.name.toList, isSpaceC c = false) (rest : List Text)
    (fm : FeatureMatrix K) :
    arffHeader (fs.map (fun f => "@ATTRIBUTE ".toList ++ f.name.toList ++ ' ' :: arffType f) ++ rest) fm =
      arffHeader rest ((fs.map Feature.blank).foldl .push fm) := by
  induction fs generalizing fm with
  | nil => rfl
  | cons f fs ih =>
    rw [List.map_cons, List.cons_append, arffHeader]
    have h1 : hasPrefixFold "@data".toList ("@ATTRIBUTE ".toList ++ f.name.toList ++ ' ' :: arffType f) = false := by
      unfold hasPrefixFold
      have e : "@ATTRIBUTE ".toList = ['@', 'A', 'T', 'T', 'R'] ++ "IBUTE ".toList := by decide
      rw [e, List.append_assoc, List.append_assoc, List.map_append]
      have : "@data".toList.length = (List.map lowerC ['@', 'A', 'T', 'T', 'R']).length := by decide
      rw [this, take_map_prefix]
      decide
    have h2 : hasPrefixFold "@attribute".toList ("@ATTRIBUTE ".toList ++ f.name.toList ++ ' ' :: arffType f) = true := by
      have e : "@ATTRIBUTE ".toList = "@ATTRIBUTE".toList ++ [' '] := by decide
      rw [e, List.append_assoc, List.append_assoc]
      exact hasPrefixFold_eq _ _ _ (by decide)
    rw [if_neg (by rw [h1]; simp), if_pos h2, attributeFeature_written f (h f (by simp)).1 (h f (by simp)).2]
    simp only
    exact ih (fun x hx => h x (by simp [hx])) _

/-! ## The data section -/

theorem joinC_unlines (ls : List Text) : joinC '\n' (ls ++ [[]]) = unlines ls := by
  induction ls with
  | nil => rfl
  | cons l ls ih =>
    cases ls with
    | nil => simp [joinC, unlines]
    | cons m ls =>
      rw [List.cons_append, List.cons_append, joinC, ← List.cons_append, ih]
      simp [unlines]

theorem csvField_no_line {comma : Char} {f : Text} (h : '\n' ∉ f) : '\n' ∉ csvField comma f := by
  unfold csvField
  split
  · intro hm
    simp only [List.cons_append, List.mem_cons, List.mem_append, List.mem_flatMap, List.not_mem_nil, or_false] at hm
    rcases hm with hm | ⟨c, hc, hm⟩ | hm
    · exact absurd hm (by decide)
    · split at hm
      · revert hm; decide
      · have : '\n' = c := by simpa using hm
        exact h (this ▸ hc)
    · exact absurd hm (by decide)
  · exact h

/-- What the writer writes is read again, if no first field begins with the comment character. -/
theorem csvRecordsComment_rows (rows : List (List Text)) (n : Nat) (hn : 0 < n) (hlen : ∀ r ∈ rows, r.length = n)
    (ht : ∀ r ∈ rows, ∀ v ∈ r, '\n' ∉ v) (hne : ∀ r ∈ rows, ∀ v ∈ r, v ≠ [])
    (hc : ∀ r ∈ rows, ∀ v, r.head? = some v → v.head? ≠ some '%') :
    csvRecordsComment ',' '%' (csvText ',' rows) = rows := by
  have hid : rows.map (·.map id) = rows := by simp
  conv_rhs => rw [← hid]
  refine csv_written (by decide) (by decide) (by decide) (csvField ',') id rows hn hlen
    (fun r _ f _ => csvField_writesAs ',' f) (fun r hr f hf => crIn_of_no_line (ht r hr f hf))
    (fun _ r hr f hf => csvField_ne_nil (hne r hr f hf)) ?_
  intro r hr f hf c hcc
  have hcc : '%' = c := by simpa using hcc
  subst hcc
  refine ⟨by decide, ?_⟩
  have := hc r hr f hf
  unfold csvField
  split
  · simp
  · exact this

/-! ## Loading -/

theorem appendRecord_eq (nt : NumText K) (fs : List (Feature K)) (vs : List String) (h : vs.length = fs.length) :
    appendRecord nt fs vs = some (List.zipWith (fun f v => f.append nt v) fs vs) := by
  induction fs generalizing vs with
  | nil =>
    have : vs = [] := List.length_eq_zero_iff.1 (by simpa using h)
    subst this
    rfl
  | cons f fs ih =>
    cases vs with
    | nil => simp at h
    | cons v vs =>
      rw [appendRecord, ih vs (by simpa using h)]
      rfl

theorem loadCases_rows (nt : NumText K) (rows : List (List String)) (fm : FeatureMatrix K) (n : Nat)
    (h : ∀ r ∈ rows, r.length = fm.data.length) :
    ∃ fm', loadCases nt false rows fm n = some fm' ∧ fm'.data.length = fm.data.length ∧
      fm'.caseLabels = fm.caseLabels ++ (List.range' n rows.length).map natStr ∧
      ∀ (k : Nat) (f : Feature K), fm.data[k]? = some f →
        fm'.data[k]? = some ((rows.map fun r => (r[k]?).getD "").foldl (fun f v => f.append nt v) f) := by
  induction rows generalizing fm n with
  | nil => exact ⟨fm, rfl, rfl, by simp, fun k f hk => by simpa using hk⟩
  | cons r rows ih =>
    have hr := h r (by simp)
    obtain ⟨fm1, h1, h2, h3, h4⟩ := ih
      { fm with
        data := List.zipWith (fun f v => f.append nt v) fm.data r
        caseLabels := fm.caseLabels ++ [natStr n] } (n + 1) (by
      intro q hq
      simp only [List.length_zipWith]
      rw [hr, Nat.min_self]
      exact h q (by simp [hq]))
    refine ⟨fm1, ?_, ?_, ?_, ?_⟩
    · rw [loadCases]
      simp only [appendRecord_eq nt fm.data r hr, Option.bind_eq_bind, Option.bind_some]
      exact h1
    · rw [h2, List.length_zipWith, hr, Nat.min_self]
    · rw [h3, List.length_cons, List.range'_succ]
      simp
    · intro k f hk
      have hlt : k < r.length := by
        rw [hr]
        exact (List.getElem?_eq_some_iff.1 hk).1
      have := h4 k (f.append nt r[k]) (by
        simp only [List.getElem?_zipWith, hk, List.getElem?_eq_getElem hlt])
      rw [this, List.map_cons, List.foldl_cons, List.getElem?_eq_getElem hlt]
      rfl

/-! ## What is appended -/

/-- The string stands for the case: unparsable and a token if it is missing, its value otherwise. -/
def Stands (nt : NumText K) (f : Feature K) (c : Nat) (v : String) : Prop :=
  match f with
  | .cat f => f.missing[c]? = some (isMissingToken v) ∧ (f.missing[c]? = some false → f.getStr c = some v)
  | .num f => f.missing[c]? = some (nt.parse v.toList).isNone ∧
      (f.missing[c]? = some false → f.numData[c]? = some ((nt.parse v.toList).getD (.fin 0)))

theorem Feature.foldl_cat (nt : NumText K) (vs : List String) (f : CatFeature) :
    vs.foldl (fun (f : Feature K) v => f.append nt v) (.cat f) = .cat (vs.foldl (fun f v => f.append v) f) := by
  induction vs generalizing f with
  | nil => rfl
  | cons v vs ih => exact ih _

theorem Feature.foldl_num (nt : NumText K) (vs : List String) (f : NumFeature K) :
    vs.foldl (fun (f : Feature K) v => f.append nt v) (.num f) = .num (vs.foldl (fun f v => f.append nt v) f) := by
  induction vs generalizing f with
  | nil => rfl
  | cons v vs ih => exact ih _

theorem appends_sameOn (nt : NumText K) (f : Feature K) (cases : List Nat) (cell : Nat → String)
    (h : ∀ c ∈ cases, Stands nt f c (cell c)) :
    f.SameOn cases ((cases.map cell).foldl (fun f v => f.append nt v) f.blank) := by
  cases f with
  | cat f =>
    rw [Feature.blank, Feature.foldl_cat]
    obtain ⟨h1, h2⟩ := cat_appends (cases.map cell) (CatFeature.new f.name)
    obtain ⟨-, h3⟩ := cat_appends_reads (cases.map cell) (CatFeature.new f.name) []
      (consistent_new _) ⟨rfl, fun i => by simp [CatFeature.new, CatFeature.getStr]⟩
    refine ⟨h2, by rw [h1]; simp [CatFeature.new], ?_⟩
    intro j c hj
    obtain ⟨hv1, hv2⟩ := h c (List.mem_of_getElem? hj)
    refine ⟨?_, fun hk => ?_⟩
    · rw [h1, hv1]
      simp [CatFeature.new, hj]
    · rw [h3.2 j, hv2 hk]
      rw [hk] at hv1
      simp only [List.nil_append, List.getElem?_map, hj, Option.map_some]
      rw [catCell, if_neg (by rw [← Option.some.inj hv1]; simp)]
  | num f =>
    rw [Feature.blank, Feature.foldl_num]
    obtain ⟨h1, h2, h3⟩ := num_appends nt (cases.map cell) (NumFeature.new f.name)
    refine ⟨h3, by rw [h1]; simp [NumFeature.new], ?_⟩
    intro j c hj
    obtain ⟨hv3, hv4⟩ := h c (List.mem_of_getElem? hj)
    refine ⟨?_, fun hk => ?_⟩
    · rw [h1, hv3]
      simp [NumFeature.new, hj]
    · rw [h2, hv4 hk]
      simp [NumFeature.new, hj]

/-! ## The cells -/

theorem arffCell_ok {nt : NumText K} (q : nt.parse ['?'] = none) {f : Feature K} {c : Nat} (h : f.ArffCase nt c)
    (hb : ∀ g : CatFeature, f = .cat g → ∀ s ∈ g.cm.back, '\n' ∉ s.toList) :
    ∃ v, arffCell nt f c = some v ∧ '\n' ∉ v ∧ v ≠ [] ∧ Stands nt f c (String.ofList v) ∧
      (v = ['?'] ∨ f.getStr nt c = some (String.ofList v)) := by
  cases f with
  | cat f =>
    rcases h with h | ⟨h, k, s, h1, h2, h4⟩
    · refine ⟨['?'], by simp [arffCell, h], by decide, by simp, ⟨?_, ?_⟩, .inl rfl⟩
      · rw [h]; decide +kernel
      · intro e; rw [h] at e; cases e
    · have hg : f.getStr c = some s := by rw [CatFeature.getStr_known h, h1]; exact h2
      have hne : s.toList ≠ [] := by
        intro e
        unfold isMissingToken at h4
        rw [e] at h4
        simp at h4
      refine ⟨s.toList, by simp [arffCell, h, Feature.getStr, hg], hb f rfl s (List.mem_of_getElem? h2), hne, ⟨?_, ?_⟩, .inr ?_⟩
      · rw [String.ofList_toList, h, h4]
      · intro; rw [String.ofList_toList, hg]
      · rw [String.ofList_toList]; exact hg
  | num f =>
    rcases h with h | ⟨h, x, h1, h2, h3, h4⟩
    · refine ⟨['?'], by simp [arffCell, h], by decide, by simp, ⟨?_, ?_⟩, .inl rfl⟩
      · rw [h, String.toList_ofList, q]; rfl
      · intro e; rw [h] at e; cases e
    · have hg : f.getStr nt c = some (String.ofList (nt.fmt x)) := by unfold NumFeature.getStr; rw [h, h1]; rfl
      refine ⟨nt.fmt x, by simp [arffCell, h, Feature.getStr, hg], h2, h3, ⟨?_, ?_⟩, .inr hg⟩
      · rw [String.toList_ofList, h4, h]; rfl
      · intro; rw [String.toList_ofList, h4, h1]; rfl

end CloudForest
