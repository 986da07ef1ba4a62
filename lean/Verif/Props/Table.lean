import Verif.Spec.Table
import Verif.Lemmas.Arff
import Verif.Props.Matrix

/-!
# C117: reading tables
-/

set_option linter.unusedSectionVars false

namespace CloudForest
variable {K : Type} [Field K] [LinearOrder K] [IsStrictOrderedRing K]

/-- The feature of a name without cases. -/
def emptyOf (name : String) : Feature K :=
  if name.toList.take 2 = ['N', ':'] then .num (.new name) else .cat (.new name)

theorem emptyOf_name (name : String) : (emptyOf name : Feature K).name = name := by
  unfold emptyOf
  split <;> rfl

theorem appends_name (nt : NumText K) (vals : List String) (f : Feature K) :
    (vals.foldl (fun f v => f.append nt v) f).name = f.name := by
  induction vals generalizing f with
  | nil => rfl
  | cons v vs ih => rw [List.foldl_cons, ih, append_name]

theorem typed_size {name : Text} (h : Typed name) : ¬ (String.ofList name).utf8ByteSize < 2 := by
  obtain ⟨a, b, c, e, hl⟩ : ∃ a b c, name = a :: b :: c ∧ True := by
    cases name with
    | nil => simp [Typed] at h
    | cons a s =>
      cases s with
      | nil => simp [Typed] at h
      | cons b c => exact ⟨a, b, c, rfl, trivial⟩
  subst e
  have : String.ofList (a :: b :: c) = String.ofList [a] ++ (String.ofList [b] ++ String.ofList c) := by
    rw [← String.ofList_append, ← String.ofList_append]; rfl
  rw [this, String.utf8ByteSize_append, String.utf8ByteSize_append]
  have h1 : ∀ x : Char, 1 ≤ (String.ofList [x]).utf8ByteSize := by
    intro x
    have : String.ofList [x] = String.singleton x := rfl
    rw [this, String.utf8ByteSize_singleton]
    exact Char.utf8Size_pos x
  have := h1 a
  have := h1 b
  omega

theorem parseFeature_typed (nt : NumText K) {name : Text} (h : Typed name) (vals : List String) :
    parseFeature nt (String.ofList name :: vals) =
      some (vals.foldl (fun f v => f.append nt v) (emptyOf (String.ofList name))) := by
  unfold parseFeature emptyOf
  simp only
  rw [if_neg (typed_size h)]
  unfold hasPrefix2
  by_cases hn : (String.ofList name).toList.take 2 = ['N', ':']
  · rw [if_pos (by simpa using hn), if_pos hn, Feature.foldl_num]
  · rw [if_neg (by simpa using hn), if_neg hn, Feature.foldl_cat]

theorem columnFeature_typed {name : Text} (h : Typed name) :
    columnFeature (String.ofList name) = some (emptyOf (String.ofList name) : Feature K) := by
  unfold columnFeature emptyOf
  rw [if_neg (typed_size h)]
  unfold hasPrefix2
  by_cases hn : (String.ofList name).toList.take 2 = ['N', ':']
  · rw [if_pos (by simpa using hn), if_pos hn]
  · rw [if_neg (by simpa using hn), if_neg hn]

theorem appends_holds (nt : NumText K) (name : Text) (vals : List Text) :
    ((vals.map String.ofList).foldl (fun f v => f.append nt v) (emptyOf (String.ofList name) : Feature K)).Holds
      nt name vals := by
  unfold emptyOf
  rw [String.toList_ofList]
  by_cases hn : name.take 2 = ['N', ':']
  · rw [if_pos hn, Feature.foldl_num]
    obtain ⟨h1, h2, h3⟩ := num_appends nt (vals.map String.ofList) (NumFeature.new (String.ofList name))
    refine ⟨hn, h3, by rw [h1]; simp [NumFeature.new], fun j v hj => ⟨fun hp => ?_, fun x hp => ⟨?_, ?_⟩⟩⟩
    · rw [h1]; simp [NumFeature.new, hj, hp]
    · rw [h1]; simp [NumFeature.new, hj, hp]
    · rw [h2]; simp [NumFeature.new, hj, hp]
  · rw [if_neg hn, Feature.foldl_cat]
    obtain ⟨h1, h2⟩ := cat_appends (vals.map String.ofList) (CatFeature.new (String.ofList name))
    obtain ⟨-, h3⟩ := cat_appends_reads (vals.map String.ofList) (CatFeature.new (String.ofList name)) []
      (consistent_new _) ⟨rfl, fun i => by simp [CatFeature.new, CatFeature.getStr]⟩
    refine ⟨hn, h2, by rw [h1]; simp [CatFeature.new], fun j v hj => ⟨?_, fun hm => ?_⟩⟩
    · rw [h1]; simp [CatFeature.new, hj]
    · rw [h3.2 j]
      simp [hj, catCell, hm]

/-- Loading labelled cases. -/
theorem loadCases_labelled (nt : NumText K) (rows : List (String × List String)) (fm : FeatureMatrix K) (n : Nat)
    (h : ∀ r ∈ rows, r.2.length = fm.data.length) :
    ∃ fm', loadCases nt true (rows.map fun r => r.1 :: r.2) fm n = some fm' ∧ fm'.data.length = fm.data.length ∧
      fm'.caseLabels = fm.caseLabels ++ rows.map Prod.fst ∧
      ∀ (k : Nat) (f : Feature K), fm.data[k]? = some f →
        fm'.data[k]? = some ((rows.map fun r => (r.2[k]?).getD "").foldl (fun f v => f.append nt v) f) := by
  induction rows generalizing fm n with
  | nil => exact ⟨fm, rfl, rfl, by simp, fun k f hk => by simpa using hk⟩
  | cons r rows ih =>
    have hr := h r (by simp)
    obtain ⟨fm1, h1, h2, h3, h4⟩ := ih
      { fm with
        data := List.zipWith (fun f v => f.append nt v) fm.data r.2
        caseLabels := fm.caseLabels ++ [r.1] } (n + 1) (by
      intro q hq
      simp only [List.length_zipWith]
      rw [hr, Nat.min_self]
      exact h q (by simp [hq]))
    refine ⟨fm1, ?_, ?_, ?_, ?_⟩
    · rw [List.map_cons, loadCases]
      simp only [appendRecord_eq nt fm.data r.2 hr, Option.bind_eq_bind, Option.bind_some]
      exact h1
    · rw [h2, List.length_zipWith, hr, Nat.min_self]
    · rw [h3]
      simp
    · intro k f hk
      have hlt : k < r.2.length := by
        rw [hr]
        exact (List.getElem?_eq_some_iff.1 hk).1
      have := h4 k (f.append nt r.2[k]) (by
        simp only [List.getElem?_zipWith, hk, List.getElem?_eq_getElem hlt])
      rw [this, List.map_cons, List.foldl_cons, List.getElem?_eq_getElem hlt]
      rfl

/-- The map depends on the names only. -/
theorem pushAll_map {fs gs : List (Feature K)} (h : fs.map Feature.name = gs.map Feature.name)
    {a b : FeatureMatrix K} (hm : a.map = b.map) (hl : a.data.length = b.data.length) :
    (fs.foldl .push a).map = (gs.foldl .push b).map := by
  induction fs generalizing gs a b with
  | nil =>
    have : gs = [] := by simpa using h.symm
    subst this
    exact hm
  | cons f fs ih =>
    cases gs with
    | nil => simp at h
    | cons g gs =>
      rw [List.map_cons, List.map_cons] at h
      injection h with h1 h2
      rw [List.foldl_cons, List.foldl_cons]
      refine ih h2 ?_ (by simp [FeatureMatrix.push, hl])
      simp only [FeatureMatrix.push, h1, hm, hl]

theorem FeatureMatrix.ext' {a b : FeatureMatrix K} (h1 : a.data = b.data) (h2 : a.map = b.map)
    (h3 : a.caseLabels = b.caseLabels) : a = b := by
  cases a; cases b; simp_all

theorem typed_iff {s : Text} : (hasPrefix2 ['N', ':'] (String.ofList s) || hasPrefix2 ['C', ':'] (String.ofList s) ||
    hasPrefix2 ['B', ':'] (String.ofList s)) = true ↔ Typed s := by
  unfold hasPrefix2 Typed
  rw [String.toList_ofList]
  simp [or_assoc]

/-- **C117**: a table is read as what it says, written with the features in rows or in columns, and with any of its
fields in quotes: there is one matrix that `ParseAFM` reads from all these texts, with the labels, features and
values of the table. -/
theorem c117_table (nt : NumText K) (t : Table) (corner : Text) (ht : t.Readable corner) :
    ∃ fm : FeatureMatrix K, (∀ text, WritesTable '\t' text (t.inRows corner) → parseAFM nt text = some fm) ∧
      (∀ text, WritesTable '\t' text (t.inColumns corner) → parseAFM nt text = some fm) ∧
      fm.caseLabels = t.labels.map String.ofList ∧ fm.Indexed ∧ fm.data.length = t.features.length ∧
      ∀ (i : Nat) (f : Text × List Text), t.features[i]? = some f → ∃ g, fm.data[i]? = some g ∧ g.Holds nt f.1 f.2 := by
  obtain ⟨feat, hfeat⟩ : ∃ feat : Text × List Text → Feature K, ∀ f, feat f =
    (f.2.map String.ofList).foldl (fun f v => f.append nt v) (emptyOf (String.ofList f.1)) := ⟨_, fun _ => rfl⟩
  obtain ⟨l0, ls, hl⟩ : ∃ l0 ls, t.labels = l0 :: ls := by
    cases h : t.labels with
    | nil => exact absurd h ht.cases
    | cons a as => exact ⟨a, as, rfl⟩
  obtain ⟨f0, fs, hf⟩ : ∃ f0 fs, t.features = f0 :: fs := by
    cases h : t.features with
    | nil => exact absurd h ht.nonempty
    | cons a as => exact ⟨a, as, rfl⟩
  refine ⟨(t.features.map feat).foldl .push ⟨[], fun _ => none, t.labels.map String.ofList⟩, ?_, ?_, ?_, ?_, ?_, ?_⟩
  · intro text htext
    have hrec : csvRecords '\t' text = t.inRows corner := by
      refine csvRecords_table (by decide) (by decide) (by decide) htext (n := t.labels.length + 1) (by rw [hl]; simp) ?_ ?_
      · intro r hr
        rcases List.mem_cons.1 hr with rfl | hr
        · simp
        · obtain ⟨f, hf', rfl⟩ := List.mem_map.1 hr
          simp [ht.square f hf']
      · intro r hr s hs
        apply ht.lines
        rcases List.mem_cons.1 hr with rfl | hr
        · rcases List.mem_cons.1 hs with rfl | hs
          · exact .inl rfl
          · exact .inr (.inl hs)
        · obtain ⟨f, hf', rfl⟩ := List.mem_map.1 hr
          rcases List.mem_cons.1 hs with rfl | hs
          · exact .inr (.inr ⟨f, hf', .inl rfl⟩)
          · exact .inr (.inr ⟨f, hf', .inr hs⟩)
    unfold parseAFM
    rw [hrec]
    unfold Table.inRows
    rw [hl]
    simp only [List.map_cons, List.tail_cons]
    have hfirst : ¬ Typed l0 := ht.first l0 (by rw [hl]; rfl)
    rw [if_neg (by rw [typed_iff]; exact hfirst)]
    have hm : ((t.features.map fun f => f.1 :: f.2).map (·.map String.ofList)).mapM (parseFeature nt) =
        some (t.features.map feat) := by
      rw [List.map_map]
      have : ∀ gs : List (Text × List Text), (∀ f ∈ gs, Typed f.1) →
          (gs.map ((List.map String.ofList) ∘ fun f : Text × List Text => f.1 :: f.2)).mapM (parseFeature nt) =
            some (gs.map feat) := by
        intro gs
        induction gs with
        | nil => intro _; rfl
        | cons g gs ih =>
          intro hg
          rw [List.map_cons, List.mapM_cons, ih fun f hf => hg f (by simp [hf])]
          simp only [Function.comp_apply, List.map_cons]
          rw [parseFeature_typed nt (hg g (by simp)), hfeat]
          rfl
      exact this _ ht.names
    rw [hm]
    rfl
  · intro text htext
    have hrec : csvRecords '\t' text = t.inColumns corner := by
      refine csvRecords_table (by decide) (by decide) (by decide) htext (n := t.features.length + 1) (by rw [hf]; simp) ?_ ?_
      · intro r hr
        rcases List.mem_cons.1 hr with rfl | hr
        · simp
        · obtain ⟨x, -, rfl⟩ := List.mem_map.1 hr
          simp
      · intro r hr s hs
        rcases List.mem_cons.1 hr with rfl | hr
        · apply ht.lines
          rcases List.mem_cons.1 hs with rfl | hs
          · exact .inl rfl
          · obtain ⟨f, hf', rfl⟩ := List.mem_map.1 hs
            exact .inr (.inr ⟨f, hf', .inl rfl⟩)
        · obtain ⟨⟨l, j⟩, hx, rfl⟩ := List.mem_map.1 hr
          have hx := List.mem_zipIdx_iff_getElem?.1 hx
          rcases List.mem_cons.1 hs with rfl | hs
          · exact ht.lines _ (.inr (.inl (List.mem_of_getElem? hx)))
          · obtain ⟨f, hf', rfl⟩ := List.mem_map.1 hs
            cases hv : f.2[j]? with
            | none => simp
            | some v => exact ht.lines _ (.inr (.inr ⟨f, hf', .inr (List.mem_of_getElem? hv)⟩))
    have hcol : (t.features.map fun f => String.ofList f.1).mapM (columnFeature (K := K)) =
        some (t.features.map fun f => emptyOf (String.ofList f.1)) := by
      have : ∀ gs : List (Text × List Text), (∀ f ∈ gs, Typed f.1) →
          (gs.map fun f => String.ofList f.1).mapM (columnFeature (K := K)) =
            some (gs.map fun f => emptyOf (String.ofList f.1)) := by
        intro gs
        induction gs with
        | nil => intro _; rfl
        | cons g gs ih =>
          intro hg
          rw [List.map_cons, List.mapM_cons, ih fun f hf => hg f (by simp [hf]), columnFeature_typed (hg g (by simp))]
          rfl
      exact this _ ht.names
    obtain ⟨blank, hblank⟩ : ∃ blank : FeatureMatrix K, blank =
      (t.features.map fun f => emptyOf (String.ofList f.1)).foldl .push ⟨[], fun _ => none, []⟩ := ⟨_, rfl⟩
    have hbd : blank.data = t.features.map fun f => emptyOf (String.ofList f.1) := by rw [hblank, pushAll_data]; rfl
    obtain ⟨cs, hcs⟩ : ∃ cs : List (String × List String), cs = t.labels.zipIdx.map fun x =>
      (String.ofList x.1, t.features.map fun f => String.ofList ((f.2[x.2]?).getD [])) := ⟨_, rfl⟩
    obtain ⟨fm', h1, h2, h3, h4⟩ := loadCases_labelled nt cs blank 0 (by
      intro r hr
      rw [hcs] at hr
      obtain ⟨x, -, rfl⟩ := List.mem_map.1 hr
      rw [hbd]
      simp)
    have hp : parseAFM nt text = some fm' := by
      unfold parseAFM
      rw [hrec]
      have e1 : (t.inColumns corner).map (·.map String.ofList) =
          (String.ofList corner :: t.features.map fun f => String.ofList f.1) :: cs.map fun r => r.1 :: r.2 := by
        unfold Table.inColumns
        rw [hcs]
        simp [Function.comp_def]
      rw [e1]
      simp only [List.tail_cons]
      rw [hf]
      simp only [List.map_cons]
      rw [if_pos (typed_iff.2 (ht.names f0 (by rw [hf]; simp)))]
      have e2 : (String.ofList f0.1 :: fs.map fun f => String.ofList f.1) =
        t.features.map fun f => String.ofList f.1 := by rw [hf]; rfl
      rw [e2, hcol]
      simp only [Option.bind_eq_bind, Option.bind_some]
      rw [← hblank]
      exact h1
    rw [hp]
    congr 1
    refine FeatureMatrix.ext' ?_ ?_ ?_
    · rw [pushAll_data]
      simp only [List.nil_append]
      apply List.ext_getElem?
      intro i
      cases hi : t.features[i]? with
      | none =>
        rw [List.getElem?_map, hi, Option.map_none, List.getElem?_eq_none_iff, h2, hbd, List.length_map]
        exact List.getElem?_eq_none_iff.1 hi
      | some f =>
        rw [h4 i (emptyOf (String.ofList f.1)) (by rw [hbd, List.getElem?_map, hi]; rfl), List.getElem?_map, hi,
          Option.map_some, hfeat]
        congr 2
        rw [hcs, List.map_map]
        have hsq := ht.square f (List.mem_of_getElem? hi)
        apply List.ext_getElem?
        intro j
        rw [List.getElem?_map, List.getElem?_map, List.getElem?_zipIdx]
        cases hj : t.labels[j]? with
        | none =>
          have : f.2[j]? = none := by
            rw [List.getElem?_eq_none_iff] at hj ⊢
            omega
          rw [this]; rfl
        | some l =>
          have hlt : j < f.2.length := by
            rw [hsq]
            exact (List.getElem?_eq_some_iff.1 hj).1
          rw [List.getElem?_eq_getElem hlt]
          simp [hi, List.getElem?_eq_getElem hlt]
    · have := (loadCases_map nt true _ _ 0 fm' h1).1
      rw [this, hblank]
      refine pushAll_map ?_ rfl rfl
      rw [List.map_map, List.map_map]
      apply List.map_congr_left
      intro f _
      simp only [Function.comp_apply]
      rw [hfeat, appends_name]
    · rw [h3, hblank, pushAll_labels, pushAll_labels, hcs, List.map_map]
      simp only [List.nil_append]
      apply List.ext_getElem?
      intro j
      rw [List.getElem?_map, List.getElem?_map, List.getElem?_zipIdx]
      cases t.labels[j]? <;> rfl
  · rw [pushAll_labels]
  · exact (FeatureMatrix.Indexed.empty _).pushAll _
  · rw [pushAll_data]; simp
  · intro i f hi
    rw [pushAll_data]
    refine ⟨feat f, by simp [hi], ?_⟩
    rw [hfeat]
    exact appends_holds nt f.1 f.2

/-- **C117**, line ends: a file without carriage returns is read the same if its lines end in `\r\n`. -/
theorem c117_crlf (nt : NumText K) (text : Text) (h : '\r' ∉ text) : parseAFM nt (crlf text) = parseAFM nt text := by
  unfold parseAFM
  rw [csvRecords_crlf _ h]

theorem csvScan_lineEnd (comma : Char) (comment : Option Char) (s : Text) : ∀ (at_ : CsvAt) (cur : Text) (fields : List Text),
    (at_ = .start → cur = []) → comma ≠ '\n' → csvScan comma comment at_ cur fields (s ++ ['\n']) = csvScan comma comment at_ cur fields s := by
  induction s with
  | nil =>
    intro at_ cur fields h hc
    cases at_ <;> simp [csvScan, Ne.symm hc]
    exact h rfl
  | cons c s ih =>
    intro at_ cur fields h hc
    rw [List.cons_append]
    cases at_ <;> simp only [csvScan] <;> (repeat' split) <;>
      first
        | rfl
        | exact ih _ _ _ (by simp) hc
        | rw [ih _ _ _ (by simp) hc]

theorem normCR_lineEnd (text : Text) : normCR (text ++ ['\n']) = normCR text ++ ['\n'] := by
  unfold normCR
  rw [splitC_append_cons, List.map_append]
  have h : ∀ l : List Text, l ≠ [] → joinC '\n' (l ++ [[]]) = joinC '\n' l ++ ['\n'] := by
    intro l
    induction l with
    | nil => intro h; exact absurd rfl h
    | cons a l ih =>
      intro _
      cases l with
      | nil => rfl
      | cons b l =>
        have := ih (by simp)
        rw [List.cons_append] at this
        rw [List.cons_append, List.cons_append, joinC_cons_cons, joinC_cons_cons, this]
        simp
  exact h _ (by simpa using splitC_ne_nil '\n' text)

/-- **C117**, the last line: whether a file ends with a line end makes no difference. -/
theorem c117_lineEnd (nt : NumText K) (text : Text) : parseAFM nt (text ++ ['\n']) = parseAFM nt text := by
  unfold parseAFM csvRecords
  rw [normCR_lineEnd, csvScan_lineEnd '\t' none _ .line [] [] (fun _ => rfl) (by decide)]

/-- Two cases, the last without a value for the second feature, the file with and without a line end. -/
example : csvRecords '\t' "f\tC:a\tC:b\nx\t1\t2\ny\t3\t".toList =
      ["f", "C:a", "C:b"].map String.toList :: ["x", "1", "2"].map String.toList :: [["y", "3", ""].map String.toList] ∧
    csvRecords '\t' "f\tC:a\tC:b\nx\t1\t2\ny\t3\t\n".toList = csvRecords '\t' "f\tC:a\tC:b\nx\t1\t2\ny\t3\t".toList := by
  decide +kernel

/-- Two nails. -/
def exTable : Table :=
  ⟨["x".toList, "y".toList],
    [("C:kind".toList, ["flat\thead".toList, "\"big\"".toList]), ("N:size".toList, ["2".toList, "".toList])]⟩

theorem exTable_readable : exTable.Readable "f".toList where
  cases := by decide
  nonempty := by decide
  square := by decide
  names := by
    intro f hf
    simp only [exTable, List.mem_cons, List.not_mem_nil, or_false] at hf
    rcases hf with rfl | rfl
    · unfold Typed; decide
    · unfold Typed; decide
  first := by
    intro l hl
    have : "x".toList = l := by simpa [exTable] using hl
    subst this
    unfold Typed
    decide
  lines := by
    intro s hs
    rw [← crIn_iff]
    have all : ∀ s ∈ ["f".toList, "x".toList, "y".toList, "C:kind".toList, "flat\thead".toList, "\"big\"".toList,
        "N:size".toList, "2".toList, "".toList], crIn s = true := by decide
    apply all
    rcases hs with rfl | hs | ⟨f, hf, hs⟩
    · decide
    · simp only [exTable, List.mem_cons, List.not_mem_nil, or_false] at hs
      rcases hs with rfl | rfl <;> decide
    · simp only [exTable, List.mem_cons, List.not_mem_nil, or_false] at hf
      rcases hf with rfl | rfl <;> simp only [List.mem_cons, List.not_mem_nil, or_false] at hs <;>
        rcases hs with rfl | rfl | rfl <;> decide

/-- It is written in rows with quotes where they are needed, as `csv.Writer` would. -/
example : WritesTable '\t' "f\tx\ty\nC:kind\t\"flat\thead\"\t\"\"\"big\"\"\"\nN:size\t2\t\n".toList
    (exTable.inRows "f".toList) := by
  refine ⟨(exTable.inRows "f".toList).map (·.map (csvField '\t')), ?_, by decide⟩
  rw [List.forall₂_map_left_iff, List.forall₂_same]
  intro r _
  rw [List.forall₂_map_left_iff, List.forall₂_same]
  exact fun f _ => csvField_writesAs '\t' f

/-- The same in columns. -/
example : (parseAFM exNums "f\tx\ty\nC:kind\t\"flat\thead\"\t\"\"\"big\"\"\"\nN:size\t2\t\n".toList).map (fun fm =>
      (fm.caseLabels, fm.data.map fun f => (f.name, [0, 1].map fun i => f.getStr exNums i))) =
    some (["x", "y"], [("C:kind", [some "flat\thead", some "\"big\""]), ("N:size", [some "2", some "NA"])]) ∧
    (parseAFM exNums "f\tC:kind\tN:size\nx\t\"flat\thead\"\t2\n\"y\"\t\"\"\"big\"\"\"\t\n".toList).map (fun fm =>
      (fm.caseLabels, fm.data.map fun f => (f.name, [0, 1].map fun i => f.getStr exNums i))) =
    some (["x", "y"], [("C:kind", [some "flat\thead", some "\"big\""]), ("N:size", [some "2", some "NA"])]) :=
  ⟨by decide +kernel, by decide +kernel⟩

example : parseAFM exNums ".\tx\r\nN:a\t2\r\n".toList = parseAFM exNums ".\tx\nN:a\t2\n".toList :=
  c117_crlf exNums ".\tx\nN:a\t2\n".toList (by decide)

end CloudForest
