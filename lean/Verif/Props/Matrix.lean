import Verif.Lemmas.Matrix2
import Verif.Props.Values

/-!
# C23, C35, C43, C57, C58: matrices
-/

set_option linter.unusedSectionVars false

namespace CloudForest
variable {K : Type} [Field K] [LinearOrder K] [IsStrictOrderedRing K]

/-! ## Examples -/

/-- low, high, NA, mid, low -/
def exLevel : CatFeature := ["low", "high", "NA", "mid", "low"].foldl (fun f v => f.append v) (.new "C:level")

/-- 2, NA, 0.5, 0.5, -3 -/
def exAge : NumFeature ℚ :=
  ["2", "NA", "0.5", "0.5", "-3"].foldl (fun f v => f.append exNums v) (.new "N:age")

/-- yes, no, no, ?, yes -/
def exFlag : CatFeature := ["yes", "no", "no", "?", "yes"].foldl (fun f v => f.append v) (.new "B:flag")

/-- A matrix of these. -/
def exMix : FeatureMatrix ℚ :=
  [.num exAge, .cat exLevel, .cat exFlag].foldl .push ⟨[], fun _ => none, ["a", "b", "c", "d", "e"]⟩

theorem exLevel_consistent : exLevel.Consistent :=
  (cat_appends_reads _ (.new "C:level") [] (consistent_new _)
    ⟨rfl, fun i => by simp [CatFeature.new, CatFeature.getStr]⟩).1

theorem exFlag_consistent : exFlag.Consistent :=
  (cat_appends_reads _ (.new "B:flag") [] (consistent_new _)
    ⟨rfl, fun i => by simp [CatFeature.new, CatFeature.getStr]⟩).1

/-! ## C35: encoding -/

/-- **C35**, more than two categories: one column per category, in order; at every case the column of the
case's category is one and the others are zero, and cases are missing where they were. -/
theorem c35_indicators (f : CatFeature) (hf : f.Consistent) (hn : 2 < f.cm.nCats) :
    ∃ fs : List (NumFeature K), f.encodeToNum = some fs ∧ fs.length = f.cm.nCats ∧
      ∀ (j : Nat) (s : String), f.cm.back[j]? = some s → ∃ g, fs[j]? = some g ∧
        g.name = f.name ++ "==" ++ s ∧ g.missing = f.missing ∧ g.numData.length = f.missing.length ∧
        ∀ (c : Nat) (t : String), f.missing[c]? = some false → f.getStr c = some t →
          g.numData[c]? = some (.fin (if t = s then 1 else 0)) := by
  refine ⟨_, encodeToNum_gt hf hn, by simp [CatMap.nCats], ?_⟩
  intro j s hj
  refine ⟨⟨f.catData.map fun v => if j = v then .fin 1 else .fin 0, f.missing, f.name ++ "==" ++ s, f.hasMissing⟩,
    ?_, rfl, rfl, by simp [hf.lengths], ?_⟩
  · rw [List.getElem?_map, List.getElem?_zipIdx, hj]
    simp
  · intro c t hc ht
    rw [CatFeature.getStr_known hc] at ht
    cases hk : f.catData[c]? with
    | none => rw [hk] at ht; cases ht
    | some k =>
      rw [hk] at ht
      have ht : f.cm.back[k]? = some t := ht
      simp only [List.getElem?_map, hk, Option.map_some, Option.some.injEq]
      by_cases hjk : j = k
      · subst hjk
        rw [ht] at hj
        rw [if_pos rfl, if_pos (Option.some.inj hj)]
      · rw [if_neg hjk, if_neg]
        intro e
        subst e
        exact hjk (CatMap.WF.inj hf.map hj ht)

example : exLevel.Consistent ∧ 2 < exLevel.cm.nCats ∧
    (exLevel.encodeToNum (K := ℚ)).map (·.map (·.name)) = some ["C:level==low", "C:level==high", "C:level==mid"] ∧
    (exLevel.encodeToNum (K := ℚ)).map (·.map (·.numData)) = some [[.fin 1, .fin 0, .fin 1, .fin 0, .fin 1],
      [.fin 0, .fin 1, .fin 0, .fin 0, .fin 0], [.fin 0, .fin 0, .fin 0, .fin 1, .fin 0]] :=
  ⟨exLevel_consistent, by decide +kernel, by decide +kernel, by decide +kernel⟩

/-- **C35**, at most two categories: one column of the same name with the number of each case's category. -/
theorem c35_code (f : CatFeature) (hf : f.Consistent) (hn : f.cm.nCats ≤ 2) :
    ∃ g : NumFeature K, f.encodeToNum = some [g] ∧ g.name = f.name ∧ g.missing = f.missing ∧
      g.numData.length = f.missing.length ∧
      ∀ (c : Nat) (t : String), f.missing[c]? = some false → f.getStr c = some t →
        ∃ k : Nat, f.cm.map t = some k ∧ k < 2 ∧ g.numData[c]? = some (.fin (k : K)) := by
  refine ⟨_, encodeToNum_le hf hn, rfl, rfl, by simp [hf.lengths], ?_⟩
  intro c t hc ht
  rw [CatFeature.getStr_known hc] at ht
  cases hk : f.catData[c]? with
  | none => rw [hk] at ht; cases ht
  | some k =>
    rw [hk] at ht
    have ht : f.cm.back[k]? = some t := ht
    refine ⟨k, (hf.map t k).2 ht, by have := hf.valid c k hc hk; omega, ?_⟩
    simp only [List.getElem?_map, hk, Option.map_some]
    rfl

example : exFlag.Consistent ∧ exFlag.cm.nCats ≤ 2 ∧
    (exFlag.encodeToNum (K := ℚ)).map (·.map (·.numData)) =
      some [[.fin 0, .fin 1, .fin 1, .fin 0, .fin 0]] :=
  ⟨exFlag_consistent, by decide +kernel, by decide +kernel⟩

/-- **C35**, matrices: `EncodeToNum` gives the columns of the features in order, and the map sends every
column's name to its index. Names are distinct and without equals sign; see `c35_collision`. -/
theorem c35_matrix_partial (fm : FeatureMatrix K) (hf : ∀ f ∈ fm.data, f.Consistent)
    (hd : (fm.data.map Feature.name).Nodup) (hn : ∀ f ∈ fm.data, '=' ∉ f.name.toList) :
    ∃ fm' cols, fm.encodeToNum = some fm' ∧
      encodedColumns (fun f => (f.encodeToNum (K := K)).map (·.map .num)) fm.data = some cols ∧
      fm'.data = cols ∧ (fm'.data.map Feature.name).Nodup ∧ fm'.caseLabels = fm.caseLabels ∧
      ∀ i g, fm'.data[i]? = some g → fm'.map g.name = some i := by
  obtain ⟨cols, h1, h2, -⟩ := encodedColumns_names fm.data hf hn hd
  have hg := foldl_add_good cols ⟨[], fun _ => none, []⟩ Good.start (by simpa using h2)
  have hdata := foldl_add_data cols ⟨[], fun _ => none, []⟩
  obtain ⟨s, hs⟩ : ∃ s, s = cols.foldl EncodeState.add (⟨[], fun _ => none, []⟩ : EncodeState K) := ⟨_, rfl⟩
  rw [← hs] at hg hdata
  refine ⟨⟨s.data, s.map, fm.caseLabels⟩, cols, ?_, h1, by simpa using hdata, ?_, rfl, ?_⟩
  · unfold FeatureMatrix.encodeToNum
    rw [encodeLoop_eq, h1, hs]
    rfl
  · simp only [hdata, List.nil_append]
    exact h2
  · intro i g hi
    rw [hg.map, hg.keys, List.getElem?_map]
    simp only at hi
    rw [hi]
    rfl

theorem exMix_consistent : ∀ f ∈ exMix.data, f.Consistent := by
  intro f hf
  have : f = .num exAge ∨ f = .cat exLevel ∨ f = .cat exFlag := by
    have : exMix.data = [.num exAge, .cat exLevel, .cat exFlag] := rfl
    rw [this] at hf
    simpa using hf
  rcases this with rfl | rfl | rfl
  · show exAge.Consistent
    have : ∀ (vs : List String) (f : NumFeature ℚ), f.Consistent →
        (vs.foldl (fun f v => f.append exNums v) f).Consistent := by
      intro vs
      induction vs with
      | nil => exact fun f h => h
      | cons v vs ih => exact fun f h => ih _ (h.append v)
    exact this _ _ ⟨rfl, by intro i h; simp [NumFeature.new] at h⟩
  · exact exLevel_consistent
  · exact exFlag_consistent

example : (∀ f ∈ exMix.data, f.Consistent) ∧ (exMix.data.map Feature.name).Nodup ∧
    (∀ f ∈ exMix.data, '=' ∉ f.name.toList) ∧
    exMix.encodeToNum.map (fun fm => fm.data.map Feature.name) =
      some ["N:age", "C:level==low", "C:level==high", "C:level==mid", "B:flag"] :=
  ⟨exMix_consistent, by decide +kernel, by decide +kernel, by decide +kernel⟩

/-- Four features with distinct names, of which one is called like a column of another. -/
def exCollide : FeatureMatrix ℚ :=
  [.num ⟨[.fin 7, .fin 7, .fin 7], [false, false, false], "C:a==x", false⟩,
    .cat (["x", "y", "z"].foldl (fun f v => f.append v) (.new "C:a")),
    .num ⟨[.fin 5, .fin 5, .fin 5], [false, false, false], "N:b", false⟩].foldl .push
      ⟨[], fun _ => none, ["1", "2", "3"]⟩

/-- **C35** fails if a feature is called like a column of another: the map then has fewer entries than there
are columns, and `N:b` is looked up in the column of `C:a==z`. -/
theorem c35_collision : (exCollide.data.map Feature.name).Nodup ∧
    (exCollide.encodeToNum.bind fun fm => fm.map "N:b") = some 3 ∧
    (exCollide.encodeToNum.bind fun fm => (fm.data[3]?).map Feature.name) = some "C:a==z" :=
  ⟨by decide +kernel, by decide +kernel, by decide +kernel⟩

/-! ## C43: names and indices -/

/-- **C43**: every matrix that `ParseAFM` returns is indexed by name, whatever the text. -/
theorem c43_parse (nt : NumText K) (text : Text) (fm : FeatureMatrix K) (h : parseAFM nt text = some fm) :
    fm.Indexed := by
  unfold parseAFM at h
  cases hr : (csvRecords '\t' text).map (·.map String.ofList) with
  | nil => rw [hr] at h; cases h
  | cons header rest =>
    rw [hr] at h
    simp only at h
    cases ht : header.tail with
    | nil => rw [ht] at h; cases h
    | cons h0 hs =>
      rw [ht] at h
      simp only at h
      split at h
      · cases hm : (h0 :: hs).mapM (columnFeature (K := K)) with
        | none => rw [hm] at h; cases h
        | some data =>
          rw [hm] at h
          have hl := loadCases_map nt true rest _ 0 fm h
          exact ((FeatureMatrix.Indexed.empty []).pushAll data).congr hl.1 hl.2
      · cases hm : rest.mapM (parseFeature nt) with
        | none => rw [hm] at h; cases h
        | some data =>
          rw [hm] at h
          cases h
          exact (FeatureMatrix.Indexed.empty (h0 :: hs)).pushAll data

/-- A text with features in rows and one with features in columns. -/
example : ((parseAFM exNums ".\tx\ty\nN:a\t2\t0.5\nC:b\tu\tv\n".toList).map fun fm => fm.data.map Feature.name) =
      some ["N:a", "C:b"] ∧
    ((parseAFM exNums ".\tN:a\tC:b\nx\t2\tu\ny\t0.5\tv\n".toList).map fun fm => fm.data.map Feature.name) =
      some ["N:a", "C:b"] ∧
    ((parseAFM exNums ".\tN:a\tC:b\nx\t2\tu\ny\t0.5\tv\n".toList).map fun fm => fm.caseLabels) =
      some ["x", "y"] := ⟨by decide +kernel, by decide +kernel, by decide +kernel⟩

/-- **C43**: adding shuffled copies keeps a matrix indexed. -/
theorem c43_contrasts (fm fm' : FeatureMatrix K) (h : fm.Indexed) (n : Nat) (rng rng' : Rng)
    (hr : fm.addContrasts n rng = some (fm', rng')) : fm'.Indexed := by
  unfold FeatureMatrix.addContrasts at hr
  generalize fm.data.length = k at hr
  induction n generalizing fm rng with
  | zero => cases hr; exact h
  | succ n ih =>
    rw [FeatureMatrix.addContrastsLoop] at hr
    cases h1 : rng.intn k with
    | none => rw [h1] at hr; cases hr
    | some x =>
      obtain ⟨i, rng1⟩ := x
      cases h2 : fm.data[i]? with
      | none => simp only [h1, h2, Option.bind_eq_bind, Option.bind_some, Option.bind_none] at hr; cases hr
      | some orig =>
        cases h3 : orig.shuffledCopy rng1 with
        | none => simp only [h1, h2, h3, Option.bind_eq_bind, Option.bind_some, Option.bind_none] at hr; cases hr
        | some y =>
          obtain ⟨fake, rng2⟩ := y
          simp only [h1, h2, h3, Option.bind_eq_bind, Option.bind_some] at hr
          exact ih _ (h.push fake) _ hr

@[inherit_doc c43_contrasts]
theorem c43_contrastAll (fm fm' : FeatureMatrix K) (h : fm.Indexed) (rng rng' : Rng)
    (hr : fm.contrastAll rng = some (fm', rng')) : fm'.Indexed := by
  unfold FeatureMatrix.contrastAll at hr
  have gen : ∀ (n k : Nat) (fm : FeatureMatrix K) (rng : Rng), fm.Indexed →
      fm.contrastAllLoop k n rng = some (fm', rng') → fm'.Indexed := by
    intro n k
    induction n with
    | zero => intro fm rng h hr; cases hr; exact h
    | succ n ih =>
      intro fm rng h hr
      rw [FeatureMatrix.contrastAllLoop] at hr
      cases h2 : fm.data[k - (n + 1)]? with
      | none => simp only [h2, Option.bind_eq_bind, Option.bind_none] at hr; cases hr
      | some orig =>
        cases h3 : orig.shuffledCopy rng with
        | none => simp only [h2, h3, Option.bind_eq_bind, Option.bind_some, Option.bind_none] at hr; cases hr
        | some y =>
          obtain ⟨fake, rng2⟩ := y
          simp only [h2, h3, Option.bind_eq_bind, Option.bind_some] at hr
          exact ih _ _ (h.push fake) hr
  exact gen _ _ _ _ h hr

/-- **C43**: `StripStrings` leaves a matrix indexed, whatever it was before. -/
theorem c43_strip (fm : FeatureMatrix K) (target : String) : (fm.stripStrings target).Indexed where
  sound := by
    intro n i h
    rcases lastIndex_some n (fm.stripStrings target).data 0 none i h with h | ⟨j, f, rfl, h2, h3⟩
    · cases h
    · exact ⟨f, by simpa using h2, h3⟩
  complete := by
    intro f hf
    exact Option.isSome_iff_exists.1
      (lastIndex_mem f.name (fm.stripStrings target).data 0 none (.inr ⟨f, hf, rfl⟩))

/-- A matrix encoded with distinct names is indexed, whatever the encoding of single features. -/
theorem encoded_indexed {enc : CatFeature → Option (List (Feature K))} {fs : List (Feature K)} {s : EncodeState K}
    (h : encodeLoop enc fs ⟨[], fun _ => none, []⟩ = some s) (hd : (s.data.map Feature.name).Nodup)
    (labels : List String) : FeatureMatrix.Indexed ⟨s.data, s.map, labels⟩ := by
  rw [encodeLoop_eq, Option.map_eq_some_iff] at h
  obtain ⟨cols, -, rfl⟩ := h
  rw [foldl_add_data, List.nil_append] at hd
  have hg := foldl_add_good cols ⟨[], fun _ => none, []⟩ Good.start (by simpa using hd)
  refine ⟨?_, ?_⟩
  · intro n i hi
    have := (hg.map n i).1 hi
    rwa [hg.keys, List.getElem?_map, Option.map_eq_some_iff] at this
  · intro f hf
    obtain ⟨i, hi⟩ := List.getElem?_of_mem hf
    refine ⟨i, (hg.map f.name i).2 ?_⟩
    rw [hg.keys, List.getElem?_map]
    simp only at hi
    rw [hi]
    rfl

/-- The matrices that any sequence of these operations can build, with the restriction that the names of
encoded columns are distinct. -/
inductive Built (nt : NumText K) : FeatureMatrix K → Prop
  | parse {text fm} (h : parseAFM nt text = some fm) : Built nt fm
  | contrasts {fm fm' n rng rng'} (hb : Built nt fm) (h : fm.addContrasts n rng = some (fm', rng')) : Built nt fm'
  | contrastAll {fm fm' rng rng'} (hb : Built nt fm) (h : fm.contrastAll rng = some (fm', rng')) : Built nt fm'
  | strip {fm} (hb : Built nt fm) (target : String) : Built nt (fm.stripStrings target)
  | encode {fm fm'} (hb : Built nt fm) (h : fm.encodeToNum = some fm') (hd : (fm'.data.map Feature.name).Nodup) :
      Built nt fm'
  | oneHot {fm fm'} (hb : Built nt fm) (h : fm.oneHot = some fm') (hd : (fm'.data.map Feature.name).Nodup) :
      Built nt fm'

/-- **C43**: every such matrix is indexed. Partial: without distinct names after encoding it fails, see
`c43_misplaced`. -/
theorem c43_sequence_partial (nt : NumText K) (fm : FeatureMatrix K) (h : Built nt fm) : fm.Indexed := by
  induction h with
  | parse h => exact c43_parse nt _ _ h
  | contrasts _ h ih => exact c43_contrasts _ _ ih _ _ _ h
  | contrastAll _ h ih => exact c43_contrastAll _ _ ih _ _ h
  | strip _ t _ => exact c43_strip _ t
  | encode _ h hd _ =>
    unfold FeatureMatrix.encodeToNum at h
    simp only [Option.bind_eq_bind, Option.bind_eq_some_iff, Option.some.injEq] at h
    obtain ⟨s, hs, rfl⟩ := h
    exact encoded_indexed hs hd _
  | oneHot _ h hd _ =>
    unfold FeatureMatrix.oneHot at h
    simp only [Option.bind_eq_bind, Option.bind_eq_some_iff, Option.some.injEq] at h
    obtain ⟨s, hs, rfl⟩ := h
    exact encoded_indexed hs hd _

/-- A matrix read, shuffled copies added, and encoded. -/
example : (((parseAFM exNums ".\tx\ty\tz\nN:a\t2\t0.5\t2\nC:b\tu\tv\tw\n".toList).bind fun fm =>
      fm.contrastAll fun _ => 0).bind fun r => r.1.encodeToNum).map (fun fm => fm.data.map Feature.name) =
    some ["N:a", "C:b==u", "C:b==v", "C:b==w", "N:a:SHUFFLED", "C:b:SHUFFLED==u", "C:b:SHUFFLED==v",
      "C:b:SHUFFLED==w"] := by decide +kernel

/-- Two features of one case. -/
def exPair : FeatureMatrix ℚ :=
  [.num ⟨[.fin 1], [false], "N:a", false⟩, .num ⟨[.fin 2], [false], "N:b", false⟩].foldl .push
    ⟨[], fun _ => none, ["x"]⟩

/-- Draws that copy the first feature twice and then the second. -/
def exDraws : Rng := fun k => if k = 4 then 1 else 0

/-- **C43** fails for a sequence of these: `AddContrasts` may copy a feature twice under one name; after that
`EncodeToNum` misplaces every later column. The copy of `N:b` is looked up in that of `N:a`. -/
theorem c43_misplaced : exPair.Indexed ∧ (exPair.data.map Feature.name).Nodup ∧
    ((exPair.addContrasts 3 exDraws).bind fun r => r.1.encodeToNum.bind fun fm => fm.map "N:b:SHUFFLED") = some 3 ∧
    ((exPair.addContrasts 3 exDraws).bind fun r => r.1.encodeToNum.bind fun fm =>
      (fm.data[3]?).map Feature.name) = some "N:a:SHUFFLED" :=
  ⟨(FeatureMatrix.Indexed.empty _).pushAll _, by decide +kernel, by decide +kernel, by decide +kernel⟩

/-! ## C57: StripStrings -/

theorem natStr_inj {a b : Nat} (h : natStr a = natStr b) : a = b := by
  unfold natStr fmtNat at h
  have h := congrArg String.toList h
  rw [String.toList_ofList, String.toList_ofList] at h
  have key : ∀ n : Nat, Nat.ofDigitChars 10 (Nat.toDigits 10 n) 0 = n := fun n => Nat.ofDigitChars_ten_toDigits
  rw [← key a, ← key b, h]

/-- The feature with index `i` after `StripStrings` is that feature of the matrix with the target first,
renamed. -/
theorem strip_get (fm : FeatureMatrix K) (target : String) (i : Nat) :
    (fm.stripStrings target).data[i]? = ((swapTarget target fm.data)[i]?).map (Feature.strip i) := by
  simp only [FeatureMatrix.stripStrings, List.getElem?_map, List.getElem?_zipIdx]
  cases (swapTarget target fm.data)[i]? <;> simp

/-- **C57**, the part that holds: after `StripStrings` every known case reads as the number of its category,
and different categories read differently; missing cases and numbers are as before. -/
theorem c57_values_partial (fm : FeatureMatrix K) (target : String) (i : Nat) (f : CatFeature) (hf : f.Consistent)
    (h : (swapTarget target fm.data)[i]? = some (.cat f)) :
    ∃ g : CatFeature, (fm.stripStrings target).data[i]? = some (.cat g) ∧ g.missing = f.missing ∧
      g.catData = f.catData ∧ g.cm.nCats = f.cm.nCats ∧
      (∀ (c k : Nat), f.missing[c]? = some false → f.catData[c]? = some k → g.getStr c = some (natStr k)) ∧
      (∀ j k : Nat, natStr j = natStr k → j = k) := by
  refine ⟨{ f with
      name := "C:" ++ natStr i
      cm := ⟨fun s => if s ∈ (List.range f.cm.back.length).map natStr then some i else none,
        (List.range f.cm.back.length).map natStr⟩ }, by rw [strip_get, h]; rfl, rfl, rfl, by simp [CatMap.nCats], ?_, fun j k => natStr_inj⟩
  intro c k hc hk
  rw [CatFeature.getStr_known (by exact hc)]
  simp only [hk, Option.bind_some]
  rw [List.getElem?_map, List.getElem?_range (by exact hf.valid c k hc hk)]
  rfl

/-- **C57** fails of the category map: `CatToNum` of every category of the feature with index `i` is `i`. -/
theorem c57_numbers (fm : FeatureMatrix K) (target : String) (i : Nat) (g : CatFeature)
    (h : (fm.stripStrings target).data[i]? = some (.cat g)) (j : Nat) (s : String) (hj : g.cm.back[j]? = some s) :
    (g.cm.catToNum s).1 = i := by
  rw [strip_get, Option.map_eq_some_iff] at h
  obtain ⟨f, -, h⟩ := h
  cases f with
  | num f => cases h
  | cat f =>
    simp only [Feature.strip, Feature.cat.injEq] at h
    subst h
    simp only at hj
    unfold CatMap.catToNum
    simp only [if_pos (List.mem_of_getElem? hj)]

/-- The same values, missing or not, under whatever name. -/
def Feature.SameValues : Feature K → Feature K → Prop
  | .num f, .num g => g.numData = f.numData ∧ g.missing = f.missing
  | .cat f, .cat g => g.catData = f.catData ∧ g.missing = f.missing
  | _, _ => False

theorem Feature.strip_sameValues (i : Nat) (f : Feature K) : f.SameValues (f.strip i) := by
  cases f <;> exact ⟨rfl, rfl⟩

/-- **C43**, **C57**: `StripStrings` exchanges the target with the first feature. No feature is lost, and all
have their values under their new index. -/
theorem c43_strip_target (fm : FeatureMatrix K) (target : String) (t : Nat) (f f0 : Feature K)
    (ht : fm.data[t]? = some f) (hn : f.name = target) (h0 : fm.data[0]? = some f0)
    (hfirst : ∀ (j : Nat) (g : Feature K), j < t → fm.data[j]? = some g → g.name ≠ target) :
    (fm.stripStrings target).data.length = fm.data.length ∧
    (∃ g, (fm.stripStrings target).data[0]? = some g ∧ f.SameValues g) ∧
    (∃ g, (fm.stripStrings target).data[t]? = some g ∧ f0.SameValues g) ∧
    (∀ (k : Nat) (h : Feature K), k ≠ 0 → k ≠ t → fm.data[k]? = some h →
      ∃ g, (fm.stripStrings target).data[k]? = some g ∧ h.SameValues g) := by
  have hlt : t < fm.data.length := (List.getElem?_eq_some_iff.1 ht).1
  have hidx : fm.data.findIdx? (fun f => f.name == target) = some t := by
    rw [List.findIdx?_eq_some_iff_getElem]
    refine ⟨hlt, ?_, ?_⟩
    · rw [(List.getElem?_eq_some_iff.1 ht).2]; simpa using hn
    · intro j hj
      have := hfirst j _ hj (List.getElem?_eq_getElem (by omega))
      simpa using this
  have hsw : swapTarget target fm.data = (fm.data.set t f0).set 0 f := by
    simp only [swapTarget, hidx, ht, h0]
  refine ⟨by simp [FeatureMatrix.stripStrings, hsw], ?_, ?_, ?_⟩
  · refine ⟨f.strip 0, ?_, f.strip_sameValues 0⟩
    rw [strip_get, hsw, List.getElem?_set_self (by simpa using by omega)]
    rfl
  · by_cases h : t = 0
    · subst h
      rw [ht] at h0
      cases h0
      refine ⟨f.strip 0, ?_, f.strip_sameValues 0⟩
      rw [strip_get, hsw, List.getElem?_set_self (by simpa using by omega)]
      rfl
    · refine ⟨f0.strip t, ?_, f0.strip_sameValues t⟩
      rw [strip_get, hsw, List.getElem?_set_ne (by omega), List.getElem?_set_self (by omega)]
      rfl
  · intro k h hk0 hkt hk
    refine ⟨h.strip k, ?_, h.strip_sameValues k⟩
    rw [strip_get, hsw, List.getElem?_set_ne (by omega), List.getElem?_set_ne (by omega), hk]
    rfl

/-- The second feature is the target; both are numerical. -/
example : exPair.data.map Feature.name = ["N:a", "N:b"] ∧
    ((exPair.stripStrings "N:b").data.map fun f => match f with
      | .num g => g.numData
      | .cat _ => []) = [[.fin 2], [.fin 1]] :=
  ⟨by decide +kernel, by decide +kernel⟩

/-- With the flag as target, both its categories get number 0; those of the level get number 1. -/
example : ((exMix.stripStrings "B:flag").data.map Feature.name) = ["C:0", "C:1", "N:2"] ∧
    ((exMix.stripStrings "B:flag").data[1]?).map (fun f => f.getStr exNums 1) = some (some "1") ∧
    ((exMix.stripStrings "B:flag").data[0]?).map (fun f => match f with
      | .cat g => ["0", "1"].map fun s => (g.cm.catToNum s).1
      | .num _ => []) = some [0, 0] :=
  ⟨by decide +kernel, by decide +kernel, by decide +kernel⟩

/-! ## C58: OneHot -/

/-- **C58**, the part that holds: a categorical feature with more than two categories becomes one indicator
per category, which reads true at the cases of that category and false at the others. -/
theorem c58_indicators_partial (f : CatFeature) (hf : f.Consistent) (hn : 2 < f.cm.nCats) :
    ∃ fs : List CatFeature, f.oneHot = some fs ∧ fs.length = f.cm.nCats ∧
      ∀ (j : Nat) (s : String), f.cm.back[j]? = some s → ∃ g, fs[j]? = some g ∧
        g.name = f.name ++ "==" ++ s ∧ g.missing = f.missing ∧
        ∀ (c : Nat) (t : String), f.missing[c]? = some false → f.getStr c = some t →
          g.getStr c = some (if t = s then "true" else "false") := by
  refine ⟨_, oneHot_gt hf hn, by simp [CatMap.nCats], ?_⟩
  intro j s hj
  refine ⟨⟨boolMap, f.catData.map fun v => if j = v then 1 else 0, f.missing, f.name ++ "==" ++ s, f.randomSearch,
    f.hasMissing⟩, ?_, rfl, rfl, ?_⟩
  · rw [List.getElem?_map, List.getElem?_zipIdx, hj]
    simp
  · intro c t hc ht
    rw [CatFeature.getStr_known hc] at ht
    rw [CatFeature.getStr_known (by exact hc)]
    cases hk : f.catData[c]? with
    | none => rw [hk] at ht; cases ht
    | some k =>
      rw [hk] at ht
      have ht : f.cm.back[k]? = some t := ht
      simp only [List.getElem?_map, hk, Option.map_some, Option.bind_some]
      by_cases hjk : j = k
      · subst hjk
        rw [ht] at hj
        rw [if_pos rfl, if_pos (Option.some.inj hj)]
        rfl
      · rw [if_neg hjk, if_neg]
        · rfl
        · intro e
          subst e
          exact hjk (CatMap.WF.inj hf.map hj ht)

example : (exLevel.oneHot).map (·.map fun g => [0, 1, 2, 3, 4].map g.getStr) = some
    [[some "true", some "false", some "NA", some "false", some "true"],
      [some "false", some "true", some "NA", some "false", some "false"],
      [some "false", some "false", some "NA", some "true", some "false"]] := by decide +kernel

/-- **C58** fails: `FeatureMatrix.OneHot` of a matrix whose features are categorical with at most two
categories has no features at all. -/
theorem c58_dropped (fm : FeatureMatrix K) (h : ∀ f ∈ fm.data, ∃ g : CatFeature, f = .cat g ∧ g.cm.nCats ≤ 2) :
    ∃ fm', fm.oneHot = some fm' ∧ fm'.data = [] := by
  have : encodedColumns (fun f => f.oneHot.map (·.map Feature.cat)) fm.data = some [] := by
    unfold encodedColumns
    have hm : fm.data.mapM (columnsOf fun f => f.oneHot.map (·.map Feature.cat)) =
        some (fm.data.map fun _ => []) := mapM_some fun f hf => by
      obtain ⟨g, rfl, hg⟩ := h f hf
      simp only [columnsOf, CatFeature.oneHot]
      rw [if_neg (by omega)]
      rfl
    rw [hm]
    simp
  unfold FeatureMatrix.oneHot
  rw [encodeLoop_eq, this]
  exact ⟨_, rfl, rfl⟩

example : (exMix.oneHot).map (fun fm => fm.data.map Feature.name) =
    some ["N:age", "C:level==low", "C:level==high", "C:level==mid"] := by decide +kernel

/-! ## C23: writing and reading -/

/-- **C23**: what `ParseAFM` reads from the text that `WriteCases` writes has the same features in the same
order, with the listed cases' labels, categories, numbers and missing values; with distinct names it
is indexed. Partial: see `FeatureMatrix.Writable` for what is needed besides avoiding delimiters, and
`c23_no_cases`, `c23_short_name`, `c23_first_label` and `c23_quotes` for what happens otherwise. -/
theorem c23_roundtrip_partial (nt : NumText K) (fm : FeatureMatrix K) (cases : List Nat) (h : fm.Writable nt cases) :
    ∃ text fm', fm.writeCases nt cases = some text ∧ parseAFM nt text = some fm' ∧
      (∀ j c : Nat, cases[j]? = some c → fm'.caseLabels[j]? = fm.caseLabels[c]?) ∧
      fm'.caseLabels.length = cases.length ∧ fm'.data.length = fm.data.length ∧
      (∀ (i : Nat) (f : Feature K), fm.data[i]? = some f → ∃ g, fm'.data[i]? = some g ∧ f.SameOn cases g ∧
        g.name = f.name) ∧
      fm'.Indexed := by
  obtain ⟨text, h1, h2⟩ := csvRecords_written h
  refine ⟨text, ?_⟩
  obtain ⟨c0, cs, hcs⟩ : ∃ c0 cs, cases = c0 :: cs := by
    cases hc : cases with
    | nil => exact absurd hc h.nonempty
    | cons c cs => exact ⟨c, cs, rfl⟩
  have hparse : ∀ f ∈ fm.data, ∃ g, parseFeature nt (f.name :: cases.map (cellOf nt f)) = some g ∧
      f.SameOn cases g ∧ g.name = f.name :=
    fun f hf => parseFeature_written h.na (h.names f hf).2 (h.cases f hf)
  have hdata : ∃ gs, (fm.data.map fun f => f.name :: cases.map (cellOf nt f)).mapM (parseFeature nt) = some gs ∧
      gs.length = fm.data.length ∧ ∀ (i : Nat) (f : Feature K), fm.data[i]? = some f →
        ∃ g, gs[i]? = some g ∧ f.SameOn cases g ∧ g.name = f.name := by
    have gen : ∀ fs : List (Feature K), (∀ f ∈ fs, ∃ g, parseFeature nt (f.name :: cases.map (cellOf nt f)) = some g ∧
        f.SameOn cases g ∧ g.name = f.name) →
        ∃ gs, (fs.map fun f => f.name :: cases.map (cellOf nt f)).mapM (parseFeature nt) = some gs ∧
          gs.length = fs.length ∧ ∀ (i : Nat) (f : Feature K), fs[i]? = some f →
            ∃ g, gs[i]? = some g ∧ f.SameOn cases g ∧ g.name = f.name := by
      intro fs
      induction fs with
      | nil => exact fun _ => ⟨[], rfl, rfl, fun i f hi => by simp at hi⟩
      | cons f fs ih =>
        intro hp
        obtain ⟨gs, hg1, hg2, hg3⟩ := ih fun x hx => hp x (by simp [hx])
        obtain ⟨g, hg, hs⟩ := hp f (by simp)
        refine ⟨g :: gs, by rw [List.map_cons, List.mapM_cons, hg, hg1]; rfl, by simp [hg2], ?_⟩
        intro i x hi
        cases i with
        | zero =>
          have : f = x := by simpa using hi
          subst this
          exact ⟨g, rfl, hs⟩
        | succ i => exact hg3 i x (by simpa using hi)
    exact gen fm.data hparse
  obtain ⟨gs, hg1, hg2, hg3⟩ := hdata
  have hlab : hasPrefix2 ['N', ':'] (labelOf fm c0) = false ∧ hasPrefix2 ['C', ':'] (labelOf fm c0) = false ∧
      hasPrefix2 ['B', ':'] (labelOf fm c0) = false := by
    obtain ⟨l, hl, -⟩ := h.labels c0 (by rw [hcs]; simp)
    have := h.first c0 l (by rw [hcs]; rfl) hl
    simp only [List.mem_cons, List.not_mem_nil, or_false, not_or] at this
    simp only [hasPrefix2, labelOf, hl, Option.getD_some, decide_eq_false_iff_not]
    exact this
  have hp : parseAFM nt text = some (gs.foldl .push ⟨[], fun _ => none, cases.map (labelOf fm)⟩) := by
    unfold parseAFM
    rw [h2]
    simp only [List.tail_cons]
    rw [hg1, hcs]
    simp only [List.map_cons, hlab.1, hlab.2.1, hlab.2.2, Bool.or_self, Bool.false_eq_true, if_false]
    rfl
  refine ⟨_, h1, hp, ?_, ?_, ?_, ?_, (FeatureMatrix.Indexed.empty _).pushAll gs⟩
  · intro j c hj
    rw [pushAll_labels]
    simp only [List.getElem?_map, hj, Option.map_some]
    obtain ⟨l, hl, -⟩ := h.labels c (List.mem_of_getElem? hj)
    simp [labelOf, hl]
  · rw [pushAll_labels]; simp
  · rw [pushAll_data]; simp [hg2]
  · intro i f hi
    rw [pushAll_data]
    simpa using hg3 i f hi

instance (s : Text) : Decidable (Tabless s) := by unfold Tabless; infer_instance

theorem exMix_writable : exMix.Writable exNums [4, 0, 2] where
  nonempty := by simp
  labels := by
    intro c hc
    simp only [List.mem_cons, List.not_mem_nil, or_false] at hc
    rcases hc with rfl | rfl | rfl
    · exact ⟨"e", by decide +kernel, by decide +kernel⟩
    · exact ⟨"a", by decide +kernel, by decide +kernel⟩
    · exact ⟨"c", by decide +kernel, by decide +kernel⟩
  first := by
    intro c l hc hl
    simp only [List.head?_cons, Option.some.injEq] at hc
    subst hc
    have e : exMix.caseLabels[4]? = some "e" := by decide +kernel
    rw [e] at hl
    cases hl
    decide +kernel
  names := by
    intro f hf
    have e : exMix.data = [.num exAge, .cat exLevel, .cat exFlag] := rfl
    rw [e] at hf
    simp only [List.mem_cons, List.not_mem_nil, or_false] at hf
    rcases hf with rfl | rfl | rfl
    · exact ⟨by decide +kernel, by show _ = _; decide +kernel⟩
    · exact ⟨by decide +kernel, by constructor <;> decide +kernel⟩
    · exact ⟨by decide +kernel, by constructor <;> decide +kernel⟩
  cases := by
    intro f hf c hc
    have e : exMix.data = [.num exAge, .cat exLevel, .cat exFlag] := rfl
    rw [e] at hf
    simp only [List.mem_cons, List.not_mem_nil, or_false] at hf hc
    rcases hf with rfl | rfl | rfl <;> rcases hc with rfl | rfl | rfl
    · exact .inr ⟨by decide +kernel, .fin (-3), by decide +kernel, by decide +kernel, by decide +kernel⟩
    · exact .inr ⟨by decide +kernel, .fin 2, by decide +kernel, by decide +kernel, by decide +kernel⟩
    · exact .inr ⟨by decide +kernel, .fin (1/2), by decide +kernel, by decide +kernel, by decide +kernel⟩
    · exact .inr ⟨by decide +kernel, 0, "low", by decide +kernel, by decide +kernel, by decide +kernel, by decide +kernel⟩
    · exact .inr ⟨by decide +kernel, 0, "low", by decide +kernel, by decide +kernel, by decide +kernel, by decide +kernel⟩
    · exact .inl (by decide +kernel)
    · exact .inr ⟨by decide +kernel, 0, "yes", by decide +kernel, by decide +kernel, by decide +kernel, by decide +kernel⟩
    · exact .inr ⟨by decide +kernel, 0, "yes", by decide +kernel, by decide +kernel, by decide +kernel, by decide +kernel⟩
    · exact .inr ⟨by decide +kernel, 1, "no", by decide +kernel, by decide +kernel, by decide +kernel, by decide +kernel⟩
  na := by decide +kernel

example : exMix.writeCases exNums [4, 0, 2] =
    some ".\te\ta\tc\nN:age\t-3\t2\t0.5\nC:level\tlow\tlow\tNA\nB:flag\tyes\tyes\tno\n".toList := by decide +kernel

/-- **C23** fails without cases: `ParseAFM` looks at the first case label, and panics on every matrix written
with no cases. -/
theorem c23_no_cases (nt : NumText K) (fm : FeatureMatrix K) :
    ∃ text, fm.writeCases nt [] = some text ∧ parseAFM nt text = none := by
  refine ⟨_, writeCases_eq (by simp) (by simp), ?_⟩
  have hrec : ∃ rest, csvRecords '\t' ((("." :: ([] : List Nat).map (labelOf fm)) ::
      fm.data.map fun f => f.name :: ([] : List Nat).map (cellOf nt f)).map
        fun r => joinC '\t' (r.map String.toList) ++ ['\n']).flatten = ["."].map String.toList :: rest := by
    simp only [List.map_nil, List.map_cons, List.flatten_cons, List.map_map]
    unfold csvRecords
    have e : ∀ r : Text, ∃ x, normCR ((joinC '\t' [".".toList] ++ ['\n']) ++ r) = '.' :: '\n' :: x := by
      intro r
      have : splitC '\n' ((joinC '\t' [".".toList] ++ ['\n']) ++ r) = ['.'] :: splitC '\n' r := by
        show splitC '\n' (['.'] ++ '\n' :: r) = _
        rw [splitC_append_cons]
        rfl
      unfold normCR
      rw [this]
      cases hs : splitC '\n' r with
      | nil => exact absurd hs (splitC_ne_nil _ _)
      | cons q qs => exact ⟨_, rfl⟩
    obtain ⟨x, hx⟩ := e ((fm.data.map ((fun r => joinC '\t' (List.map String.toList r) ++ ['\n']) ∘
      fun f => [f.name])).flatten)
    rw [hx]
    exact ⟨_, rfl⟩
  obtain ⟨rest, hrec⟩ := hrec
  unfold parseAFM
  rw [hrec]
  rfl

/-- **C23** fails for names of one byte, such as those `ParseLibSVM` gives: `ParseFeature` panics. -/
theorem c23_short_name : (parseAFM exNums ".\tx\n1\t2\n".toList).isNone = true ∧
    (FeatureMatrix.writeCases exNums ⟨[.num ⟨[.fin 2], [false], "1", false⟩], fun _ => some 0, ["x"]⟩ [0]) =
      some ".\tx\n1\t2\n".toList := ⟨by decide +kernel, by decide +kernel⟩

/-- **C23** fails if the first case's label looks like a feature's name: the cases are read as features. -/
theorem c23_first_label :
    (FeatureMatrix.writeCases exNums ⟨[.num ⟨[.fin 2], [false], "N:a", false⟩], fun _ => some 0, ["C:x"]⟩ [0]) =
      some ".\tC:x\nN:a\t2\n".toList ∧
    (parseAFM exNums ".\tC:x\nN:a\t2\n".toList).map (fun fm => (fm.data.map Feature.name, fm.caseLabels)) =
      some (["C:x"], ["N:a"]) := ⟨by decide +kernel, by decide +kernel⟩

/-- Nails of two kinds and sizes. -/
def exNails : FeatureMatrix ℚ :=
  [.cat (["\"short\"", "long"].foldl (fun f v => f.append v) (.new "C:kind")),
    .cat (["5\"", "6\""].foldl (fun f v => f.append v) (.new "C:size")),
    .cat (["a", "b"].foldl (fun f v => f.append v) (.new "C:shop"))].foldl .push ⟨[], fun _ => none, ["x", "y"]⟩

/-- **C23** fails for values with quotes, which `WriteCases` writes as they are and `ParseAFM` reads as quotes
around a value: a value in quotes loses them, and a quote at another place ends the reading, so that all
features from there on are lost. -/
theorem c23_quotes :
    exNails.writeCases exNums [0, 1] =
      some ".\tx\ty\nC:kind\t\"short\"\tlong\nC:size\t5\"\t6\"\nC:shop\ta\tb\n".toList ∧
    (parseAFM exNums ".\tx\ty\nC:kind\t\"short\"\tlong\nC:size\t5\"\t6\"\nC:shop\ta\tb\n".toList).map (fun fm =>
      (fm.caseLabels, fm.data.map fun f => (f.name, [0, 1].map fun i => f.getStr exNums i))) =
      some (["x", "y"], [("C:kind", [some "short", some "long"])]) := ⟨by decide +kernel, by decide +kernel⟩

end CloudForest
