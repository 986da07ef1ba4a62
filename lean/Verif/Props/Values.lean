import Verif.Lemmas.Values
import Verif.Props.Sf

/-!
# C32, C34, C56 and part of C38: values of features
-/

set_option linter.unusedSectionVars false

namespace CloudForest
variable {K : Type} [Field K] [LinearOrder K] [IsStrictOrderedRing K]

/-! ## Examples -/

/-- red, blue, ?, blue -/
def exColour : CatFeature :=
  ((((CatFeature.new "C:colour").append "red").append "blue").append "?").append "blue"

/-- 2, NA, 0.5 -/
def exSize : NumFeature ℚ :=
  (((NumFeature.new "N:size").append exNums "2").append exNums "NA").append exNums "0.5"

theorem exColour_consistent : exColour.Consistent :=
  (((consistent_new "C:colour").append _ |>.append _).append _).append _

theorem exSize_consistent : exSize.Consistent :=
  have h : (NumFeature.new "N:size" : NumFeature ℚ).Consistent :=
    ⟨rfl, by intro i h; simp [NumFeature.new] at h⟩
  ((h.append _).append _).append _

/-! ## C32: imputation -/

/-- **C32**, categorical: known values stay, every missing case gets the same category, one that no
other occurs more often than among the known cases; nothing is missing afterwards and imputing again
changes nothing. -/
theorem c32_cat (f : CatFeature) (hf : f.Consistent) (hk : false ∈ f.missing) :
    ∃ f' m, f.imputeMissing = some f' ∧
      f.MostFrequent (knownOf f.missing (List.range f.missing.length)) m ∧ m < f.cm.nCats ∧
      f'.catData.length = f.catData.length ∧
      (∀ i : Nat, f.missing[i]? = some false → f'.catData[i]? = f.catData[i]? ∧ f'.getStr i = f.getStr i) ∧
      (∀ i : Nat, f.missing[i]? = some true → f'.catData[i]? = some m ∧ f'.getStr i = f.cm.back[m]?) ∧
      f'.missing = List.replicate f.missing.length false ∧ f'.hasMissing = false ∧
      f'.cm = f.cm ∧ f'.name = f.name ∧ f'.imputeMissing = some f' := by
  obtain ⟨m, h1, h2, h3⟩ := modei_spec hf (List.range f.missing.length) (by simp)
  obtain ⟨data', h4, h5, h6⟩ := imputeLoop_spec m f.missing f.catData hf.lengths
  have hm : m < f.cm.nCats := by
    obtain ⟨c, hc, hv⟩ := List.getElem_of_mem hk
    obtain ⟨k, -, hlt⟩ := hf.inRange (List.range f.missing.length) c
      (mem_knownOf.2 ⟨by simpa using hc, by rw [List.getElem?_eq_getElem hc, hv]⟩)
    omega
  have hrep : (f.missing.map fun _ => false) = List.replicate f.missing.length false := List.map_const' ..
  obtain ⟨f', hf'⟩ : ∃ f' : CatFeature, f' =
    { f with catData := data', missing := f.missing.map fun _ => false, hasMissing := false } := ⟨_, rfl⟩
  have himp : f.imputeMissing = some f' := by
    unfold CatFeature.imputeMissing
    rw [h1, Option.bind_eq_bind, Option.bind_some, h4, hf']
    rfl
  have hcons : f'.Consistent := by
    obtain ⟨g, hg, hg'⟩ := hf.impute (.inl (by omega))
    rw [himp] at hg
    cases hg
    exact hg'
  have hknown : ∀ i : Nat, i < f.missing.length → f'.missing[i]? = some false := by
    intro i hi
    rw [hf']
    simp only [List.getElem?_map, List.getElem?_eq_getElem hi]
    rfl
  have hlt : ∀ i b, f.missing[i]? = some b → i < f.missing.length := by
    intro i b h
    by_contra hc
    rw [List.getElem?_eq_none (by omega)] at h
    cases h
  refine ⟨f', m, himp, h2, hm, by rw [hf']; simp only [h5, hf.lengths], ?_, ?_, by rw [hf', ← hrep],
    by rw [hf'], by rw [hf'], by rw [hf'], ?_⟩
  · intro i hi
    have hd : f'.catData[i]? = f.catData[i]? := by
      rw [hf']
      simp only [h6]
      rw [if_neg (by rw [hi]; simp)]
    refine ⟨hd, ?_⟩
    rw [CatFeature.getStr_known hi, CatFeature.getStr_known (hknown i (hlt i _ hi)), hd, hf']
  · intro i hi
    have hd : f'.catData[i]? = some m := by
      rw [hf']
      simp only [h6]
      rw [if_pos hi]
    refine ⟨hd, ?_⟩
    rw [CatFeature.getStr_known (hknown i (hlt i _ hi)), hd, hf']
    rfl
  · obtain ⟨m', h1', -, -⟩ := modei_spec hcons (List.range f'.missing.length) (by simp)
    have hno : true ∉ f'.missing := by rw [hf', hrep]; simp
    unfold CatFeature.imputeMissing
    rw [h1', Option.bind_eq_bind, Option.bind_some, imputeLoop_none _ _ _ hno, hf']
    simp

/-- Blue is the most frequent colour; imputation leaves no other doubt. -/
example : exColour.Consistent ∧ false ∈ exColour.missing ∧ true ∈ exColour.missing ∧
    (exColour.imputeMissing).map (fun f => (List.range 4).map f.getStr) =
      some [some "red", some "blue", some "blue", some "blue"] :=
  ⟨exColour_consistent, by decide +kernel, by decide +kernel, by decide +kernel⟩

/-- **C32**, numerical: known values stay, every missing case gets the mean of the known ones (which
are finite); nothing is missing afterwards and imputing again changes nothing. -/
theorem c32_num (f : NumFeature K) (hf : f.Consistent) (hk : false ∈ f.missing)
    (hfin : f.Finite (knownOf f.missing (List.range f.missing.length))) :
    ∃ f', f.imputeMissing = some f' ∧ f'.numData.length = f.numData.length ∧
      (∀ i : Nat, f.missing[i]? = some false → f'.numData[i]? = f.numData[i]?) ∧
      (∀ i : Nat, f.missing[i]? = some true → f'.numData[i]? =
        some (.fin (f.meanOf (knownOf f.missing (List.range f.missing.length))))) ∧
      f'.missing = List.replicate f.missing.length false ∧ f'.hasMissing = false ∧
      f'.name = f.name ∧ f'.imputeMissing = some f' := by
  have hne : knownOf f.missing (List.range f.missing.length) ≠ [] := by
    obtain ⟨c, hc, hv⟩ := List.getElem_of_mem hk
    exact List.ne_nil_of_mem (a := c)
      (mem_knownOf.2 ⟨by simpa using hc, by rw [List.getElem?_eq_getElem hc, hv]⟩)
  have h1 := mean_eq f (List.range f.missing.length) (by simp) hf.lengths hfin hne
  obtain ⟨data', h4, h5, h6⟩ := imputeLoop_spec
    (XF.fin (f.meanOf (knownOf f.missing (List.range f.missing.length)))) f.missing f.numData hf.lengths
  have hrep : (f.missing.map fun _ => false) = List.replicate f.missing.length false := List.map_const' ..
  obtain ⟨f', hf'⟩ : ∃ f' : NumFeature K, f' =
    { f with numData := data', missing := f.missing.map fun _ => false, hasMissing := false } := ⟨_, rfl⟩
  have himp : f.imputeMissing = some f' := by
    unfold NumFeature.imputeMissing
    rw [h1, Option.bind_eq_bind, Option.bind_some, h4, hf']
    rfl
  have hcons : f'.Consistent := by
    obtain ⟨g, hg, hg'⟩ := hf.impute
    rw [himp] at hg
    cases hg
    exact hg'
  refine ⟨f', himp, by rw [hf']; simp only [h5, hf.lengths], ?_, ?_, by rw [hf', ← hrep],
    by rw [hf'], by rw [hf'], ?_⟩
  · intro i hi
    rw [hf']
    simp only [h6]
    rw [if_neg (by rw [hi]; simp)]
  · intro i hi
    rw [hf']
    simp only [h6]
    rw [if_pos hi]
  · obtain ⟨m', h1'⟩ := mean_isSome f' (List.range f'.missing.length) (by simp) hcons.lengths
    have hno : true ∉ f'.missing := by rw [hf', hrep]; simp
    unfold NumFeature.imputeMissing
    rw [h1', Option.bind_eq_bind, Option.bind_some, imputeLoop_none _ _ _ hno, hf']
    simp

example : exSize.Consistent ∧ false ∈ exSize.missing ∧
    exSize.Finite (knownOf exSize.missing (List.range exSize.missing.length)) ∧
    (exSize.imputeMissing).map (fun f => f.numData) = some [.fin 2, .fin (5/4), .fin (1/2)] := by
  refine ⟨exSize_consistent, by decide +kernel, ?_, by decide +kernel⟩
  intro c hc
  have : c ∈ [0, 2] := by
    have e : knownOf exSize.missing (List.range exSize.missing.length) = [0, 2] := by decide +kernel
    rw [← e]; exact hc
  rcases List.mem_cons.1 this with rfl | h
  · exact ⟨2, by decide +kernel⟩
  · rw [List.mem_singleton.1 h]
    exact ⟨1/2, by decide +kernel⟩

/-- Without a known value a categorical feature is imputed with a category that does not exist: reading
it panics. (The property asks for a known value.) -/
theorem c32_all_missing (name : String) :
    ((CatFeature.new name).append "NA").imputeMissing = some ⟨.empty, [0], [false], name, false, false⟩ ∧
      (CatFeature.mk .empty [0] [false] name false false).getStr 0 = none := by
  have : isMissingToken "NA" = true := by decide +kernel
  constructor
  · simp only [CatFeature.append, if_pos this]
    rfl
  · rfl

/-! ## C34: missing values are tracked -/

/-- **C34**: from an empty feature of either kind, any sequence of calls leaves the value and missing
slices of equal length, known category numbers valid and `MissingVals` true if a case is missing. -/
theorem c34_invariant (nt : NumText K) (name : String) (f : Feature K)
    (hf : f = .cat (.new name) ∨ f = .num (.new name)) (ops : List (FeatureOp K)) (hops : f.AllowedAll nt ops)
    (f' : Feature K) (h : ops.foldlM (Feature.apply nt) f = some f') : f'.Consistent := by
  have h0 : f.Consistent := by
    rcases hf with rfl | rfl
    · exact consistent_new name
    · exact ⟨rfl, by intro i h; simp [NumFeature.new] at h⟩
  clear hf
  induction ops generalizing f with
  | nil =>
    simp only [List.foldlM_nil] at h
    cases h
    exact h0
  | cons op ops ih =>
    rw [List.foldlM_cons] at h
    cases hs : f.apply nt op with
    | none => rw [hs] at h; cases h
    | some g =>
      rw [hs] at h
      exact ih g (hops.2 g hs) h (h0.apply op hops.1 hs)

/-- Some calls. -/
def exCalls : List (FeatureOp ℚ) :=
  [.append "red", .append "NA", .append "blue", .putStr 1 "green", .putMissing 0, .append "red", .putStr 3 "blue"]

example : exCalls.foldlM (Feature.apply exNums) (.cat (.new "C:c")) ≠ none := by
  intro h
  have : (exCalls.foldlM (Feature.apply exNums) (.cat (.new "C:c"))).isSome = true := by decide +kernel
  rw [h] at this
  cases this

/-- What a client reads after calls that write strings is what it wrote (`col` is the column of strings it
should be). Where a case does not exist both are undefined. -/
def Feature.ReadsAs (nt : NumText K) (f : Option (Feature K)) (col : Option (List String)) : Prop :=
  match f, col with
  | none, none => True
  | some f, some col => f.length = col.length ∧ ∀ i, f.getStr nt i = col[i]?
  | _, _ => False

/-- **C34**, reading strings back from a categorical feature, for every sequence of calls: what is read at
every case is the string stored there last, or NA for a missing-value token. Partial: tokens written
by `PutStr` are excluded; see `c34_putStr_token`. -/
theorem c34_cat_strings_partial (nt : NumText K) (name : String) (ops : List (FeatureOp K))
    (h1 : ∀ op ∈ ops, op.Textual) (h2 : ∀ i v, FeatureOp.putStr i v ∈ ops → isMissingToken v = false) :
    Feature.ReadsAs nt (ops.foldlM (Feature.apply nt) (.cat (.new name))) (ops.foldlM (column catCell) []) := by
  have gen : ∀ (f : CatFeature) (col : List String), f.Consistent → f.Reads col →
      Feature.ReadsAs nt (ops.foldlM (Feature.apply nt) (.cat f)) (ops.foldlM (column catCell) col) := by
    induction ops with
    | nil => intro f col hf hr; exact ⟨hr.1.symm, hr.2⟩
    | cons op ops ih =>
      intro f col hf hr
      have ih := ih (fun o ho => h1 o (by simp [ho])) (fun i v hv => h2 i v (by simp [hv]))
      have hop := h1 op (by simp)
      rw [List.foldlM_cons, List.foldlM_cons]
      cases op with
      | append v => exact ih _ _ (hf.append v) (hr.append hf v)
      | puti i v => exact absurd hop id
      | put i x => exact absurd hop id
      | impute => exact absurd hop id
      | shuffle r => exact absurd hop id
      | putStr i v =>
        have ht := h2 i v (by simp)
        by_cases hi : i < f.missing.length
        · obtain ⟨f', hp⟩ := putStr_some hf v hi
          have hc : column (K := K) catCell col (.putStr i v) = some (col.set i v) := by
            simp only [column, catCell, ht, Bool.false_eq_true, if_false]
            rw [if_pos (by rw [hr.1]; exact hi)]
          have ha : Feature.apply nt (.cat f) (.putStr i v) = some (.cat f') := by
            simp only [Feature.apply, hp, Option.map_some]
          rw [hc, ha]
          exact ih _ _ (hf.putStr hp) (hr.putStr hf hp).2
        · have hp : f.putStr i v = none := by
            cases hp : f.putStr i v with
            | none => rfl
            | some f' => exact absurd (putStr_reads hf hp).1 hi
          have hc : column (K := K) catCell col (.putStr i v) = none := by
            simp only [column]
            rw [if_neg (by rw [hr.1]; exact hi)]
          have ha : Feature.apply nt (.cat f) (.putStr i v) = none := by
            simp only [Feature.apply, hp, Option.map_none]
          rw [hc, ha]
          trivial
      | putMissing i =>
        by_cases hi : i < f.missing.length
        · obtain ⟨f', hp⟩ := putMissing_some hi
          have hc : column (K := K) catCell col (.putMissing i) = some (col.set i "NA") := by
            simp only [column]
            rw [if_pos (by rw [hr.1]; exact hi)]
          have ha : Feature.apply nt (.cat f) (.putMissing i) = some (.cat f') := by
            simp only [Feature.apply, hp, Option.map_some]
          rw [hc, ha]
          exact ih _ _ (hf.putMissing hp) (hr.putMissing hf hp).2
        · have hp : f.putMissing i = none := by
            cases hp : f.putMissing i with
            | none => rfl
            | some f' =>
              have := (hr.putMissing hf hp).1
              rw [hr.1] at this
              exact absurd this hi
          have hc : column (K := K) catCell col (.putMissing i) = none := by
            simp only [column]
            rw [if_neg (by rw [hr.1]; exact hi)]
          have ha : Feature.apply nt (.cat f) (.putMissing i) = none := by
            simp only [Feature.apply, hp, Option.map_none]
          rw [hc, ha]
          trivial
  exact gen _ _ (consistent_new name) ⟨rfl, fun i => by simp [CatFeature.new, CatFeature.getStr]⟩

example : (∀ op ∈ exCalls, op.Textual) ∧
    exCalls.foldlM (column catCell) [] = some ["NA", "green", "blue", "blue"] := by
  refine ⟨?_, by decide +kernel⟩
  intro op h
  simp only [exCalls, List.mem_cons, List.not_mem_nil, or_false] at h
  rcases h with rfl | rfl | rfl | rfl | rfl | rfl | rfl <;> trivial

/-- **C34** fails for missing-value tokens: for every categorical feature, case and token, `PutStr` leaves
the case known, with the token as its category. -/
theorem c34_putStr_token (f : CatFeature) (hf : f.Consistent) (i : Nat) (hi : i < f.missing.length) (v : String)
    (_ht : isMissingToken v = true) :
    ∃ f', f.putStr i v = some f' ∧ f'.missing[i]? = some false ∧ f'.getStr i = some v := by
  obtain ⟨f', hp⟩ := putStr_some hf v hi
  obtain ⟨-, -, h3, h4, -⟩ := putStr_reads hf hp
  exact ⟨f', hp, h3, h4⟩

/-- A question mark becomes a colour. -/
example : isMissingToken "?" = true ∧ (exColour.putStr 0 "?").bind (fun f => f.getStr 0) = some "?" ∧
    (exColour.putStr 0 "?").map (fun f => f.cm.back) = some ["red", "blue", "?"] :=
  ⟨by decide +kernel, by decide +kernel, by decide +kernel⟩

/-- **C34**, reading strings back from a numerical feature, for every sequence of calls: what is read is
the number stored last as it is printed, or NA if the string was no number. -/
theorem c34_num_strings (nt : NumText K) (name : String) (ops : List (FeatureOp K))
    (h1 : ∀ op ∈ ops, op.Textual) :
    Feature.ReadsAs nt (ops.foldlM (Feature.apply nt) (.num (.new name)))
      (ops.foldlM (column (numCell nt)) []) := by
  have gen : ∀ (f : NumFeature K) (col : List String), f.Consistent → f.Reads nt col →
      Feature.ReadsAs nt (ops.foldlM (Feature.apply nt) (.num f)) (ops.foldlM (column (numCell nt)) col) := by
    induction ops with
    | nil => intro f col hf hr; exact ⟨hr.1.symm, hr.2⟩
    | cons op ops ih =>
      intro f col hf hr
      have ih := ih (fun o ho => h1 o (by simp [ho]))
      have hop := h1 op (by simp)
      rw [List.foldlM_cons, List.foldlM_cons]
      cases op with
      | append v => exact ih _ _ (hf.append v) (hr.append hf v)
      | puti i v => exact absurd hop id
      | put i x => exact absurd hop id
      | impute => exact absurd hop id
      | shuffle r => exact absurd hop id
      | putStr i v =>
        by_cases hi : i < f.missing.length
        · obtain ⟨f', hp⟩ := NumFeature.putStr_some (nt := nt) hf v hi
          have hc : column (K := K) (numCell nt) col (.putStr i v) = some (col.set i (numCell nt v)) := by
            simp only [column]
            rw [if_pos (by rw [hr.1]; exact hi)]
          have ha : Feature.apply nt (.num f) (.putStr i v) = some (.num f') := by
            simp only [Feature.apply, hp, Option.map_some]
          rw [hc, ha]
          exact ih _ _ (hf.putStr hp) (hr.putStr hp).2
        · have hp : f.putStr nt i v = none := by
            cases hp : f.putStr nt i v with
            | none => rfl
            | some f' =>
              have := (hr.putStr hp).1
              rw [hr.1] at this
              exact absurd this hi
          have hc : column (K := K) (numCell nt) col (.putStr i v) = none := by
            simp only [column]
            rw [if_neg (by rw [hr.1]; exact hi)]
          have ha : Feature.apply nt (.num f) (.putStr i v) = none := by
            simp only [Feature.apply, hp, Option.map_none]
          rw [hc, ha]
          trivial
      | putMissing i =>
        by_cases hi : i < f.missing.length
        · obtain ⟨f', hp⟩ := NumFeature.putMissing_some (f := f) hi
          have hc : column (K := K) (numCell nt) col (.putMissing i) = some (col.set i "NA") := by
            simp only [column]
            rw [if_pos (by rw [hr.1]; exact hi)]
          have ha : Feature.apply nt (.num f) (.putMissing i) = some (.num f') := by
            simp only [Feature.apply, hp, Option.map_some]
          rw [hc, ha]
          exact ih _ _ (hf.putMissing hp) (hr.putMissing hp).2
        · have hp : f.putMissing i = none := by
            cases hp : f.putMissing i with
            | none => rfl
            | some f' =>
              have := (hr.putMissing hp).1
              rw [hr.1] at this
              exact absurd this hi
          have hc : column (K := K) (numCell nt) col (.putMissing i) = none := by
            simp only [column]
            rw [if_neg (by rw [hr.1]; exact hi)]
          have ha : Feature.apply nt (.num f) (.putMissing i) = none := by
            simp only [Feature.apply, hp, Option.map_none]
          rw [hc, ha]
          trivial
  exact gen _ _ ⟨rfl, by intro i h; simp [NumFeature.new] at h⟩
    ⟨rfl, fun i => by simp [NumFeature.new, NumFeature.getStr]⟩

example : ([.append "2", .append "x", .putStr 1 "0.5", .putStr 0 "NA"] : List (FeatureOp ℚ)).foldlM
    (column (numCell exNums)) [] = some ["NA", "0.5"] := by decide +kernel

/-! ## C56: one notion of missing -/

/-- **C56** fails: `nan` is a missing-value token in a categorical column. In a numerical one it is a known
value, as `strconv.ParseFloat` reads it as not-a-number; then the mean of the column is not a number
either, which is what imputation gives every missing case. -/
theorem c56_nan_known (nt : NumText K) (h : nt.parse "nan".toList = some .nan) (name : String)
    (f : NumFeature K) (hf : f.Consistent) :
    ((CatFeature.new name).append "nan").missing = [true] ∧
      (f.append nt "nan").missing = f.missing ++ [false] ∧
      (f.append nt "nan").mean (List.range (f.append nt "nan").missing.length) = some .nan := by
  have ht : isMissingToken "nan" = true := by decide +kernel
  have ha : f.append nt "nan" = { f with numData := f.numData ++ [.nan], missing := f.missing ++ [false] } := by
    unfold NumFeature.append
    rw [h]
  refine ⟨by simp only [CatFeature.append, if_pos ht]; rfl, by rw [ha], ?_⟩
  have hc : (f.append nt "nan").Consistent := hf.append _
  unfold NumFeature.mean
  rw [mean_loop _ _ (by simp) hc.lengths, ha]
  have e : List.range (f.missing ++ [false]).length = List.range f.missing.length ++ [f.missing.length] := by
    simp [List.range_succ]
  have e2 : knownOf (f.missing ++ [false]) (List.range (f.missing ++ [false]).length) =
      knownOf (f.missing ++ [false]) (List.range f.missing.length) ++ [f.missing.length] := by
    rw [e]
    simp [knownOf]
  simp only
  rw [e2, List.foldl_append]
  simp only [List.foldl_cons, List.foldl_nil, Option.bind_eq_bind, Option.bind_some]
  have e3 : (f.numData ++ [XF.nan])[f.missing.length]? = some .nan := by
    rw [← hf.lengths]; simp
  rw [e3]
  simp only [Option.getD_some]
  have add_nan : ∀ x : XF K, x + .nan = .nan := fun x => by cases x <;> rfl
  rw [add_nan]
  rfl

/-- Such a parser, and a feature with a value. -/
example : NumText.parse { exNums with
      parse := fun s => if s = "nan".toList then some .nan else exNums.parse s } "nan".toList = some .nan ∧
    exSize.Consistent := ⟨by decide +kernel, exSize_consistent⟩

/-- **C56**, the part that holds: every other missing-value token, none of which is a number, is missing in
columns of both kinds. -/
theorem c56_missing_partial (nt : NumText K) (v : String) (hv : isMissingToken v = true)
    (h : nt.parse v.toList = none) (f : CatFeature) (g : NumFeature K) :
    (f.append v).missing = f.missing ++ [true] ∧ (g.append nt v).missing = g.missing ++ [true] := by
  unfold CatFeature.append NumFeature.append
  rw [if_pos hv, h]
  exact ⟨rfl, rfl⟩

example : isMissingToken "Null" = true ∧ exNums.parse "Null".toList = none ∧
    isMissingToken "?" = true ∧ isMissingToken "NaN" = true ∧ exNums.parse "NaN".toList = some .nan :=
  ⟨by decide +kernel, by decide +kernel, by decide +kernel, by decide +kernel, by decide +kernel⟩

/-! ## C38: leaf predictions -/

/-- **C38**, categorical target: the prediction at a leaf is a category that no other occurs more often
than among the known cases at the leaf. -/
theorem c38_cat (f : CatFeature) (hf : f.Consistent) (cases : List Nat) (hc : ∀ c ∈ cases, c < f.missing.length)
    (hk : knownOf f.missing cases ≠ []) :
    ∃ s m, f.findPredicted cases = some s ∧ f.cm.back[m]? = some s ∧
      f.MostFrequent (knownOf f.missing cases) m := by
  obtain ⟨m, h1, h2, h3⟩ := modei_spec hf cases hc
  have hm : m < f.cm.nCats := by
    obtain ⟨c, hc⟩ := List.exists_mem_of_ne_nil _ hk
    obtain ⟨k, -, hlt⟩ := hf.inRange cases c hc
    omega
  refine ⟨f.cm.back[m]'hm, m, ?_, List.getElem?_eq_getElem hm, h2⟩
  unfold CatFeature.findPredicted
  rw [h1, Option.bind_eq_bind, Option.bind_some, List.getElem?_eq_getElem hm]

example : (∀ c ∈ [0, 1, 2, 3, 1], c < exColour.missing.length) ∧
    knownOf exColour.missing [0, 1, 2, 3, 1] = [0, 1, 3, 1] ∧
    exColour.findPredicted [0, 1, 2, 3, 1] = some "blue" :=
  ⟨by decide +kernel, by decide +kernel, by decide +kernel⟩

/-- **C38**, numerical target: the prediction at a leaf is the mean of the known values as it is printed, and
no other number has a smaller sum of squared errors. -/
theorem c38_num (nt : NumText K) (f : NumFeature K) (hf : f.Consistent) (cases : List Nat)
    (hc : ∀ c ∈ cases, c < f.missing.length) (hk : knownOf f.missing cases ≠ [])
    (hfin : f.Finite (knownOf f.missing cases)) :
    ∃ m, f.findPredicted nt cases = some (String.ofList (nt.fmt (.fin m))) ∧
      ∀ z, ((knownOf f.missing cases).map fun c => (f.value c - m) ^ 2).sum ≤
        ((knownOf f.missing cases).map fun c => (f.value c - z) ^ 2).sum := by
  refine ⟨f.meanOf (knownOf f.missing cases), ?_, fun z => ?_⟩
  · unfold NumFeature.findPredicted
    rw [mean_eq f cases hc hf.lengths hfin hk]
    rfl
  · have := mean_minimises ((knownOf f.missing cases).map f.value) (by simpa using hk) z
    simpa [List.map_map, Function.comp_def, NumFeature.meanOf] using this

example : exSize.findPredicted exNums [0, 1, 0] = some "2" := by decide +kernel

end CloudForest
