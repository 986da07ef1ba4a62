import Verif.Model.ImputeCommand
import Verif.Spec.ImputeCommand
import Verif.Props.OtherData
import Verif.Props.Values

/-!
Tables with missing values filled in, and growing from them.
-/

set_option linter.unusedSectionVars false

namespace CloudForest
variable {K : Type} [Field K] [LinearOrder K] [IsStrictOrderedRing K]

/-! ## Growing from tables that lack nothing -/

theorem plurality_most {f : CatFeature} (hf : f.Consistent) {S : List Nat} (hS : ∀ c ∈ S, f.missing[c]? = some false)
    (hne : S ≠ []) {s : String} {m : Nat} (h2 : f.cm.back[m]? = some s) (h3 : f.MostFrequent S m) : f.Plurality S s := by
  have hval : ∀ c ∈ S, ∃ k q, f.catData[c]? = some k ∧ f.cm.back[k]? = some q ∧ f.getStr c = some q := by
    intro c hc
    have hlt : c < f.catData.length := by rw [hf.lengths]; exact (List.getElem?_eq_some_iff.1 (hS c hc)).1
    have hk := List.getElem?_eq_getElem hlt
    have hkl := hf.valid c _ (hS c hc) hk
    have hq := List.getElem?_eq_getElem hkl
    refine ⟨_, _, hk, hq, ?_⟩
    unfold CatFeature.getStr
    simp only [hS c hc, hk, Option.bind_eq_bind, Option.bind_some, Bool.false_eq_true, if_false]
    exact hq
  have hle : ∀ q k, f.cm.back[k]? = some q → (S.filter fun c => decide (f.getStr c = some q)).length = f.catCount S k := by
    intro q k hk
    unfold CatFeature.catCount
    rw [List.countP_eq_length_filter]
    congr 1
    refine List.filter_congr fun c hc => ?_
    obtain ⟨k', q', e1, e2, e3⟩ := hval c hc
    rw [e1, e3]
    by_cases h : k' = k
    · subst h
      rw [hk] at e2
      cases e2
      simp
    · have : q' ≠ q := by
        rintro rfl
        have w1 := (hf.map q' k').2 e2
        have w2 := (hf.map q' k).2 hk
        rw [w1] at w2
        cases w2
        exact h rfl
      simp [h, this]
  have hmax : ∀ q, (S.filter fun c => decide (f.getStr c = some q)).length ≤
      (S.filter fun c => decide (f.getStr c = some s)).length := by
    intro q
    rw [hle s m h2]
    by_cases hq : ∃ k : Nat, f.cm.back[k]? = some q
    · obtain ⟨k, hk⟩ := hq
      rw [hle q k hk]
      exact h3 k
    · have : (S.filter fun c => decide (f.getStr c = some q)) = [] := by
        rw [List.filter_eq_nil_iff]
        intro c hc h
        obtain ⟨k', q', e1, e2, e3⟩ := hval c hc
        rw [e3] at h
        simp only [Option.some.injEq, decide_eq_true_eq] at h
        subst h
        exact hq ⟨k', e2⟩
      rw [this]
      exact Nat.zero_le _
  refine ⟨?_, hmax⟩
  obtain ⟨c, hc⟩ := List.exists_mem_of_ne_nil _ hne
  obtain ⟨k, q, -, -, e3⟩ := hval c hc
  have h4 := hmax q
  have h5 : 0 < (S.filter fun c => decide (f.getStr c = some q)).length :=
    List.length_pos_of_mem (List.mem_filter.2 ⟨hc, by simpa using e3⟩)
  obtain ⟨d, hd⟩ := List.exists_mem_of_length_pos (Nat.lt_of_lt_of_le h5 h4)
  obtain ⟨hd1, hd2⟩ := List.mem_filter.1 hd
  exact ⟨d, hd1, by simpa using hd2⟩

theorem prepared_of {fm : FeatureMatrix K} (hR : fm.Rectangular) (hI : fm.Indexed) {a : GrowArgs}
    (hc : fm.Clean a.target) {F : Feature K} (hF : F ∈ fm.data) (hn : F.name = a.target) (hids : a.target ∉ a.blacklist) :
    ∃ ti b, Prepared fm a F ti b := by
  have hM := hR.matrixOk hI hc.names
  obtain ⟨ti, b, h1, h2, h3, h4⟩ := c93_candidates_partial fm hI hM.named a.blacklist a.target a.block a.incl ⟨F, hF, hn⟩
  have hmap : fm.map a.target = some ti := by
    unfold chooseFeatures at h1
    obtain ⟨b1, -, h1⟩ := Option.bind_eq_some_iff.1 h1
    obtain ⟨t1, e, h1⟩ := Option.bind_eq_some_iff.1 h1
    obtain ⟨b2, -, h1⟩ := Option.bind_eq_some_iff.1 h1
    obtain ⟨b3, -, h1⟩ := Option.bind_eq_some_iff.1 h1
    cases h1
    exact e
  obtain ⟨j, hj⟩ := List.mem_iff_getElem?.1 hF
  have hji := hM.named j F hj
  rw [hn, hmap, Option.some.injEq] at hji
  subst hji
  have hcl : (candidates fm ti b.marks).length = (allowedFeatures fm a.blacklist a.target a.block a.incl).length := by
    unfold allowedFeatures
    rw [← count_range]
    refine List.Perm.length_eq ?_
    rw [List.perm_ext_iff_of_nodup (h3.imp fun h => Nat.ne_of_lt h) (List.nodup_range.filter _)]
    intro i
    rw [h2 i, List.mem_filter, List.mem_range]
    constructor
    · rintro ⟨f, e, h⟩
      exact ⟨(List.getElem?_eq_some_iff.1 e).1, by rw [e]; simpa using h⟩
    · rintro ⟨hl, h⟩
      exact ⟨_, List.getElem?_eq_getElem hl, by rw [List.getElem?_eq_getElem hl] at h; simpa using h⟩
  refine ⟨ti, b, h1, hj, ?_, hcl, ?_, ?_, hR.lengths F hF, hM, ?_⟩
  · rw [h4 hids, hcl]
    rfl
  · intro i hi
    obtain ⟨f, e, -⟩ := (h2 i).1 hi
    exact (List.getElem?_eq_some_iff.1 e).1
  · unfold FeatureMatrix.allCases
    cases hd : fm.data with
    | nil => rw [hd] at hF; cases hF
    | cons g gs =>
      rw [← hR.lengths g (by rw [hd]; exact List.mem_cons_self)]
      rfl
  · intro f hf
    refine ⟨hM.valid f hf, hM.sound f hf, ?_⟩
    cases f with
    | num f =>
      intro c hcm
      obtain ⟨h5, h6⟩ := List.mem_filter.1 hcm
      have h7 := (hM.valid _ hf c h5).2
      obtain ⟨y, e⟩ := hc.finite f hf c _ (by simpa [Feature.isMissing] using h6) (List.getElem?_eq_getElem h7)
      exact ⟨y, by rw [List.getElem?_eq_getElem h7, e]⟩
    | cat f =>
      intro c hcm
      obtain ⟨h5, h6⟩ := List.mem_filter.1 hcm
      obtain ⟨-, h7, h8⟩ := hM.valid _ hf c h5
      exact ⟨_, List.getElem?_eq_getElem h7, h8 _ (by simpa [Feature.isMissing] using h6) (List.getElem?_eq_getElem h7)⟩

theorem bagging_of {f : CatFeature}
    (hocc : ∀ k < f.cm.back.length, ∃ i : Nat, f.missing[i]? = some false ∧ f.catData[i]? = some k) {i : Nat} (hi : f.missing[i]? = some false) (hin : f.InRange f.cm.nCats (List.range f.missing.length))
    (hcons : f.Consistent) (a : GrowArgs) :
    ∃ how, a.bagging f = some how ∧ how.Fit f.missing ∧ how.isNobag = a.nobag ∧
      (how = .plain → a.nobag = false ∧ a.balance = false) := by
  have hil := (List.getElem?_eq_some_iff.1 hi).1
  have hK : f.Known := ⟨hcons.lengths.symm, fun i k hk => by
    have hlt := (List.getElem?_eq_some_iff.1 hk).1
    obtain ⟨k', e1, e2⟩ := hin i (List.mem_range.2 (by rw [← hcons.lengths]; exact hlt))
    rw [hk] at e1
    cases e1
    exact e2⟩
  unfold GrowArgs.bagging
  cases hb : a.balance with
  | false =>
    cases hn : a.nobag with
    | false => exact ⟨.plain, rfl, Nat.lt_of_le_of_lt (Nat.zero_le _) hil, rfl, fun _ => ⟨rfl, rfl⟩⟩
    | true => exact ⟨.nobag, rfl, trivial, rfl, nofun⟩
  | true =>
    have he := newBalancedSampler_eq f hK
    cases hn : a.nobag with
    | true =>
      refine ⟨.nobag, ?_, trivial, rfl, nofun⟩
      rw [he]
      rfl
    | false =>
      refine ⟨.balanced ((List.range f.cm.nCats).map f.classCases), ?_, ⟨f, hK, rfl, he, ?_, fun k hk h0 => ?_⟩, rfl, nofun⟩
      · rw [he]
        rfl
      · have hd := List.getElem?_eq_getElem (l := f.catData) (i := i) (by rw [hcons.lengths]; exact hil)
        exact Nat.lt_of_le_of_lt (Nat.zero_le _) (hcons.valid i _ hi hd)
      · obtain ⟨j, e1, e2⟩ := hocc k hk
        have : j ∈ f.classCases k := List.mem_filter.2 ⟨List.mem_range.2 (List.getElem?_eq_some_iff.1 e2).1, by simp [e1, e2]⟩
        rw [h0] at this
        cases this

theorem class_ready_full [FloorRing K] {fm : FeatureMatrix K} (hR : fm.Rectangular)
    (hfull : ∀ g ∈ fm.data, ∀ i, g.isMissing i ≠ some true) {a : GrowArgs}
    (hc : fm.Clean a.target) {f : CatFeature} (hf : .cat f ∈ fm.data) (hn : f.name = a.target)
    (hocc : ∀ k < f.cm.back.length, ∃ i : Nat, f.missing[i]? = some false ∧ f.catData[i]? = some k) {ti : Nat} {b : Blacklist}
    (hP : Prepared fm a (.cat f) ti b) {m l s : Nat} (hm : m ≤ (allowedFeatures fm a.blacklist a.target a.block a.incl).length)
    (hl : 1 ≤ l) {order : List Nat → List Nat} (horder : ∀ bag, (order bag).Perm bag) (draws : Nat) (log : XF K → XF K) :
    ∃ how, a.bagging f = some how ∧ how.isNobag = a.nobag ∧ (how = .plain → a.nobag = false ∧ a.balance = false) ∧
    ∃ (L : TargetLaws (a.classRun log fm f how m l s draws order).T (a.classRun log fm f how m l s draws order).all)
      (good : CatFeature → Prop),
      (a.classRun log fm f how m l s draws order).Ok L good (candidates fm ti b.marks) ∧ L.Ok (newAllocs f.cm.nCats) := by
  obtain ⟨i, hi⟩ := hc.known _ hf hn
  have hi : f.missing[i]? = some false := hi
  have hcons : f.Consistent := hR.consistent _ hf
  have hz : ∀ i, f.missing[i]? ≠ some true := fun i => hfull _ hf i
  have hlen : f.missing.length = fm.caseLabels.length := hP.length
  have hil := (List.getElem?_eq_some_iff.1 hi).1
  have hin : f.InRange f.cm.nCats (List.range f.missing.length) := by
    intro c hcm
    have hcl : c < f.missing.length := List.mem_range.1 hcm
    have hd : f.catData[c]? = some (f.catData[c]'(by rw [hcons.lengths]; exact hcl)) := List.getElem?_eq_getElem _
    refine ⟨_, hd, ?_⟩
    cases hmc : f.missing[c]'hcl with
    | false => exact hcons.valid c _ (by rw [List.getElem?_eq_getElem hcl, hmc]) hd
    | true =>
      exact absurd (by rw [List.getElem?_eq_getElem hcl, hmc]) (hz c)
  obtain ⟨how, hb1, hb2, hb3, hb4⟩ := bagging_of hocc hi hin hcons a
  have hC := catContrast_ok (K := K) f f.cm.nCats _ hin hcons.lengths.symm (if a.entropy then entropyFromCounts log else giniFromCounts)
  refine ⟨how, hb1, hb3, hb4, countLaws f (if a.entropy then entropyFromCounts log else giniFromCounts) f.cm.nCats _ hin,
    fun g => g.InRange f.cm.nCats (List.range f.missing.length) ∧ g.missing.length = g.catData.length ∧ g.catData.length = f.catData.length,
    ⟨?_, ?_, ?_, hb2, horder⟩, ?_⟩
  · show fm.allCases = some (List.range f.missing.length)
    rw [hlen]
    exact hP.cases
  · show MatrixOk fm (List.range f.missing.length)
    rw [hlen]
    exact hP.matrix
  · exact
    { feats := fun g hg => by
        show FeatOk g (List.range f.missing.length)
        rw [hlen]
        exact hP.feats g hg
      total3 := fun _ => countLaws_total3 _ _ _ _ hin
      contrast := fun _ => hC
      start := hC.start
      leafSize := hl
      exist := hP.exist
      mTry := by rw [hP.cans]; exact hm
      oobs := by simp }
  · refine ⟨?_, ?_, ?_⟩ <;> simp [newAllocs]

theorem num_ready_full [FloorRing K] {nt : NumText K} {fm : FeatureMatrix K} (hR : fm.Rectangular)
    (hfull : ∀ g ∈ fm.data, ∀ i, g.isMissing i ≠ some true) {a : GrowArgs}
    (hc : fm.Clean a.target) {f : NumFeature K} (hf : .num f ∈ fm.data) (hn : f.name = a.target) {ti : Nat} {b : Blacklist}
    (hP : Prepared fm a (.num f) ti b) {m l s : Nat} (hm : m ≤ (allowedFeatures fm a.blacklist a.target a.block a.incl).length)
    (hl : 1 ≤ l) {order : List Nat → List Nat} (horder : ∀ bag, (order bag).Perm bag) (draws : Nat) :
    f.Finite (List.range f.missing.length) ∧
    ∃ (L : TargetLaws (a.numRun nt fm f m l s draws order).T (a.numRun nt fm f m l s draws order).all) (good : NumFeature K → Prop),
      (a.numRun nt fm f m l s draws order).Ok L good (candidates fm ti b.marks) ∧ L.Ok (newAllocs 0) := by
  obtain ⟨i, hi⟩ := hc.known _ hf hn
  have hi : f.missing[i]? = some false := hi
  have hcons : f.Consistent := hR.consistent _ hf
  have hz : ∀ i, f.missing[i]? ≠ some true := fun i => hfull _ hf i
  have hlen : f.missing.length = fm.caseLabels.length := hP.length
  have hil := (List.getElem?_eq_some_iff.1 hi).1
  have hfin : f.Finite (List.range f.missing.length) := by
    intro c hcm
    have hcl : c < f.missing.length := List.mem_range.1 hcm
    have hd : f.numData[c]? = some (f.numData[c]'(by rw [hcons.lengths]; exact hcl)) := List.getElem?_eq_getElem _
    cases hmc : f.missing[c]'hcl with
    | false =>
      obtain ⟨y, hy⟩ := hc.finite f hf c _ (by rw [List.getElem?_eq_getElem hcl, hmc]) hd
      exact ⟨y, by rw [hd, hy]⟩
    | true => exact absurd (by rw [List.getElem?_eq_getElem hcl, hmc]) (hz c)
  obtain ⟨L, hL, hT⟩ := num_laws f _ hfin (fun c hcm => List.mem_range.1 hcm) hcons.lengths a.l1
  have hC := numContrast_any f _ hfin hcons.lengths.symm L hL
  refine ⟨hfin, L, fun g => g.Finite (List.range f.missing.length) ∧ g.missing.length = g.numData.length, ⟨?_, ?_, ?_, ?_, horder⟩, by rw [hL]; trivial⟩
  · show fm.allCases = some (List.range f.missing.length)
    rw [hlen]
    exact hP.cases
  · show MatrixOk fm (List.range f.missing.length)
    rw [hlen]
    exact hP.matrix
  · exact
    { feats := fun g hg => by
        show FeatOk g (List.range f.missing.length)
        rw [hlen]
        exact hP.feats g hg
      total3 := fun _ => hT
      contrast := fun _ => hC
      start := hC.start
      leafSize := hl
      exist := hP.exist
      mTry := by rw [hP.cans]; exact hm
      oobs := by simp }
  · show (if a.nobag then Bagging.nobag else .plain).Fit f.missing
    split
    · trivial
    · exact Nat.lt_of_le_of_lt (Nat.zero_le _) hil

/-! ## Filling in -/

/-- What is known of a feature that is filled in, besides its values. -/
def FillSide (f g : Feature K) : Prop :=
  FilledFrom f g ∧ g.Consistent ∧ g.length = f.length ∧ g.name = f.name ∧ (∀ i, g.isMissing i ≠ some true) ∧
  match f, g with
  | .num _, .num g => ∀ (i : Nat) x, g.numData[i]? = some x → ∃ y, x = XF.fin y
  | .cat f, .cat g => g.cm = f.cm ∧ ((∀ k < f.cm.back.length, ∃ i : Nat, f.missing[i]? = some false ∧ f.catData[i]? = some k) →
      ∀ k < g.cm.back.length, ∃ i : Nat, g.missing[i]? = some false ∧ g.catData[i]? = some k)
  | _, _ => False

theorem knownCases_eq (missing : List Bool) : knownOf missing (List.range missing.length) = knownCases missing := by
  unfold knownOf knownCases
  refine List.filter_congr fun c _ => ?_
  rw [beq_eq_decide]

theorem fill_cat (nt : NumText K) {f : CatFeature} (hf : f.Consistent) {i : Nat} (hi : f.missing[i]? = some false) :
    ∃ g, Feature.apply nt (.cat (K := K) f) .impute = some g ∧ FillSide (.cat f) g := by
  obtain ⟨g, m, e1, e2, e3, e4, e5, e6, e7, e8, e9, e10, -⟩ := c32_cat f hf (List.mem_of_getElem? hi)
  obtain ⟨g', e11, hg⟩ := hf.impute (.inl (by omega))
  rw [e1] at e11
  cases e11
  have hk : ∀ c ∈ knownCases f.missing, f.missing[c]? = some false := fun c hc => of_decide_eq_true (List.mem_filter.1 hc).2
  have hne : knownCases f.missing ≠ [] := List.ne_nil_of_mem (a := i)
    (List.mem_filter.2 ⟨List.mem_range.2 (List.getElem?_eq_some_iff.1 hi).1, by simp [hi]⟩)
  have hb : f.cm.back[m]? = some (f.cm.back[m]'e3) := List.getElem?_eq_getElem e3
  rw [knownCases_eq] at e2
  refine ⟨.cat g, by simp [Feature.apply, e1], ⟨e10, e7, fun c hc => (e5 c hc).2, _, plurality_most hf hk hne hb e2, fun c hc => ?_⟩, hg, ?_,
    e10, ?_, e9, ?_⟩
  · rw [(e6 c hc).2, hb]
  · show g.missing.length = f.missing.length
    rw [e7, List.length_replicate]
  · intro c hc
    have hc : g.missing[c]? = some true := hc
    rw [e7] at hc
    have := List.mem_of_getElem? hc
    simp at this
  · intro h k hkl
    rw [e9] at hkl
    obtain ⟨c, h1, h2⟩ := h k hkl
    refine ⟨c, ?_, by rw [(e5 c h1).1, h2]⟩
    rw [e7, List.getElem?_replicate, if_pos (List.getElem?_eq_some_iff.1 h1).1]

theorem fill_num (nt : NumText K) {f : NumFeature K} (hf : f.Consistent) {i : Nat} (hi : f.missing[i]? = some false)
    (hfin : ∀ (i : Nat) x, f.missing[i]? = some false → f.numData[i]? = some x → ∃ y, x = XF.fin y) :
    ∃ g, Feature.apply nt (.num f) .impute = some g ∧ FillSide (.num f) g := by
  have hfin' : f.Finite (knownOf f.missing (List.range f.missing.length)) := by
    intro c hc
    have hm := (mem_knownOf.1 hc).2
    have hl : c < f.numData.length := by rw [hf.lengths]; exact (List.getElem?_eq_some_iff.1 hm).1
    obtain ⟨y, hy⟩ := hfin c _ hm (List.getElem?_eq_getElem hl)
    exact ⟨y, by rw [List.getElem?_eq_getElem hl, hy]⟩
  obtain ⟨g, e1, e4, e5, e6, e7, e8, e10, -⟩ := c32_num f hf (List.mem_of_getElem? hi) hfin'
  obtain ⟨g', e11, hg⟩ := hf.impute
  rw [e1] at e11
  cases e11
  rw [knownCases_eq] at e6
  refine ⟨.num g, by simp [Feature.apply, e1], ⟨e10, e7, e5, e6⟩, hg, ?_, e10, ?_, ?_⟩
  · show g.missing.length = f.missing.length
    rw [e7, List.length_replicate]
  · intro c hc
    have hc : g.missing[c]? = some true := hc
    rw [e7] at hc
    have := List.mem_of_getElem? hc
    simp at this
  · intro c x hx
    have hl : c < f.missing.length := by
      have := (List.getElem?_eq_some_iff.1 hx).1
      rw [e4, hf.lengths] at this
      exact this
    cases hm : f.missing[c]'hl with
    | false =>
      have hm : f.missing[c]? = some false := by rw [List.getElem?_eq_getElem hl, hm]
      rw [e5 c hm] at hx
      exact hfin c x hm hx
    | true =>
      rw [e6 c (by rw [List.getElem?_eq_getElem hl, hm])] at hx
      cases hx
      exact ⟨_, rfl⟩

theorem mapM_forall₂ {α β : Type} {F : α → Option β} {R : α → β → Prop} : ∀ {l : List α}, (∀ x ∈ l, ∃ y, F x = some y ∧ R x y) →
    ∃ l', l.mapM F = some l' ∧ List.Forall₂ R l l'
  | [], _ => ⟨[], rfl, .nil⟩
  | x :: l, h => by
    obtain ⟨y, h1, h2⟩ := h x (by simp)
    obtain ⟨l', h3, h4⟩ := mapM_forall₂ (l := l) fun z hz => h z (by simp [hz])
    exact ⟨y :: l', by simp [List.mapM_cons, h1, h3], .cons h2 h4⟩

theorem forall₂_right {α β : Type} {R : α → β → Prop} {l : List α} {l' : List β} (h : List.Forall₂ R l l') {y : β} (hy : y ∈ l') :
    ∃ x ∈ l, R x y := by
  obtain ⟨i, hi⟩ := List.mem_iff_getElem?.1 hy
  obtain ⟨hil, hie⟩ := List.getElem?_eq_some_iff.1 hi
  have := h.get (i := i) (by rw [h.length_eq]; exact hil) hil
  simp only [List.get_eq_getElem, hie] at this
  exact ⟨_, List.getElem_mem _, this⟩

/-- Two tables with the same features by name. -/
structure SameNames (fm fm' : FeatureMatrix K) : Prop where
  map : fm'.map = fm.map
  names : fm'.data.map Feature.name = fm.data.map Feature.name

theorem SameNames.length {fm fm' : FeatureMatrix K} (h : SameNames fm fm') : fm'.data.length = fm.data.length := by
  have := congrArg List.length h.names
  simpa using this

theorem byTest_names (fm : FeatureMatrix K) (ti : Nat) (p : String → Bool) (b : Blacklist) : b.byTest fm ti p =
    (fm.data.map Feature.name).zipIdx.foldlM (fun b x => if ti ≠ x.2 ∧ p x.1 = true then b.mark x.2 else some b) b := by
  unfold Blacklist.byTest
  rw [List.zipIdx_map, List.foldlM_map]
  rfl

theorem SameNames.choose {fm fm' : FeatureMatrix K} (h : SameNames fm fm') (ids : List String) (target : String)
    (block incl : Option (String → Bool)) : chooseFeatures fm' ids target block incl = chooseFeatures fm ids target block incl := by
  unfold chooseFeatures Blacklist.byName
  simp only [byTest_names, h.names, h.map, h.length]

theorem SameNames.allowed {fm fm' : FeatureMatrix K} (h : SameNames fm fm') (ids : List String) (target : String)
    (block incl : Option (String → Bool)) :
    (allowedFeatures fm' ids target block incl).length = (allowedFeatures fm ids target block incl).length := by
  have key : ∀ m : FeatureMatrix K, (allowedFeatures m ids target block incl).length =
      ((m.data.map Feature.name).filter fun n => decide (Allowed ids target block incl n)).length := by
    intro m
    rw [List.filter_map, List.length_map]
    rfl
  rw [key, key, h.names]

/-- Missing values of a parsed table are filled in. -/
theorem filled_table {nt : NumText K} {text : Text} {fm : FeatureMatrix K} (hp : parseAFM nt text = some fm) {target : String}
    (hc : fm.Clean target) (hk : ∀ f ∈ fm.data, ∃ i, f.isMissing i = some false) :
    ∃ fm', fm.imputeMissing nt = some fm' ∧ fm.Filled fm' ∧ SameNames fm fm' ∧ fm'.Rectangular ∧ fm'.Indexed ∧ fm'.Clean target ∧
      (∀ g ∈ fm'.data, ∀ i, g.isMissing i ≠ some true) ∧
      (∀ f, .cat f ∈ fm'.data → ∀ k < f.cm.back.length, ∃ i : Nat, f.missing[i]? = some false ∧ f.catData[i]? = some k) ∧
      List.Forall₂ FillSide fm.data fm'.data := by
  obtain ⟨hR, hI⟩ := c139_afm nt text fm hp
  obtain ⟨data, h1, h2⟩ := mapM_forall₂ (F := fun f : Feature K => f.apply nt .impute) (R := FillSide) (l := fm.data) (by
    intro f hf
    obtain ⟨i, hi⟩ := hk f hf
    cases f with
    | num f => exact fill_num nt (hR.consistent _ hf) hi (hc.finite f hf)
    | cat f => exact fill_cat nt (hR.consistent _ hf) hi)
  have hnames : data.map Feature.name = fm.data.map Feature.name := by
    clear h1 hk hc hI hR hp
    generalize fm.data = l at h2 ⊢
    induction h2 with
    | nil => rfl
    | cons h _ ih => rw [List.map_cons, List.map_cons, ih, h.2.2.2.1]
  have hsn : SameNames fm { fm with data := data } := ⟨rfl, hnames⟩
  refine ⟨{ fm with data := data }, by unfold FeatureMatrix.imputeMissing; rw [h1]; rfl, ⟨rfl, h2.imp fun _ _ h => h.1⟩, hsn,
    ⟨fun g hg => ?_, fun g hg => ?_⟩, ⟨fun n i hn => ?_, fun g hg => ?_⟩, ⟨?_, fun g hg i x _ hx => ?_, fun g hg => ?_, fun g hg hn => ?_⟩,
    fun g hg => ?_, fun g hg => ?_, h2⟩
  · obtain ⟨f, -, h⟩ := forall₂_right h2 hg
    exact h.2.1
  · obtain ⟨f, hf, h⟩ := forall₂_right h2 hg
    rw [h.2.2.1]
    exact hR.lengths f hf
  · obtain ⟨f, hf, hfn⟩ := hI.sound n i hn
    have : (data.map Feature.name)[i]? = some n := by rw [hnames, List.getElem?_map, hf, ← hfn]; rfl
    rw [List.getElem?_map] at this
    obtain ⟨g, hg, hgn⟩ := Option.map_eq_some_iff.1 this
    exact ⟨g, hg, hgn⟩
  · obtain ⟨f, hf, h⟩ := forall₂_right h2 hg
    rw [h.2.2.2.1]
    exact hI.complete f hf
  · show (data.map Feature.name).Nodup
    rw [hnames]
    exact hc.names
  · obtain ⟨f, -, h⟩ := forall₂_right h2 hg
    cases f with
    | num f => exact h.2.2.2.2.2 i x hx
    | cat f => exact h.1.elim
  · obtain ⟨f, hf, h⟩ := forall₂_right h2 hg
    have ht := hc.tidy f hf
    have hn := h.2.2.2.1
    cases f with
    | num f =>
      cases g with
      | num g => show Plain g.name.toList; rw [show g.name = f.name from hn]; exact ht
      | cat g => exact h.1.elim
    | cat f =>
      cases g with
      | num g => exact h.1.elim
      | cat g =>
        show Plain g.name.toList ∧ _
        rw [show g.name = f.name from hn, show g.cm = f.cm from h.2.2.2.2.2.1]
        exact ht
  · obtain ⟨f, hf, h⟩ := forall₂_right h2 hg
    obtain ⟨i, hi⟩ := hk f hf
    have hil : i < f.length := by cases f <;> exact (List.getElem?_eq_some_iff.1 hi).1
    rw [← h.2.2.1] at hil
    refine ⟨i, ?_⟩
    have hno := h.2.2.2.2.1 i
    cases g with
    | num g =>
      have hil : i < g.missing.length := hil
      have hno : g.missing[i]? ≠ some true := hno
      show g.missing[i]? = some false
      rw [List.getElem?_eq_getElem hil] at hno ⊢
      simpa using hno
    | cat g =>
      have hil : i < g.missing.length := hil
      have hno : g.missing[i]? ≠ some true := hno
      show g.missing[i]? = some false
      rw [List.getElem?_eq_getElem hil] at hno ⊢
      simpa using hno
  · obtain ⟨f, -, h⟩ := forall₂_right h2 hg
    exact h.2.2.2.2.1
  · obtain ⟨f, hf, h⟩ := forall₂_right h2 hg
    cases f with
    | num f => exact h.1.elim
    | cat f => exact h.2.2.2.2.2.2 (parsed_occurs hp hf)

end CloudForest
