import Verif.Model.ShuffleCommand
import Verif.Spec.ShuffleCommand
import Verif.Lemmas.ImputeCommand
import Verif.Lemmas.Ace3

/-!
Tables in which values are moved, and growing from them.
-/

set_option linter.unusedSectionVars false

namespace CloudForest
variable {K : Type} [Field K] [LinearOrder K] [IsStrictOrderedRing K]

theorem Rearranged.consistent {f g : Feature K} (h : f.Consistent) (hr : Rearranged f g) : g.Consistent := by
  cases f with
  | cat f =>
    cases g with
    | num g => exact hr.elim
    | cat g =>
      obtain ⟨r1, r2, r3⟩ := hr
      have h1 : f.Consistent := h
      obtain ⟨p1, p2⟩ := zip_perms r1 h1.lengths r3
      have hcm : g.cm = f.cm := by rw [r2]
      have hhm : g.hasMissing = f.hasMissing := by rw [r2]
      refine ⟨r3, by rw [hcm]; exact h1.map, fun i k e1 e2 => ?_, fun i e => ?_⟩
      · obtain ⟨j, j1, j2⟩ := getElem?_of_mem_zip (r1.mem_iff.1 (mem_zip_getElem? e1 e2))
        rw [hcm]
        exact h1.valid j k j1 j2
      · obtain ⟨j, j1⟩ := List.mem_iff_getElem?.1 (p1.mem_iff.1 (List.mem_of_getElem? e))
        rw [hhm]
        exact h1.missing j j1
  | num f =>
    cases g with
    | cat g => exact hr.elim
    | num g =>
      obtain ⟨r1, r2, r3⟩ := hr
      have h1 : f.Consistent := h
      obtain ⟨p1, p2⟩ := zip_perms r1 h1.lengths r3
      have hhm : g.hasMissing = f.hasMissing := by rw [r2]
      refine ⟨r3, fun i e => ?_⟩
      obtain ⟨j, j1⟩ := List.mem_iff_getElem?.1 (p1.mem_iff.1 (List.mem_of_getElem? e))
      rw [hhm]
      exact h1.missing j j1

theorem Rearranged.marks {f g : Feature K} (h : f.Consistent) (hr : Rearranged f g) : match f, g with
    | .cat f, .cat g => g.missing.Perm f.missing ∧ g.cm = f.cm ∧ g.name = f.name
    | .num f, .num g => g.missing.Perm f.missing ∧ g.name = f.name
    | _, _ => False := by
  cases f with
  | cat f =>
    cases g with
    | num g => exact hr.elim
    | cat g =>
      obtain ⟨r1, r2, r3⟩ := hr
      exact ⟨(zip_perms r1 (CatFeature.Consistent.lengths h) r3).1, by rw [r2], by rw [r2]⟩
  | num f =>
    cases g with
    | cat g => exact hr.elim
    | num g =>
      obtain ⟨r1, r2, r3⟩ := hr
      exact ⟨(zip_perms r1 (NumFeature.Consistent.lengths h) r3).1, by rw [r2]⟩

theorem Rearranged.zeroFilled {f g : Feature K} (h : f.ZeroFilled) (hr : Rearranged f g) : g.ZeroFilled := by
  cases f with
  | cat f =>
    cases g with
    | num g => exact hr.elim
    | cat g =>
      obtain ⟨r1, r2, r3⟩ := hr
      refine ⟨r3, fun i e => ?_⟩
      have hl : i < g.catData.length := by rw [r3]; exact (List.getElem?_eq_some_iff.1 e).1
      have hd := List.getElem?_eq_getElem hl
      obtain ⟨j, j1, j2⟩ := getElem?_of_mem_zip (r1.mem_iff.1 (mem_zip_getElem? e hd))
      rw [h.2 j j1] at j2
      rw [hd, ← j2]
  | num f =>
    cases g with
    | cat g => exact hr.elim
    | num g =>
      obtain ⟨r1, r2, r3⟩ := hr
      refine ⟨r3, fun i e => ?_⟩
      have hl : i < g.numData.length := by rw [r3]; exact (List.getElem?_eq_some_iff.1 e).1
      have hd := List.getElem?_eq_getElem hl
      obtain ⟨j, j1, j2⟩ := getElem?_of_mem_zip (r1.mem_iff.1 (mem_zip_getElem? e hd))
      rw [h.2 j j1] at j2
      rw [hd, ← j2]

theorem strings_zip (f : CatFeature) (h : f.catData.length = f.missing.length) :
    ((List.range f.missing.length).map fun c => (f.missing[c]?, f.getStr c)) =
      (f.missing.zip f.catData).map fun x => (some x.1, if x.1 then some "NA" else f.cm.back[x.2]?) := by
  refine List.ext_getElem (by simp [h]) fun i h1 h2 => ?_
  have hi : i < f.missing.length := by simpa using h1
  have hd : i < f.catData.length := by omega
  simp only [List.getElem_map, List.getElem_range, List.getElem_zip, CatFeature.getStr, List.getElem?_eq_getElem hi, List.getElem?_eq_getElem hd,
    Option.bind_eq_bind, Option.bind_some]

theorem Rearranged.moved {f g : Feature K} (h : f.Consistent) (hr : Rearranged f g) : MovedFrom f g := by
  have hm := hr.marks h
  cases f with
  | cat f =>
    cases g with
    | num g => exact hr.elim
    | cat g =>
      have h1 : f.Consistent := h
      refine ⟨hm.2.2, hm.1.length_eq, ?_⟩
      rw [strings_zip g hr.2.2, strings_zip f h1.lengths, hm.2.1]
      exact hr.1.map _
  | num f =>
    cases g with
    | cat g => exact hr.elim
    | num g => exact ⟨hm.2, hm.1.length_eq, hr.1⟩

theorem Rearranged.occurs {f g : CatFeature} (hr : Rearranged (K := K) (.cat f) (.cat g))
    (h : ∀ k < f.cm.back.length, ∃ i : Nat, f.missing[i]? = some false ∧ f.catData[i]? = some k) :
    ∀ k < g.cm.back.length, ∃ i : Nat, g.missing[i]? = some false ∧ g.catData[i]? = some k := by
  obtain ⟨r1, r2, r3⟩ := hr
  have hcm : g.cm = f.cm := by rw [r2]
  intro k hk
  rw [hcm] at hk
  obtain ⟨i, h1, h2⟩ := h k hk
  exact getElem?_of_mem_zip (r1.mem_iff.2 (mem_zip_getElem? h1 h2))

theorem Rearranged.finite {f g : NumFeature K} (hr : Rearranged (.num f) (.num g))
    (h : ∀ (i : Nat) x, f.missing[i]? = some false → f.numData[i]? = some x → ∃ y, x = XF.fin y) :
    ∀ (i : Nat) x, g.missing[i]? = some false → g.numData[i]? = some x → ∃ y, x = XF.fin y := by
  obtain ⟨r1, r2, r3⟩ := hr
  intro i x h1 h2
  obtain ⟨j, j1, j2⟩ := getElem?_of_mem_zip (r1.mem_iff.1 (mem_zip_getElem? h1 h2))
  exact h j x j1 j2

/-- Values of a parsed table are moved. -/
theorem moved_table {nt : NumText K} {text : Text} {fm : FeatureMatrix K} (hp : parseAFM nt text = some fm) {target : String}
    (hc : fm.Clean target) {F : Feature K} {ti : Nat} (hF : fm.data[ti]? = some F) (hn : F.name = target) (permute : Bool)
    (re : Option (String → Bool)) (rng : Rng) :
    ∃ fm' rng', prepare nt fm ti false permute re rng = some (fm', rng') ∧ fm.Moved (ToMove target permute re) fm' ∧ SameNames fm fm' ∧
      fm'.Rectangular ∧ fm'.Indexed ∧ fm'.Clean target ∧ (∀ g ∈ fm'.data, g.ZeroFilled) ∧
      (∀ f, .cat f ∈ fm'.data → ∀ k < f.cm.back.length, ∃ i : Nat, f.missing[i]? = some false ∧ f.catData[i]? = some k) ∧
      List.Forall₂ Rearranged fm.data fm'.data := by
  obtain ⟨hR, hI⟩ := c139_afm nt text fm hp
  have hev : ∀ f ∈ fm.data, f.Even := by
    intro f hf
    have := hR.consistent f hf
    cases f with
    | cat f => exact CatFeature.Consistent.lengths this
    | num f => exact NumFeature.Consistent.lengths this
  obtain ⟨fm', rng', e, hmap, hlab, hlen, hfs⟩ := c116_only nt fm hev ti (List.getElem?_eq_some_iff.1 hF).1 permute re rng
  have h2 : List.Forall₂ (fun f g => Rearranged f g ∧ (¬ ToMove target permute re f.name → g = f)) fm.data fm'.data := by
    refine List.forall₂_iff_get.2 ⟨hlen.symm, fun i h1 h2 => ?_⟩
    simp only [List.get_eq_getElem]
    obtain ⟨g, hg, hr, hk⟩ := hfs i _ (List.getElem?_eq_getElem h1)
    rw [List.getElem?_eq_getElem h2, Option.some.injEq] at hg
    subst hg
    refine ⟨hr, fun hno => hk ?_⟩
    rintro (⟨rfl, hpm⟩ | ⟨hne, p, f, hre, hf, hpf⟩)
    · rw [List.getElem?_eq_getElem h1, Option.some.injEq] at hF
      exact hno (.inl ⟨by rw [hF]; exact hn, hpm⟩)
    · rw [List.getElem?_eq_getElem h1, Option.some.injEq] at hf
      refine hno (.inr ⟨fun hnt => hne ?_, p, hre, by rw [hf]; exact hpf⟩)
      have hFl := (List.getElem?_eq_some_iff.1 hF).1
      have hnd := hc.names
      refine (List.Nodup.getElem_inj_iff hnd (hi := by simpa using h1) (hj := by simpa using hFl)).1 ?_
      rw [List.getElem_map, List.getElem_map, hnt, ← hn]
      rw [List.getElem?_eq_getElem hFl, Option.some.injEq] at hF
      rw [hF]
  have h3 : List.Forall₂ Rearranged fm.data fm'.data := h2.imp fun _ _ h => h.1
  have hnames : fm'.data.map Feature.name = fm.data.map Feature.name := by
    clear h2 hfs hlen hmap e hev hF hc hI hR hp
    generalize fm.data = l at h3 ⊢
    generalize fm'.data = l' at h3 ⊢
    induction h3 with
    | nil => rfl
    | cons h _ ih => rw [List.map_cons, List.map_cons, ih, h.name]
  have hmv : fm.Moved (ToMove target permute re) fm' := by
    refine ⟨hlab, List.forall₂_iff_get.2 ⟨hlen.symm, fun i h1 h2' => ?_⟩⟩
    have := (List.forall₂_iff_get.1 h2).2 i h1 h2'
    exact ⟨this.1.moved (hR.consistent _ (List.get_mem _ _)), this.2⟩
  refine ⟨fm', rng', e, hmv, ⟨hmap, hnames⟩,
    ⟨fun g hg => ?_, fun g hg => ?_⟩, ⟨fun n i hn => ?_, fun g hg => ?_⟩, ⟨?_, fun g hg i x h1 hx => ?_, fun g hg => ?_, fun g hg hn => ?_⟩,
    fun g hg => ?_, fun g hg => ?_, h3⟩
  · obtain ⟨f, hf, h⟩ := forall₂_right h3 hg
    exact h.consistent (hR.consistent f hf)
  · obtain ⟨f, hf, h⟩ := forall₂_right h3 hg
    rw [hlab, ← hR.lengths f hf]
    have := h.marks (hR.consistent f hf)
    cases f <;> cases g <;> first | exact this.elim | exact this.1.length_eq
  · rw [hmap] at hn
    obtain ⟨f, hf, hfn⟩ := hI.sound n i hn
    have : (fm'.data.map Feature.name)[i]? = some n := by rw [hnames, List.getElem?_map, hf, ← hfn]; rfl
    rw [List.getElem?_map] at this
    obtain ⟨g, hg, hgn⟩ := Option.map_eq_some_iff.1 this
    exact ⟨g, hg, hgn⟩
  · obtain ⟨f, hf, h⟩ := forall₂_right h3 hg
    rw [hmap, h.name]
    exact hI.complete f hf
  · rw [hnames]
    exact hc.names
  · obtain ⟨f, hf, h⟩ := forall₂_right h3 hg
    cases f with
    | num f => exact h.finite (hc.finite f hf) i x h1 hx
    | cat f => exact h.elim
  · obtain ⟨f, hf, h⟩ := forall₂_right h3 hg
    have ht := hc.tidy f hf
    have := h.marks (hR.consistent f hf)
    cases f with
    | num f =>
      cases g with
      | num g => show Plain g.name.toList; rw [this.2]; exact ht
      | cat g => exact h.elim
    | cat f =>
      cases g with
      | num g => exact h.elim
      | cat g =>
        show Plain g.name.toList ∧ _
        rw [this.2.2, this.2.1]
        exact ht
  · obtain ⟨f, hf, h⟩ := forall₂_right h3 hg
    obtain ⟨i, hi⟩ := hc.known f hf (by rw [← h.name]; exact hn)
    have := h.marks (hR.consistent f hf)
    cases f <;> cases g <;> first | exact this.elim | exact List.mem_iff_getElem?.1 (this.1.mem_iff.2 (List.mem_of_getElem? hi))
  · obtain ⟨f, hf, h⟩ := forall₂_right h3 hg
    exact h.zeroFilled (parsed_zeroFilled hp f hf)
  · obtain ⟨f, hf, h⟩ := forall₂_right h3 hg
    cases f with
    | num f => exact h.elim
    | cat f => exact h.occurs (parsed_occurs hp hf)

/-! ## Growing from such tables -/

theorem class_ready_zero [FloorRing K] {fm : FeatureMatrix K} (hR : fm.Rectangular)
    (hzf : ∀ g ∈ fm.data, g.ZeroFilled) {a : GrowArgs}
    (hc : fm.Clean a.target) {f : CatFeature} (hf : .cat f ∈ fm.data) (hn : f.name = a.target)
    (hocc : ∀ k < f.cm.back.length, ∃ i : Nat, f.missing[i]? = some false ∧ f.catData[i]? = some k) {ti : Nat} {b : Blacklist}
    (hP : Prepared fm a (.cat f) ti b) {m l s : Nat} (hm : m ≤ (allowedFeatures fm a.blacklist a.target a.block a.incl).length)
    (hl : 1 ≤ l) {order : List Nat → List Nat} (horder : ∀ bag, (order bag).Perm bag) (draws : Nat) (log : XF K → XF K) :
    ∃ how, a.bagging f = some how ∧ how.isNobag = a.nobag ∧ (how = .plain → a.nobag = false ∧ a.balance = false) ∧
    ∃ (L : TargetLaws (a.classRun log fm f how m l s draws order).T (a.classRun log fm f how m l s draws order).all)
      (good : CatFeature → Prop),
      (a.classRun log fm f how m l s draws order).Ok L good (candidates fm ti b.marks) ∧ L.Ok (newAllocs f.cm.nCats) := by
  obtain ⟨i, hi⟩ := hc.known _ hf hn
  have hi : f.missing[i]? = some false := hi
  have hcons : f.Consistent := hR.consistent _ hf
  have hz := hzf _ hf
  have hlen : f.missing.length = fm.caseLabels.length := hP.length
  have hil := (List.getElem?_eq_some_iff.1 hi).1
  have hin : f.InRange f.cm.nCats (List.range f.missing.length) := by
    intro c hcm
    have hcl : c < f.missing.length := List.mem_range.1 hcm
    have hd : f.catData[c]? = some (f.catData[c]'(by rw [hcons.lengths]; exact hcl)) := List.getElem?_eq_getElem _
    refine ⟨_, hd, ?_⟩
    cases hmc : f.missing[c]'hcl with
    | false => exact hcons.valid c _ (by rw [List.getElem?_eq_getElem hcl, hmc]) hd
    | true =>
      have h0 := hz.2 c (by rw [List.getElem?_eq_getElem hcl, hmc])
      rw [hd, Option.some.injEq] at h0
      rw [h0]
      have hdi : f.catData[i]? = some (f.catData[i]'(by rw [hcons.lengths]; exact hil)) := List.getElem?_eq_getElem _
      exact Nat.lt_of_le_of_lt (Nat.zero_le _) (hcons.valid i _ hi hdi)
  obtain ⟨how, hb1, hb2, hb3, hb4⟩ := bagging_of hocc hi hin hcons a
  have hC := catContrast_ok (K := K) f f.cm.nCats _ hin hcons.lengths.symm (if a.entropy then entropyFromCounts log else giniFromCounts)
  refine ⟨how, hb1, hb3, hb4, countLaws f (if a.entropy then entropyFromCounts log else giniFromCounts) f.cm.nCats _ hin,
    fun g => g.InRange f.cm.nCats (List.range f.missing.length) ∧ g.missing.length = g.catData.length ∧ g.catData.length = f.catData.length,
    ⟨?_, ?_, ?_, hb2, horder⟩, ?_⟩
  · show fm.allCases = some (List.range f.missing.length)
    rw [hlen]
    exact hP.cases
  · show MatrixOk fm (List.range f.missing.length)
    rw [hlen]
    exact hP.matrix
  · exact
    { feats := fun g hg => by
        show FeatOk g (List.range f.missing.length)
        rw [hlen]
        exact hP.feats g hg
      total3 := fun _ => countLaws_total3 _ _ _ _ hin
      contrast := fun _ => hC
      start := hC.start
      leafSize := hl
      exist := hP.exist
      mTry := by rw [hP.cans]; exact hm
      oobs := by simp }
  · refine ⟨?_, ?_, ?_⟩ <;> simp [newAllocs]

theorem num_ready_zero [FloorRing K] {nt : NumText K} {fm : FeatureMatrix K} (hR : fm.Rectangular)
    (hzf : ∀ g ∈ fm.data, g.ZeroFilled) {a : GrowArgs}
    (hc : fm.Clean a.target) {f : NumFeature K} (hf : .num f ∈ fm.data) (hn : f.name = a.target) {ti : Nat} {b : Blacklist}
    (hP : Prepared fm a (.num f) ti b) {m l s : Nat} (hm : m ≤ (allowedFeatures fm a.blacklist a.target a.block a.incl).length)
    (hl : 1 ≤ l) {order : List Nat → List Nat} (horder : ∀ bag, (order bag).Perm bag) (draws : Nat) :
    f.Finite (List.range f.missing.length) ∧
    ∃ (L : TargetLaws (a.numRun nt fm f m l s draws order).T (a.numRun nt fm f m l s draws order).all) (good : NumFeature K → Prop),
      (a.numRun nt fm f m l s draws order).Ok L good (candidates fm ti b.marks) ∧ L.Ok (newAllocs 0) := by
  obtain ⟨i, hi⟩ := hc.known _ hf hn
  have hi : f.missing[i]? = some false := hi
  have hcons : f.Consistent := hR.consistent _ hf
  have hz := hzf _ hf
  have hlen : f.missing.length = fm.caseLabels.length := hP.length
  have hil := (List.getElem?_eq_some_iff.1 hi).1
  have hfin : f.Finite (List.range f.missing.length) := by
    intro c hcm
    have hcl : c < f.missing.length := List.mem_range.1 hcm
    have hd : f.numData[c]? = some (f.numData[c]'(by rw [hcons.lengths]; exact hcl)) := List.getElem?_eq_getElem _
    cases hmc : f.missing[c]'hcl with
    | false =>
      obtain ⟨y, hy⟩ := hc.finite f hf c _ (by rw [List.getElem?_eq_getElem hcl, hmc]) hd
      exact ⟨y, by rw [hd, hy]⟩
    | true => exact ⟨0, hz.2 c (by rw [List.getElem?_eq_getElem hcl, hmc])⟩
  obtain ⟨L, hL, hT⟩ := num_laws f _ hfin (fun c hcm => List.mem_range.1 hcm) hcons.lengths a.l1
  have hC := numContrast_any f _ hfin hcons.lengths.symm L hL
  refine ⟨hfin, L, fun g => g.Finite (List.range f.missing.length) ∧ g.missing.length = g.numData.length, ⟨?_, ?_, ?_, ?_, horder⟩, by rw [hL]; trivial⟩
  · show fm.allCases = some (List.range f.missing.length)
    rw [hlen]
    exact hP.cases
  · show MatrixOk fm (List.range f.missing.length)
    rw [hlen]
    exact hP.matrix
  · exact
    { feats := fun g hg => by
        show FeatOk g (List.range f.missing.length)
        rw [hlen]
        exact hP.feats g hg
      total3 := fun _ => hT
      contrast := fun _ => hC
      start := hC.start
      leafSize := hl
      exist := hP.exist
      mTry := by rw [hP.cans]; exact hm
      oobs := by simp }
  · show (if a.nobag then Bagging.nobag else .plain).Fit f.missing
    split
    · trivial
    · exact Nat.lt_of_le_of_lt (Nat.zero_le _) hil

end CloudForest
