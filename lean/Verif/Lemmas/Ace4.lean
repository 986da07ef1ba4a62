import Verif.Lemmas.Ace3
import Verif.Props.Stats
import Verif.Props.Driver
import Verif.Props.Search

/-! # The forests with contrasts and their tests -/

set_option linter.unusedSectionVars false

namespace CloudForest
variable {K : Type} [Field K] [LinearOrder K] [IsStrictOrderedRing K] {τ : Type}

theorem WithContrasts.length {fm fm' : FeatureMatrix K} (h : WithContrasts fm fm') : fm'.data.length = 2 * fm.data.length := by
  obtain ⟨fakes, h1, h2⟩ := h
  rw [h1, List.length_append, ← h2.length_eq]
  omega

theorem candidates_len {fm fm' : FeatureMatrix K} (h : fm.data.length = fm'.data.length) (ti : Nat) (marks : List Bool) :
    candidates fm ti marks = candidates fm' ti marks := by
  unfold candidates
  rw [h]

theorem candidates_nodup (fm : FeatureMatrix K) (ti : Nat) (marks : List Bool) : (candidates fm ti marks).Nodup :=
  List.nodup_range.filter _

/-- A run on features that can have contrasts. -/
structure RunSetup.AceOk (r : RunSetup K τ) (L : TargetLaws r.T r.all) (imp : List Nat → K) (nCats : Nat) : Prop where
  weighted : L.Weighted imp
  ok : L.Ok (newAllocs nCats)
  evaloob : r.o.evaloob = false
  vet : r.o.vet = false
  nTrees : 1 ≤ r.nTrees
  leafSize : 1 ≤ r.o.leafSize
  fit : r.how.Fit r.missing
  order : ∀ bag, (r.order bag).Perm bag
  length : r.missing.length = r.fm.caseLabels.length
  some : r.fm.data ≠ []
  names : (r.fm.data.map Feature.name).Nodup
  suffix : ∀ f ∈ r.fm.data, ∀ g ∈ r.fm.data, f.name ≠ g.name ++ ":SHUFFLED"
  indexed : r.fm.Indexed
  sound : ∀ f ∈ r.fm.data, f.SoundFor r.fm.caseLabels.length

theorem contrasted_ok {r : RunSetup K τ} {L : TargetLaws r.T r.all} {imp : List Nat → K} {nCats : Nat} (hr : r.AceOk L imp nCats) {fm : FeatureMatrix K}
    (h : Contrasted r.fm fm) {ti : Nat} {marks : List Bool} (hm : r.o.mTry ≤ (candidates fm ti marks).length) :
    ({ r with fm := fm } : RunSetup K τ).Ok L (fun _ => True) (candidates fm ti marks) := by
  have hlen := hr.length
  refine ⟨?_, ?_, ⟨?_, ?_, ?_, trivial, hr.leafSize, ?_, hm, by simp⟩, hr.fit, hr.order⟩
  · show fm.allCases = some (List.range r.missing.length)
    rw [hlen]
    unfold FeatureMatrix.allCases
    have : 0 < fm.data.length := by
      rw [h.shape.length]
      have := List.length_pos_iff.2 hr.some
      omega
    rw [List.getElem?_eq_getElem this]
    simp only [Option.bind_eq_bind, Option.bind_some]
    rw [(h.sound _ (List.getElem_mem this)).2.1]
  · show MatrixOk fm (List.range r.missing.length)
    rw [hlen]
    exact h.matrixOk hr.names hr.suffix
  · intro f hf
    show FeatOk f (List.range r.missing.length)
    rw [hlen]
    exact (h.sound f hf).featOk.1
  · intro e; have := hr.evaloob; rw [show r.o.evaloob = true from e] at this; cases this
  · intro e; have := hr.vet; rw [show r.o.vet = true from e] at this; cases this
  · intro i hi
    exact List.mem_range.1 (List.mem_filter.1 hi).1

theorem aceForests_ok {r : RunSetup K τ} {L : TargetLaws r.T r.all} {imp : List Nat → K} {nCats : Nat} (hr : r.AceOk L imp nCats)
    {ti : Nat} {marks : List Bool} {cans : List Nat} (hcans : ∀ fm : FeatureMatrix K, fm.data.length = 2 * r.fm.data.length → candidates fm ti marks = cans)
    (hm : r.o.mTry ≤ cans.length) {last : Bool} {own global shuf : Nat → Rng} :
    ∀ (left k : Nat) (fm fm' : FeatureMatrix K) (xs : List (List (Tree K × List Nat) × List (XF K))), Contrasted r.fm fm →
      r.aceForests ti r.fm.data.length marks (nKnown r.missing) nCats last own global shuf left k fm = some (xs, fm') →
      ∃ fs : List (FeatureMatrix K × List (Tree K × List Nat)), fs.length = left ∧
        (∀ y ∈ fs, WithContrasts r.fm y.1 ∧ y.2.length = r.nTrees ∧ ∀ x ∈ y.2, GrownOn { r with fm := y.1 } cans x) ∧
        xs = fs.map fun y => (y.2, (List.range (2 * r.fm.data.length)).map fun i => .fin (perTree y.1 imp r.nTrees y.2 i)) := by
  intro left
  induction left with
  | zero => intro k fm fm' xs _ h; cases h; exact ⟨[], rfl, by simp, rfl⟩
  | succ left ih =>
    intro k fm fm' xs hC h
    unfold RunSetup.aceForests at h
    simp only [Option.bind_eq_bind] at h
    obtain ⟨⟨ts, sc⟩, hx, h⟩ := Option.bind_eq_some_iff.1 h
    obtain ⟨⟨fm1, rng⟩, hsh, h⟩ := Option.bind_eq_some_iff.1 h
    obtain ⟨⟨ys, fm2⟩, hys, h⟩ := Option.bind_eq_some_iff.1 h
    cases h
    obtain ⟨fs, l1, l2, l3⟩ := ih _ _ _ _ (reshuffle_contrasted hC hsh) hys
    have hok := contrasted_ok hr hC (ti := ti) (marks := marks) (by rw [hcans fm hC.shape.length]; exact hm)
    have hties : ∀ f ∈ fm.data, f.NoNearTies (f.knowns r.all) := by
      intro f hf
      have := (hC.sound f hf).featOk.2
      rw [← hr.length] at this
      exact this
    obtain ⟨k1, k2, k3⟩ := aceForest_ok hok hr.weighted hr.evaloob hr.vet hties hr.nTrees hr.ok hx
    refine ⟨(fm, ts) :: fs, by simp [l1], ?_, ?_⟩
    · intro y hy
      rcases List.mem_cons.1 hy with rfl | hy
      · refine ⟨hC.shape, k1, fun x hx => ?_⟩
        obtain ⟨-, -, e1, e2, st, st', -, e3, -, e4⟩ := k2 x hx
        exact ⟨e1, e2, st, st', by rw [← hcans fm hC.shape.length]; exact e3, e4⟩
      · exact l2 y hy
    · rw [List.map_cons, ← l3, k3, hC.shape.length]

theorem mapM_getElem?_map {α β : Type} (n : Nat) (g : α → Nat → β) {i : Nat} (hi : i < n) : ∀ fs : List α,
    (fs.map fun y => (List.range n).map (g y)).mapM (·[i]?) = some (fs.map fun y => g y i) := by
  intro fs
  induction fs with
  | nil => rfl
  | cons y fs ih =>
    rw [List.map_cons, List.mapM_cons, ih]
    simp [hi]

theorem aceRun_scores [FloorRing K] {nt : NumText K} {F : MathFns K} {r : RunSetup K τ} {L : TargetLaws r.T r.all} {imp : List Nat → K} {nCats : Nat}
    (hr : r.AceOk L imp nCats) {mTry : Text} {ti : Nat} {marks : List Bool} (hti : ti < r.fm.data.length) (hmarks : marks.length = r.fm.data.length)
    (hm : r.o.mTry ≤ (candidates r.fm ti marks).length) {ace : Nat} {cutoff : XF K} {own global shuf : Nat → Rng} {res : AceResult K}
    (h : r.aceRun nt F mTry ti marks (nKnown r.missing) nCats ace cutoff own global shuf = some res) :
    ∃ (cans : List Nat) (fs : List (FeatureMatrix K × List (Tree K × List Nat))),
      (cans.Nodup ∧ ∀ i, i ∈ cans ↔ i < 2 * r.fm.data.length ∧ i % r.fm.data.length ∈ candidates r.fm ti marks) ∧ fs.length = ace ∧
      (∀ y ∈ fs, WithContrasts r.fm y.1 ∧ y.2.length = r.nTrees ∧ ∀ x ∈ y.2, GrownOn { r with fm := y.1 } cans x) ∧
      res.tests.length = r.fm.data.length ∧
      ∀ (i : Nat) (t : XF K × XF K), res.tests[i]? = some t →
        t = ((ttest F (fs.map fun y => .fin (perTree y.1 imp r.nTrees y.2 i)) (fs.map fun y => .fin (perTree y.1 imp r.nTrees y.2 (i + r.fm.data.length)))).p,
          (ttest F (fs.map fun y => .fin (perTree y.1 imp r.nTrees y.2 i)) (fs.map fun y => .fin (perTree y.1 imp r.nTrees y.2 (i + r.fm.data.length)))).am) := by
  obtain ⟨fm', marks', rng', e, -, hl2, hc⟩ := c96_setup r.fm (fun f hf => (hr.sound f hf).even) ti hti marks hmarks (shuf 0)
  have hC : Contrasted r.fm fm' := by
    unfold aceSetup at e
    simp only [Option.bind_eq_bind] at e
    obtain ⟨⟨fm1, rng1⟩, e1, e⟩ := Option.bind_eq_some_iff.1 e
    rw [if_neg (by omega), Option.bind_some] at e
    split at e
    · cases e
      exact contrastAll_contrasted hr.indexed hr.sound e1
    · cases e
  unfold RunSetup.aceRun at h
  simp only [Option.bind_eq_bind, e, Option.bind_some] at h
  obtain ⟨⟨xs, fm2⟩, hxs, h⟩ := Option.bind_eq_some_iff.1 h
  obtain ⟨tests, ht, h⟩ := Option.bind_eq_some_iff.1 h
  have hpos := List.length_pos_iff.2 hr.some
  have hmem : ∀ i, i ∈ candidates fm' ti marks' ↔ i < 2 * r.fm.data.length ∧ i % r.fm.data.length ∈ candidates r.fm ti marks := by
    intro i
    have hlt : i ∈ candidates fm' ti marks' → i < 2 * r.fm.data.length := fun hi => by
      rw [← hl2]; exact List.mem_range.1 (List.mem_filter.1 hi).1
    by_cases h1 : i < r.fm.data.length
    · rw [(hc i h1).2.1, Nat.mod_eq_of_lt h1]
      exact ⟨fun h => ⟨by omega, h⟩, fun h => h.2⟩
    · by_cases h2 : i < 2 * r.fm.data.length
      · have e : i = (i - r.fm.data.length) + r.fm.data.length := by omega
        have h3 := (hc (i - r.fm.data.length) (by omega)).2.2
        rw [← e] at h3
        have h4 : i % r.fm.data.length = i - r.fm.data.length := by
          rw [Nat.mod_eq_sub_mod (by omega), Nat.mod_eq_of_lt (by omega)]
        rw [h3, h4]
        exact ⟨fun h => ⟨h2, h⟩, fun h => h.2⟩
      · exact ⟨fun h => absurd (hlt h) h2, fun h => absurd h.1 h2⟩
  have hm' : r.o.mTry ≤ (candidates fm' ti marks').length := by
    refine hm.trans ?_
    refine List.Subperm.length_le (List.subperm_of_subset (candidates_nodup _ _ _) fun i hi => ?_)
    have hil : i < r.fm.data.length := List.mem_range.1 (List.mem_filter.1 hi).1
    exact (hc i hil).2.1.2 hi
  obtain ⟨fs, f1, f2, f3⟩ := aceForests_ok hr (ti := ti) (marks := marks') (cans := candidates fm' ti marks')
    (fun fm hfm => candidates_len (by rw [hfm, hl2]) _ _) hm' _ _ _ _ _ hC hxs
  obtain ⟨t1, t2⟩ := mapM_some_getElem? ht
  rw [List.length_range] at t1
  have hres : res.tests = tests := by
    simp only at h
    split at h
    · obtain ⟨m, -, h⟩ := Option.bind_eq_some_iff.1 h
      obtain ⟨ts, -, h⟩ := Option.bind_eq_some_iff.1 h
      cases h; rfl
    · obtain ⟨x, -, h⟩ := Option.bind_eq_some_iff.1 h
      cases h; rfl
  refine ⟨_, fs, ⟨candidates_nodup _ _ _, hmem⟩, f1, f2, by rw [hres, t1], ?_⟩
  intro i t hit
  rw [hres] at hit
  have hi : i < r.fm.data.length := by rw [← t1]; exact (List.getElem?_eq_some_iff.1 hit).1
  obtain ⟨t', k1, k2⟩ := t2 i i (List.getElem?_range hi)
  rw [hit] at k2
  cases k2
  unfold aceTest at k1
  have hsc : (xs.map (·.2)) = fs.map fun y => (List.range (2 * r.fm.data.length)).map fun i => XF.fin (perTree y.1 imp r.nTrees y.2 i) := by
    rw [f3, List.map_map]; rfl
  rw [hsc, mapM_getElem?_map _ _ (by omega), mapM_getElem?_map _ _ (by omega)] at k1
  simp only [Option.bind_eq_bind, Option.bind_some, Option.some.injEq] at k1
  exact k1.symm

theorem countLaws_weighted (f : CatFeature) {g : Nat → List Int → XF K} (hg : g = giniFromCounts) (n : Nat) (cases : List Nat) (h : f.InRange n cases) :
    (countLaws f g n cases h).Weighted (f.gini K n) := by
  subst hg
  exact giniLaws_weighted f n cases h

theorem numTarget_weighted (f : NumFeature K) (cases : List Nat) (h : f.Finite cases) : ∀ b : Bool, b = false →
    ∃ L : TargetLaws (if b then l1Target f else sseTarget f) cases, L.Weighted f.sse ∧ ∀ al, L.Ok al := by
  rintro _ rfl
  exact ⟨sseLaws f cases h, sseLaws_weighted f cases h, fun _ => trivial⟩

theorem Contrastable.sound {nt : NumText K} {text : Text} {fm : FeatureMatrix K} (hp : parseAFM nt text = some fm) {target : String}
    (hc : fm.Clean target) (hk : fm.Contrastable) : ∀ f ∈ fm.data, f.SoundFor fm.caseLabels.length := by
  obtain ⟨hR, -⟩ := c139_afm nt text fm hp
  intro f hf
  refine ⟨hR.consistent f hf, hR.lengths f hf, ?_⟩
  cases f with
  | cat f => trivial
  | num f =>
    refine ⟨hk.known f hf, fun x hx => ?_, hk.apart f hf⟩
    obtain ⟨i, hi⟩ := List.mem_iff_getElem?.1 hx
    have hcons : f.Consistent := hR.consistent _ hf
    have hil : i < f.missing.length := by rw [← hcons.lengths]; exact (List.getElem?_eq_some_iff.1 hi).1
    have hm : f.missing[i]? = some false := by
      rw [List.getElem?_eq_getElem hil]
      cases e : f.missing[i] with
      | false => rfl
      | true => exact absurd (e ▸ List.getElem_mem hil) (hk.known f hf)
    exact hc.finite f hf i x hm hi

end CloudForest
