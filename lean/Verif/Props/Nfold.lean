import Verif.Lemmas.Nfold
import Verif.Spec.Feature

/-!
# Property C40: cross-validation folds
-/

namespace CloudForest

/-- **C40, unstratified.** For every number of cases and of folds and every random stream there are
`folds` test folds of `ncases / folds` cases each; they hold existing cases only; no case is twice
in a fold or in two folds; and `ncases % folds`, so at most `folds - 1`, cases are in no fold. -/
theorem c40_unstratified (ncases folds : Nat) (h0 : 0 < folds) (rng : Rng) :
    ∃ fs, nfoldUnstratified ncases folds rng = some fs ∧ fs.length = folds ∧
      (∀ t ∈ fs, t.length = ncases / folds ∧ ∀ c ∈ t, c < ncases) ∧
      (∀ t ∈ fs, t.Nodup) ∧ fs.Pairwise List.Disjoint ∧
      ((List.range ncases).filter fun c => decide (∀ t ∈ fs, c ∉ t)).length = ncases % folds := by
  obtain ⟨cs, hp, e⟩ := nfoldUnstratified_eq ncases folds h0 rng
  have hl := hp.length_eq
  rw [List.length_range] at hl
  have hle : folds * (ncases / folds) ≤ cs.length := by rw [hl]; exact mul_div_le' _ _
  have hnd : cs.Nodup := hp.nodup_iff.2 List.nodup_range
  have hflat := blocks_flat cs (ncases / folds) folds
  have hfn : ((List.range folds).flatMap (blockOf cs (ncases / folds))).Nodup := by
    rw [hflat]; exact hnd.sublist (List.take_sublist _ _)
  have hfn2 := List.nodup_flatMap.1 hfn
  refine ⟨_, e, by simp, ?_, ?_, ?_, ?_⟩
  · intro t ht
    obtain ⟨j, hj, rfl⟩ := List.mem_map.1 ht
    refine ⟨blockOf_length _ folds _ _ hle (List.mem_range.1 hj), fun c hc => ?_⟩
    have : c ∈ cs := (List.drop_subset _ _) (List.take_subset _ _ hc)
    exact List.mem_range.1 (hp.mem_iff.1 this)
  · intro t ht
    obtain ⟨j, hj, rfl⟩ := List.mem_map.1 ht
    exact hfn2.1 j hj
  · rw [List.pairwise_map]
    exact hfn2.2
  · have hm : ∀ c, (∀ t ∈ (List.range folds).map (blockOf cs (ncases / folds)), c ∉ t) ↔
        c ∉ cs.take (folds * (ncases / folds)) := by
      intro c
      rw [← hflat, List.mem_flatMap]
      simp
    have h1 : ((List.range ncases).filter fun c => decide (∀ t ∈ (List.range folds).map
        (blockOf cs (ncases / folds)), c ∉ t)).length =
        (cs.filter fun c => decide (c ∉ cs.take (folds * (ncases / folds)))).length := by
      rw [List.filter_congr (fun c _ => decide_eq_decide.2 (hm c))]
      exact ((hp.symm).filter _).length_eq
    rw [h1]
    have h2 : cs.filter (fun c => decide (c ∉ cs.take (folds * (ncases / folds)))) =
        cs.drop (folds * (ncases / folds)) := by
      generalize folds * (ncases / folds) = m
      have hs : cs.take m ++ cs.drop m = cs := List.take_append_drop _ _
      have hnd' := hs ▸ hnd
      have hdis := (List.nodup_append'.1 hnd').2.2
      conv_lhs => arg 2; rw [← hs]
      rw [List.filter_append]
      rw [List.filter_eq_nil_iff.2 (by intro c hc; simpa using hc), List.nil_append,
        List.filter_eq_self]
      intro c hc
      simpa using fun h => hdis h hc
    rw [h2, List.length_drop, hl]
    have := Nat.div_add_mod ncases folds
    omega

/-- **C40, stratified.** Every test fold holds the same number of cases of each class, the size of
the class divided by the number of folds; only cases with a known class are in a fold; no case
is twice in a fold or in two folds; and of each class the remainder of that division, so at most
`folds - 1` cases, is in no fold. -/
theorem c40_stratified (f : CatFeature) (hf : f.Known) (folds : Nat) (h0 : 0 < folds) (rng : Rng) :
    ∃ fs, nfoldStratified f folds rng = some fs ∧ fs.length = folds ∧
      (∀ t ∈ fs, ∀ c ∈ t, c < f.catData.length ∧ f.missing[c]? = some false) ∧
      (∀ t ∈ fs, ∀ k < f.cm.nCats, (t.filter fun c => decide (f.catData[c]? = some k)).length =
        (f.classCases k).length / folds) ∧
      (∃ size, ∀ t ∈ fs, t.length = size) ∧
      (∀ t ∈ fs, t.Nodup) ∧ fs.Pairwise List.Disjoint ∧
      ∀ k < f.cm.nCats, ((f.classCases k).filter fun c => decide (∀ t ∈ fs, c ∉ t)).length =
        (f.classCases k).length % folds := by
  obtain ⟨ds, hds, e⟩ := nfoldStratified_eq f hf folds h0 rng
  obtain ⟨D, rfl, hD⟩ := forall2_range hds
  simp only [List.flatMap_map] at e
  have hsub : ∀ (j : Nat) (l : List Nat), (blockOf l (l.length / folds) j).Sublist l := fun j l =>
    (List.take_sublist _ _).trans (List.drop_sublist _ _)
  have hflat := strat_flat ((List.range f.cm.nCats).map D) folds
  simp only [List.flatMap_map] at hflat
  have hfn := (hflat.nodup_iff).2
    (classes_nodup f _ D hD (fun d => d.take (folds * (d.length / folds)))
      (fun l => List.take_sublist _ _))
  have hfn2 := List.nodup_flatMap.1 hfn
  refine ⟨_, e, by simp, ?_, ?_, ?_, ?_, ?_, ?_⟩
  · intro t ht c hc
    obtain ⟨j, hj, rfl⟩ := List.mem_map.1 ht
    obtain ⟨i, hi, hci⟩ := List.mem_flatMap.1 hc
    have := CatFeature.mem_classCases.1
      ((hD i (List.mem_range.1 hi)).mem_iff.1 ((hsub j _).subset hci))
    exact ⟨(List.getElem?_eq_some_iff.1 this.2).1, this.1⟩
  · intro t ht k hk
    obtain ⟨j, hj, rfl⟩ := List.mem_map.1 ht
    rw [filter_classes f _ k hk D hD (fun d => blockOf d (d.length / folds) j)
      (fun l => (hsub j l).subset)]
    rw [blockOf_length _ folds _ _ (mul_div_le' _ _) (List.mem_range.1 hj), (hD k hk).length_eq]
  · refine ⟨((List.range f.cm.nCats).map fun k => (D k).length / folds).sum, fun t ht => ?_⟩
    obtain ⟨j, hj, rfl⟩ := List.mem_map.1 ht
    rw [List.length_flatMap]
    congr 1
    apply List.map_congr_left
    intro k _
    exact blockOf_length _ folds _ _ (mul_div_le' _ _) (List.mem_range.1 hj)
  · intro t ht
    obtain ⟨j, hj, rfl⟩ := List.mem_map.1 ht
    exact hfn2.1 j hj
  · rw [List.pairwise_map]
    exact hfn2.2
  · intro k hk
    have hm : ∀ c ∈ f.classCases k, ((∀ t ∈ (List.range folds).map fun j =>
        (List.range f.cm.nCats).flatMap fun i => blockOf (D i) ((D i).length / folds) j, c ∉ t) ↔
        c ∉ (D k).take (folds * ((D k).length / folds))) := by
      intro c hc
      have h1 : (∀ t ∈ (List.range folds).map fun j =>
        (List.range f.cm.nCats).flatMap fun i => blockOf (D i) ((D i).length / folds) j, c ∉ t) ↔
          c ∉ (List.range folds).flatMap fun j =>
            (List.range f.cm.nCats).flatMap fun i => blockOf (D i) ((D i).length / folds) j := by
        rw [List.mem_flatMap]; simp
      rw [h1, hflat.mem_iff]
      rw [← filter_classes f _ k hk D hD (fun d => d.take (folds * (d.length / folds)))
        (fun l => List.take_subset _ _), List.mem_filter]
      simp [(CatFeature.mem_classCases.1 hc).2]
    rw [List.filter_congr (fun c hc => decide_eq_decide.2 (hm c hc))]
    rw [← ((hD k hk).filter _).length_eq]
    have hnd : (D k).Nodup := (hD k hk).nodup_iff.2 (List.Nodup.filter _ List.nodup_range)
    have h2 : (D k).filter (fun c => decide (c ∉ (D k).take (folds * ((D k).length / folds)))) =
        (D k).drop (folds * ((D k).length / folds)) := by
      generalize folds * ((D k).length / folds) = m
      have hs : (D k).take m ++ (D k).drop m = D k := List.take_append_drop _ _
      have hnd' := hs ▸ hnd
      have hdis := (List.nodup_append'.1 hnd').2.2
      conv_lhs => arg 2; rw [← hs]
      rw [List.filter_append]
      rw [List.filter_eq_nil_iff.2 (by intro c hc; simpa using hc), List.nil_append,
        List.filter_eq_self]
      intro c hc
      simpa using fun h => hdis h hc
    rw [h2, List.length_drop, (hD k hk).length_eq]
    have := Nat.div_add_mod (f.classCases k).length folds
    omega

/-- **C40, training sets.** Given disjoint folds, the training set of fold `i` is the cases of
the other folds, each once: it has no case of the test fold and every case of the others. -/
theorem c40_train (fs : List (List Nat)) (hn : ∀ t ∈ fs, t.Nodup) (hd : fs.Pairwise List.Disjoint)
    (i : Nat) (test : List Nat) (hi : fs[i]? = some test) :
    ∃ tr, nfoldTrain fs.length fs i = some tr ∧ tr.Nodup ∧
      ∀ c, c ∈ tr ↔ (∃ t ∈ fs, c ∈ t) ∧ c ∉ test := by
  obtain ⟨tr, e, htr⟩ := nfoldTrain_eq fs i
  have hpw : ∀ a b (ha : a < fs.length) (hb : b < fs.length), a ≠ b →
      (fs[a]).Disjoint fs[b] := by
    intro a b ha hb hne
    rcases Nat.lt_or_gt_of_ne hne with h | h
    · exact List.pairwise_iff_getElem.1 hd a b ha hb h
    · exact fun c h1 h2 => List.pairwise_iff_getElem.1 hd b a hb ha h h2 h1
  have hg : ∀ j, j < fs.length → fs.getD j [] = fs[j]! := by
    intro j hj; simp [List.getD_eq_getElem?_getD, hj]
  refine ⟨tr, e, ?_, ?_⟩
  · rw [htr, List.nodup_flatMap]
    constructor
    · intro j hj
      have hj := List.mem_range.1 hj
      by_cases h : i ≠ j
      · rw [if_pos h]
        simpa [List.getD_eq_getElem?_getD, hj] using hn _ (List.getElem_mem hj)
      · rw [if_neg h]; exact List.nodup_nil
    · refine List.Pairwise.imp_of_mem ?_ (List.nodup_range (n := fs.length))
      intro a b ha hb hne c hca hcb
      have ha := List.mem_range.1 ha
      have hb := List.mem_range.1 hb
      simp only at hca hcb
      by_cases h1 : i ≠ a
      · by_cases h2 : i ≠ b
        · rw [if_pos h1] at hca
          rw [if_pos h2] at hcb
          simp only [List.getD_eq_getElem?_getD, List.getElem?_eq_getElem ha,
            List.getElem?_eq_getElem hb, Option.getD_some] at hca hcb
          exact hpw a b ha hb hne hca hcb
        · rw [if_neg h2] at hcb; simp at hcb
      · rw [if_neg h1] at hca; simp at hca
  · intro c
    obtain ⟨hil, hit⟩ := List.getElem?_eq_some_iff.1 hi
    rw [htr, List.mem_flatMap]
    constructor
    · rintro ⟨j, hj, hc⟩
      have hj := List.mem_range.1 hj
      by_cases h : i ≠ j
      · rw [if_pos h] at hc
        simp only [List.getD_eq_getElem?_getD, List.getElem?_eq_getElem hj, Option.getD_some] at hc
        refine ⟨⟨_, List.getElem_mem hj, hc⟩, fun hct => ?_⟩
        subst hit
        exact hpw i j hil hj h hct hc
      · rw [if_neg h] at hc; simp at hc
    · rintro ⟨⟨t, ht, hc⟩, hnt⟩
      obtain ⟨j, hj, rfl⟩ := List.getElem_of_mem ht
      refine ⟨j, List.mem_range.2 hj, ?_⟩
      have h : i ≠ j := by
        rintro rfl
        exact hnt (hit ▸ hc)
      rw [if_pos h]
      simpa [List.getD_eq_getElem?_getD, hj] using hc

/-- **C40, the training set as a complement.** When the number of folds divides the number of
cases, the training set of an unstratified fold is exactly the cases that are not in its test
fold.

Missing from the full property: it is false when there is a remainder, `c40_leftover`, and for
cases without a class in stratified folds, `c40_unclassed`. -/
theorem c40_complement_partial (ncases folds : Nat) (h0 : 0 < folds) (hdvd : folds ∣ ncases)
    (rng : Rng) (i : Nat) (hi : i < folds) :
    ∃ fs test tr, nfoldUnstratified ncases folds rng = some fs ∧ fs[i]? = some test ∧
      nfoldTrain folds fs i = some tr ∧ tr.Nodup ∧ ∀ c, c ∈ tr ↔ c < ncases ∧ c ∉ test := by
  obtain ⟨fs, e, hl, hlen, hn, hd, hc⟩ := c40_unstratified ncases folds h0 rng
  have hil : i < fs.length := by omega
  obtain ⟨tr, et, hnd, hm⟩ := c40_train fs hn hd i fs[i] (List.getElem?_eq_getElem hil)
  refine ⟨fs, fs[i], tr, e, List.getElem?_eq_getElem hil, hl ▸ et, hnd, fun c => ?_⟩
  rw [hm]
  constructor
  · rintro ⟨⟨t, ht, hct⟩, hnt⟩
    exact ⟨(hlen t ht).2 c hct, hnt⟩
  · rintro ⟨hlt, hnt⟩
    refine ⟨?_, hnt⟩
    rw [Nat.mod_eq_zero_of_dvd hdvd, List.length_eq_zero_iff, List.filter_eq_nil_iff] at hc
    have := hc c (List.mem_range.2 hlt)
    simpa using this

/-- **C40 is false with a remainder.** Whenever the number of folds does not divide the number of
cases, some case is neither in the test nor in the training set of any fold. -/
theorem c40_leftover (ncases folds : Nat) (h0 : 0 < folds) (hdvd : ¬ folds ∣ ncases) (rng : Rng) :
    ∃ fs c, nfoldUnstratified ncases folds rng = some fs ∧ c < ncases ∧
      ∀ i < folds, ∃ test tr, fs[i]? = some test ∧ nfoldTrain folds fs i = some tr ∧
        c ∉ test ∧ c ∉ tr := by
  obtain ⟨fs, e, hl, hlen, hn, hd, hc⟩ := c40_unstratified ncases folds h0 rng
  have hpos : 0 < ncases % folds :=
    Nat.pos_of_ne_zero fun h => hdvd (Nat.dvd_of_mod_eq_zero h)
  rw [← hc] at hpos
  obtain ⟨c, hcm⟩ := List.exists_mem_of_length_pos hpos
  obtain ⟨hc1, hc2⟩ := List.mem_filter.1 hcm
  have hc2 : ∀ t ∈ fs, c ∉ t := of_decide_eq_true hc2
  refine ⟨fs, c, e, List.mem_range.1 hc1, fun i hi => ?_⟩
  have hil : i < fs.length := by omega
  obtain ⟨tr, et, hnd, hm⟩ := c40_train fs hn hd i fs[i] (List.getElem?_eq_getElem hil)
  refine ⟨fs[i], tr, List.getElem?_eq_getElem hil, hl ▸ et, hc2 _ (List.getElem_mem hil), ?_⟩
  rw [hm]
  rintro ⟨⟨t, ht, h⟩, _⟩
  exact hc2 t ht h

/-- **C40 is false for cases without a class.** In stratified folds a case whose target is missing
is in no test and no training set. -/
theorem c40_unclassed (f : CatFeature) (hf : f.Known) (folds : Nat) (h0 : 0 < folds) (rng : Rng)
    (c : Nat) (hc : f.missing[c]? = some true) :
    ∃ fs, nfoldStratified f folds rng = some fs ∧
      ∀ i < folds, ∃ test tr, fs[i]? = some test ∧ nfoldTrain folds fs i = some tr ∧
        c ∉ test ∧ c ∉ tr := by
  obtain ⟨fs, e, hl, hk, _, _, hn, hd, _⟩ := c40_stratified f hf folds h0 rng
  have hc2 : ∀ t ∈ fs, c ∉ t := by
    intro t ht hct
    have := (hk t ht c hct).2
    rw [hc] at this
    cases this
  refine ⟨fs, e, fun i hi => ?_⟩
  have hil : i < fs.length := by omega
  obtain ⟨tr, et, hnd, hm⟩ := c40_train fs hn hd i fs[i] (List.getElem?_eq_getElem hil)
  refine ⟨fs[i], tr, List.getElem?_eq_getElem hil, hl ▸ et, hc2 _ (List.getElem_mem hil), ?_⟩
  rw [hm]
  rintro ⟨⟨t, ht, h⟩, _⟩
  exact hc2 t ht h

/-- Seven cases in three folds: one case is left over. -/
example : nfoldUnstratified 7 3 (fun k => 3 * k + 2) = some [[2, 6], [5, 1], [3, 4]] ∧
    nfoldTrain 3 [[2, 6], [5, 1], [3, 4]] 1 = some [2, 6, 3, 4] := by
  decide +kernel

/-- Four cases of class 0, four of class 1, one unknown. -/
def exStrat : CatFeature :=
  { cm := (CatMap.empty.run ["a", "b"]).2, catData := [0, 1, 0, 0, 1, 0, 0, 1, 1],
    missing := [false, false, false, false, false, true, false, false, false], name := "C:t",
    randomSearch := false, hasMissing := true }

example : exStrat.Known ∧ exStrat.missing[5]? = some true ∧
    nfoldStratified exStrat 2 (fun k => 3 * k + 2) = some [[3, 6, 7, 8], [0, 2, 1, 4]] := by
  refine ⟨⟨rfl, ?_⟩, rfl, by decide +kernel⟩
  intro i k hk
  have : ∀ k ∈ exStrat.catData, k < exStrat.cm.back.length := by decide
  exact this k (List.mem_of_getElem? hk)

end CloudForest
