import Verif.Spec.CostCommand
import Verif.Props.Commands
import Verif.Props.CostNames

/-!
Predictions of weighed classes.
-/

set_option linter.unusedSectionVars false

namespace CloudForest
variable {K : Type} [Field K] [LinearOrder K] [IsStrictOrderedRing K]

theorem costByName_perm (f : CatFeature) (cost : String → K) {S S' : List Nat} (h : S.Perm S') (p : String) :
    f.costByName cost S p = f.costByName cost S' p := (h.map _).sum_eq

theorem Cheapest.perm {f : CatFeature} {cost : String → K} {S S' : List Nat} (h : S.Perm S') {p : String} (hp : f.Cheapest cost S p) :
    f.Cheapest cost S' p := by
  refine ⟨hp.1, fun q => ?_⟩
  rw [← costByName_perm f cost h, ← costByName_perm f cost h]
  exact hp.2 q

/-- Costs by number. -/
def costNumber (f : CatFeature) (cost : String → K) (k : Nat) : K :=
  match f.cm.back[k]? with
  | some s => cost s
  | none => 0

theorem known_className {f : CatFeature} (hf : f.Consistent) {c : Nat} (hc : f.missing[c]? = some false) :
    ∃ k s, f.catData[c]? = some k ∧ k < f.cm.nCats ∧ f.cm.back[k]? = some s ∧ f.getStr c = some s := by
  have hlt : c < f.catData.length := by rw [hf.lengths]; exact (List.getElem?_eq_some_iff.1 hc).1
  have hk := List.getElem?_eq_getElem hlt
  have hkl := hf.valid c _ hc hk
  refine ⟨_, _, hk, hkl, List.getElem?_eq_getElem hkl, ?_⟩
  unfold CatFeature.getStr
  simp only [hc, hk, Option.bind_eq_bind, Option.bind_some, Bool.false_eq_true, if_false]
  exact List.getElem?_eq_getElem hkl

theorem costByName_eq {f : CatFeature} (hf : f.Consistent) (cost : String → K) {S : List Nat} (hS : ∀ c ∈ S, f.missing[c]? = some false)
    (q : String) (m : Nat) (hm : f.cm.back[m]? = some q ∨ f.cm.nCats ≤ m ∧ q ∉ f.cm.back) :
    f.costByName cost S q = f.costOf (costNumber f cost) S m := by
  unfold CatFeature.costByName CatFeature.costOf
  congr 1
  refine List.map_congr_left fun c hc => ?_
  obtain ⟨k, s, h1, h2, h3, h4⟩ := known_className hf (hS c hc)
  have hcat : f.cat c = k := by unfold CatFeature.cat; rw [h1]; rfl
  rw [h4, hcat]
  have hiff : s = q ↔ k = m := by
    rcases hm with hm | ⟨hm1, hm2⟩
    · constructor
      · rintro rfl
        have w1 := (hf.map s k).2 h3
        have w2 := (hf.map s m).2 hm
        rw [w1] at w2
        exact Option.some.inj w2
      · rintro rfl
        rw [h3] at hm
        exact Option.some.inj hm
    · exact ⟨fun h => absurd (h ▸ List.mem_of_getElem? h3) hm2, fun h => by omega⟩
  simp only [costNumber, h3, hiff]

theorem cheapest_of {f : CatFeature} (hf : f.Consistent) {cost : String → K} {S : List Nat} (hS : ∀ c ∈ S, f.missing[c]? = some false)
    {m : Nat} (hm : m < f.cm.nCats) (h : ∀ k, f.costOf (costNumber f cost) S m ≤ f.costOf (costNumber f cost) S k) :
    ∃ p, f.cm.back[m]? = some p ∧ f.Cheapest cost S p := by
  have e := List.getElem?_eq_getElem (l := f.cm.back) hm
  refine ⟨_, e, List.getElem_mem hm, fun q => ?_⟩
  rw [costByName_eq hf cost hS _ m (.inl e)]
  by_cases hq : q ∈ f.cm.back
  · obtain ⟨k, hk⟩ := List.mem_iff_getElem?.1 hq
    rw [costByName_eq hf cost hS q k (.inl hk)]
    exact h k
  · rw [costByName_eq hf cost hS q f.cm.nCats (.inr ⟨le_refl _, hq⟩)]
    exact h _

theorem knownIn_range {f : CatFeature} (hf : f.Consistent) {S : List Nat} (hS : ∀ c ∈ S, f.missing[c]? = some false) :
    f.InRange f.cm.nCats S := by
  intro c hc
  obtain ⟨k, s, h1, h2, -⟩ := known_className hf (hS c hc)
  exact ⟨k, h1, h2⟩

theorem costNumber_list (f : CatFeature) (given : String → Option K) :
    (f.cm.back.map fun s => ((given s).map XF.fin).getD (.fin 0)) = finList f.cm.nCats (costNumber f fun s => (given s).getD 0) := by
  have := byNumber_list f given
  unfold asGiven at this
  rw [this]
  rfl

theorem npWeighted_names (f : CatFeature) {n posi : Nat} {alpha : K} (ha : 0 < alpha) (cases : List Nat) (w : Nat → K)
    (hw : ∀ k < n, w k = if k = posi then 1 / alpha else 1) :
    npWeighted posi (.fin alpha) (f.counts n cases) = weighted (finList n w) (f.counts n cases) := by
  unfold npWeighted weighted
  have hl := counts_length f n cases
  apply List.ext_getElem
  · simp [hl]
  · intro i h1 h2
    have hi : i < n := by simpa [hl] using h1
    simp only [List.getElem_map, List.getElem_zipIdx, List.getElem_zip, finList, List.getElem_range, Nat.zero_add]
    rw [hw i hi]
    split
    · show XF.fin _ / XF.fin alpha = XF.fin _ * XF.fin (1 / alpha)
      rw [XF.fin_div _ ha.ne', XF.fin_mul, mul_one_div]
    · show XF.fin _ = XF.fin _ * XF.fin 1
      rw [XF.fin_mul, mul_one]

/-- What the targets predict is cheapest. -/
theorem weighed_predicts {f : CatFeature} (hf : f.Consistent) {w : Weighing K} {cost : String → K} (h : w.Asks f cost) :
    ∃ imp predict, w.parts f = some (imp, predict) ∧ ∀ S : List Nat, (∀ c ∈ S, f.missing[c]? = some false) → S ≠ [] →
      ∃ m p, predict S = some m ∧ f.cm.back[m]? = some p ∧ f.Cheapest cost S p := by
  have hnum : ∀ g : String → Option K, (∀ s x, g s = some x → 0 ≤ x) → ∀ k, 0 ≤ costNumber f (fun s => (g s).getD 0) k := by
    intro g hg k
    unfold costNumber
    split
    · rename_i s _
      show 0 ≤ (g s).getD 0
      cases hs : g s with
      | none => exact le_refl _
      | some x => exact hg s x hs
    · exact le_refl _
  cases h with
  | cost given hg =>
    refine ⟨_, _, by unfold Weighing.parts; simp only [newCosts_eq, costNumber_list]; rfl, fun S hS hne => ?_⟩
    obtain ⟨m, h1, h2, h3⟩ := c38_regret_partial f _ (hnum given hg) S (knownIn_range hf hS) hne
    obtain ⟨p, h4, h5⟩ := cheapest_of hf hS h2 h3
    exact ⟨m, p, h1, h4, h5⟩
  | weights given hg =>
    refine ⟨_, _, by unfold Weighing.parts; simp only [newWeights_eq, costNumber_list]; rfl, fun S hS hne => ?_⟩
    obtain ⟨m, h1, h2, h3⟩ := c38_wrf f hf _ (hnum given hg) S (fun c hc => (List.getElem?_eq_some_iff.1 (hS c hc)).1)
      (by rwa [knownOf_all hS])
    rw [knownOf_all hS] at h3
    obtain ⟨p, h4, h5⟩ := cheapest_of hf hS h2 fun k => by
      have hg := (knownIn_range hf hS).get
      rw [costOf_eq (K := K) f _ S m hg, costOf_eq (K := K) f _ S k hg]
      exact sub_le_sub_left (h3 k) _
    exact ⟨m, p, h1, h4, h5⟩
  | np pos alpha kappa hpos ha =>
    obtain ⟨posi, hposi⟩ := List.mem_iff_getElem?.1 hpos
    refine ⟨_, _, by unfold Weighing.parts; simp only [(hf.map pos posi).2 hposi]; rfl, fun S hS hne => ?_⟩
    have hin := knownIn_range hf hS
    have hw : ∀ k < f.cm.nCats, costNumber f (fun s => if s = pos then 1 / alpha else 1) k = if k = posi then 1 / alpha else 1 := by
      intro k hk
      have e := List.getElem?_eq_getElem (l := f.cm.back) hk
      simp only [costNumber, e]
      have hiff : f.cm.back[k]'hk = pos ↔ k = posi := by
        constructor
        · intro h
          rw [h] at e
          have w1 := (hf.map pos k).2 e
          rw [(hf.map pos posi).2 hposi] at w1
          exact (Option.some.inj w1).symm
        · rintro rfl
          rw [e] at hposi
          exact Option.some.inj hposi
      simp only [hiff]
    have hw0 : ∀ k, 0 ≤ costNumber f (fun s => if s = pos then 1 / alpha else 1) k := by
      intro k
      unfold costNumber
      split
      · dsimp only
        split
        · exact (one_div_pos.2 ha).le
        · exact zero_le_one
      · exact le_refl _
    obtain ⟨h1, h2⟩ := heaviest f f.cm.nCats hw0 S hin hne
    obtain ⟨p, h4, h5⟩ := cheapest_of hf hS h1 fun k => by
      rw [costOf_eq (K := K) f _ S _ hin.get, costOf_eq (K := K) f _ S k hin.get]
      exact sub_le_sub_left (h2 k) _
    refine ⟨_, p, ?_, h4, h5⟩
    unfold npPredict
    rw [countPerCat_eq f S _ (by rw [List.length_replicate]; exact hin), List.length_replicate]
    simp only [Option.bind_eq_bind, Option.bind_some, npWeighted_names f ha S _ hw]

end CloudForest
