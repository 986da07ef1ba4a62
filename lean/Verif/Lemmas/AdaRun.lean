import Verif.Model.AdaRun
import Verif.Spec.AdaRun
import Verif.Lemmas.AdaBoost
import Verif.Props.AdaBoost
import Verif.Props.Tree
import Verif.Lemmas.Values
import Verif.Lemmas.Leafcount
import Mathlib.Analysis.SpecialFunctions.Log.Basic
import Mathlib.Analysis.Complex.Trigonometric

/-!
# Lemmas on runs of adaptive boosting
-/

set_option linter.unusedSectionVars false

namespace CloudForest

theorem adaPick_perm (f : CatFeature) {a b : List Nat} (h : a.Perm b) : adaPick f a = adaPick f b := by
  unfold adaPick CatFeature.counts CatFeature.catCount
  congr 1
  apply List.map_congr_left
  intro k _
  rw [h.countP_eq]

theorem findPredicted_adaPick {f : CatFeature} (hf : f.Consistent) {n : Nat} (hm : f.missing = List.replicate n false)
    {cases : List Nat} (hc : ∀ c ∈ cases, c < n) : f.findPredicted cases = f.cm.back[adaPick f cases]? := by
  have hk : knownOf f.missing cases = cases := by
    unfold knownOf
    rw [List.filter_eq_self]
    intro c h
    rw [hm, List.getElem?_replicate, if_pos (hc c h)]
    rfl
  unfold CatFeature.findPredicted CatFeature.modei
  rw [modeCounts_eq hf cases (by rw [hm, List.length_replicate]; exact hc), hk]
  rfl

theorem leafError_flat (f : CatFeature) (w : Nat → ℝ) (P : Nat → Nat) (m : Nat) (leaf : List Nat) (hP : ∀ c ∈ leaf, P c = m) :
    ((leaf.filter fun c => decide (f.catData[c]? ≠ some m)).map w).sum =
      (leaf.map fun c => if f.catData[c]? ≠ some (P c) then w c else 0).sum := by
  induction leaf with
  | nil => rfl
  | cons c cs ih =>
    have h1 := hP c (by simp)
    have h2 := ih fun x hx => hP x (List.mem_cons_of_mem _ hx)
    rw [List.map_cons, List.sum_cons, ← h2, h1, List.filter_cons]
    by_cases h : f.catData[c]? = some m <;> simp [h]

/-- The mass of the wrongly predicted cases, summed leaf by leaf or over all cases. -/
theorem weightedError_flat (f : CatFeature) (w : Nat → ℝ) (P : Nat → Nat) (leaves : List (List Nat))
    (hP : ∀ leaf ∈ leaves, ∀ c ∈ leaf, P c = adaPick f leaf) :
    weightedError f (adaPick f) w leaves =
      (leaves.flatten.map fun c => if f.catData[c]? ≠ some (P c) then w c else 0).sum := by
  unfold weightedError
  induction leaves with
  | nil => rfl
  | cons leaf ls ih =>
    rw [List.map_cons, List.sum_cons, List.flatten_cons, List.map_append, List.sum_append,
      ih fun l hl => hP l (List.mem_cons_of_mem _ hl), leafError_flat f w P _ leaf (hP leaf (by simp))]

/-- The exponent of the change of a case's weight: up for a mistake, down otherwise. -/
def adaSign (f : CatFeature) (P : Nat → Nat) (i : Nat) : ℝ := if f.catData[i]? ≠ some (P i) then 1 else -1

/-- One round: the weights change by the exponential of the tree's weight, and its hyperbolic cosine restores the sum. -/
theorem ada_round {f : CatFeature} {n : Nat} (hn : n ≠ 0) (hm : f.missing = List.replicate n false)
    {w : Nat → ℝ} (hw : ∀ i < n, 0 < w i) (hs : ((List.range n).map w).sum = 1) {leaves : List (List Nat)}
    (hl : f.Leaves n leaves) (hperm : leaves.flatten.Perm (List.range n)) {P : Nat → Nat}
    (hP : ∀ leaf ∈ leaves, ∀ c ∈ leaf, P c = adaPick f leaf) (hmiss : ∃ i < n, f.catData[i]? ≠ some (P i)) :
    ∃ α : ℝ, 0 ≤ α ∧ adaBoost realExpLog f (finList n w) leaves =
        some (finList n fun i => w i * Real.exp (adaSign f P i * α) * Real.cosh α, .fin α) ∧
      (∀ i < n, 0 < w i * Real.exp (adaSign f P i * α) * Real.cosh α) ∧
      ((List.range n).map fun i => w i * Real.exp (adaSign f P i * α) * Real.cosh α).sum = 1 := by
  have hpos' : ∀ α : ℝ, ∀ i < n, 0 < w i * Real.exp (adaSign f P i * α) * Real.cosh α := fun α i hi =>
    mul_pos (mul_pos (hw i hi) (Real.exp_pos _)) (Real.cosh_pos _)
  obtain ⟨e, he⟩ : ∃ e, e = weightedError f (adaPick f) w leaves := ⟨_, rfl⟩
  have heq : e = ((List.range n).map fun c => if f.catData[c]? ≠ some (P c) then w c else 0).sum := by
    rw [he, weightedError_flat f w P leaves hP, (hperm.map _).sum_eq]
  have hpos : 0 < e := by
    obtain ⟨i, hi, hne⟩ := hmiss
    rw [heq]
    have hmem : w i ∈ (List.range n).map fun c => if f.catData[c]? ≠ some (P c) then w c else 0 :=
      List.mem_map.2 ⟨i, List.mem_range.2 hi, if_pos hne⟩
    refine lt_of_lt_of_le (hw i hi) (List.single_le_sum ?_ _ hmem)
    intro x hx
    obtain ⟨j, hj, rfl⟩ := List.mem_map.1 hx
    split
    · exact (hw j (List.mem_range.1 hj)).le
    · exact le_refl _
  have key := adaBoost_eq realExpLog realExpLog_lawful f n hn (by rw [hm, List.length_replicate]) w hw leaves hl
    (by rw [← he]; exact hpos)
  rw [← he] at key
  by_cases hhalf : 1 / 2 ≤ e
  · rw [if_pos hhalf] at key
    refine ⟨0, le_refl _, ?_, hpos' 0, by simpa using hs⟩
    rw [key]
    simp
  · rw [if_neg hhalf] at key
    have hlt := not_le.1 hhalf
    obtain ⟨α, hα⟩ : ∃ α, α = 1 / 2 * Real.log ((1 - e) / e) := ⟨_, rfl⟩
    simp only [← hα] at key
    have hq : 0 < (1 - e) / e := div_pos (by linarith) hpos
    have hα0 : 0 ≤ α := by
      rw [hα]
      refine mul_nonneg (by norm_num) (Real.log_nonneg ?_)
      rw [le_div_iff₀ hpos]
      linarith
    have hx2 : Real.exp α * Real.exp α = (1 - e) / e := by
      rw [← Real.exp_add, hα, ← two_mul, ← mul_assoc]
      norm_num
      exact Real.exp_log hq
    have hx := Real.exp_pos α
    have hfac : ∀ i < n, adaFactor f Real.exp α leaves i = Real.exp (adaSign f P i * α) := by
      intro i hi
      have hi' : i ∈ leaves.flatten := hperm.mem_iff.2 (List.mem_range.2 hi)
      obtain ⟨leaf, hlf, hil⟩ := List.mem_flatten.1 hi'
      rw [adaFactor_of_mem f Real.exp α leaves hl.disjoint leaf hlf i hil, ← hP leaf hlf i hil]
      unfold adaFac adaSign
      rw [hm, List.getElem?_replicate, if_pos hi]
      by_cases h : f.catData[i]? = some (P i) <;> simp [h]
    have hS : ((List.range n).map fun i => w i * adaFactor f Real.exp α leaves i).sum = Real.exp α * e + Real.exp (-α) * (1 - e) := by
      rw [← hs, heq]
      have : ∀ l : List Nat, (∀ i ∈ l, i < n) → (l.map fun i => w i * adaFactor f Real.exp α leaves i).sum =
          Real.exp α * (l.map fun c => if f.catData[c]? ≠ some (P c) then w c else 0).sum +
          Real.exp (-α) * ((l.map w).sum - (l.map fun c => if f.catData[c]? ≠ some (P c) then w c else 0).sum) := by
        intro l
        induction l with
        | nil => simp
        | cons c cs ih =>
          intro hall
          simp only [List.map_cons, List.sum_cons]
          rw [ih fun i hi => hall i (List.mem_cons_of_mem _ hi), hfac c (hall c (by simp))]
          unfold adaSign
          by_cases h : f.catData[c]? = some (P c)
          · simp only [h, ne_eq, not_true_eq_false, if_false, neg_mul, one_mul]
            ring
          · simp only [h, ne_eq, not_false_eq_true, if_true, one_mul]
            ring
      exact this _ fun i hi => List.mem_range.1 hi
    have hSc : ((List.range n).map fun i => w i * adaFactor f Real.exp α leaves i).sum * Real.cosh α = 1 := by
      rw [hS, Real.cosh_eq, Real.exp_neg]
      have he1 : Real.exp α * Real.exp α * e = 1 - e := by rw [hx2]; field_simp
      field_simp
      nlinarith [he1]
    have hS0 : ((List.range n).map fun i => w i * adaFactor f Real.exp α leaves i).sum ≠ 0 := by
      intro h
      rw [h, zero_mul] at hSc
      exact zero_ne_one hSc
    have hv : ∀ i < n, w i * adaFactor f Real.exp α leaves i /
        ((List.range n).map fun i => w i * adaFactor f Real.exp α leaves i).sum =
        w i * Real.exp (adaSign f P i * α) * Real.cosh α := by
      intro i hi
      rw [← hfac i hi, div_eq_iff hS0, mul_assoc (w i * _), mul_comm (Real.cosh α), hSc, mul_one]
    refine ⟨α, hα0, ?_, hpos' α, ?_⟩
    · rw [key]
      congr 2
      exact finList_congr hv
    · rw [← List.map_congr_left (fun i hi => hv i (List.mem_range.1 hi)), sum_range_div, div_self hS0]

variable {K : Type} [Field K] [LinearOrder K] [IsStrictOrderedRing K]

/-- The category that the cases in the leaf of case `i` have most often. -/
def leafPick (f : CatFeature) (fm : FeatureMatrix K) (n : Nat) (t : Tree K) (i : Nat) : Nat :=
  adaPick f ((List.range n).filter fun j => decide ((landing fm t.root j).map (·.1) = (landing fm t.root i).map (·.1)))

theorem fromAll_partition {f : CatFeature} (hf : f.Consistent) {fm : FeatureMatrix K} {n : Nat}
    (hm : f.missing = List.replicate n false) (hc : fm.allCases = some (List.range n)) {t : Tree K}
    (hu : Usable fm (List.range n) t.root) (hall : t.FromAll f fm n) :
    ∃ groups preds, t.partition fm = some (groups, preds) ∧ groups.flatten.Perm (List.range n) ∧ f.Leaves n groups ∧
      (∀ leaf ∈ groups, ∀ c ∈ leaf, leafPick f fm n t c = adaPick f leaf) ∧
      ∀ i < n, t.opinion fm i = f.cm.back[leafPick f fm n t i]? ∧ t.opinion fm i ≠ none := by
  obtain ⟨groups, preds, _, paths, h1, -, h3, h4, hnd, h6, h7⟩ := c07_partition t fm (List.range n) hc hu
  obtain ⟨groups', preds', h1', hdis⟩ := c07_disjoint t fm (List.range n) hc hu
  rw [h1] at h1'
  obtain ⟨rfl, rfl⟩ : groups = groups' ∧ preds = preds' := by simpa using h1'
  have hmem : ∀ leaf ∈ groups, ∀ c ∈ leaf, c < n ∧ ∃ k, ∃ (hk : k < groups.length), leaf = groups[k] ∧
      landing fm t.root c = some (paths[k]'(by omega), preds[k]'(by omega)) := by
    intro leaf hl c hcl
    obtain ⟨k, hk, rfl⟩ := List.getElem_of_mem hl
    have := (h6 k hk (by omega) (by omega)).1.mem_iff.1 hcl
    obtain ⟨ha, hb⟩ := List.mem_filter.1 this
    exact ⟨List.mem_range.1 ha, k, hk, rfl, by simpa using hb⟩
  have hperm : groups.flatten.Perm (List.range n) := by
    refine (List.perm_ext_iff_of_nodup hdis List.nodup_range).2 fun c => ⟨fun h => ?_, fun h => ?_⟩
    · obtain ⟨leaf, hl, hcl⟩ := List.mem_flatten.1 h
      exact List.mem_range.2 (hmem leaf hl c hcl).1
    · obtain ⟨path, p, hland, -⟩ := hall c (List.mem_range.1 h)
      have hp := h7 c h _ hland
      obtain ⟨k, hk, hpk⟩ := List.getElem_of_mem hp
      have hkg : k < groups.length := by omega
      refine List.mem_flatten.2 ⟨groups[k], List.getElem_mem _, ?_⟩
      have := h6 k hkg (by omega) hk
      rw [this.1.mem_iff, List.mem_filter]
      refine ⟨h, ?_⟩
      have hl : landing fm t.root c = some (paths[k], p) := by rw [hpk, hland]
      rw [hl, landing_leaf fm t.root c _ _ _ hl this.2]
      simp
  refine ⟨groups, preds, h1, hperm, ⟨hdis, ?_, fun leaf hl c hcl => (hmem leaf hl c hcl).1⟩, ?_, ?_⟩
  · intro leaf hl c hcl
    have hlt := (hmem leaf hl c hcl).1
    have hmc : f.missing[c]? = some false := by rw [hm, List.getElem?_replicate, if_pos hlt]
    exact hf.inRange [c] c (mem_knownOf.2 ⟨by simp, hmc⟩)
  · intro leaf hl c hcl
    obtain ⟨-, k, hk, rfl, hland⟩ := hmem leaf hl c hcl
    have h := h6 k hk (by omega) (by omega)
    unfold leafPick
    refine (adaPick_perm f (h.1.trans ?_)).symm
    rw [hland, List.filter_congr]
    intro j _
    rw [Bool.eq_iff_iff]
    simp only [beq_iff_eq, decide_eq_true_eq, Option.map_some]
    constructor
    · intro hj; rw [hj]; rfl
    · intro hj
      cases hlj : landing fm t.root j with
      | none => rw [hlj] at hj; cases hj
      | some x =>
        obtain ⟨q, y⟩ := x
        rw [hlj] at hj
        simp only [Option.map_some, Option.some.injEq] at hj
        subst hj
        rw [landing_leaf fm t.root j _ _ _ hlj h.2]
  · intro i hi
    obtain ⟨path, p, hland, hp⟩ := hall i hi
    have hop : t.opinion fm i = some p := by unfold Tree.opinion; rw [hland]; rfl
    refine ⟨?_, by rw [hop]; nofun⟩
    rw [hop, ← hp, findPredicted_adaPick hf hm fun c hcc => List.mem_range.1 (List.mem_of_mem_filter hcc)]
    unfold leafPick
    rw [hland]
    rfl

end CloudForest
