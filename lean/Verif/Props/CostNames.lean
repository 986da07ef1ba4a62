import Verif.Model.CostNames
import Verif.Spec.CostNames
import Verif.Props.DEntropy
import Verif.Props.Targets2
import Verif.Lemmas.Stats
import Mathlib.Tactic.LinearCombination

/-!
# C143: costs and weights by name
-/

set_option linter.unusedSectionVars false

namespace CloudForest
variable {K : Type} [Field K] [LinearOrder K] [IsStrictOrderedRing K]

theorem newCosts_eq (f : CatFeature) (given : String → Option (XF K)) :
    newCosts f given = some (f.cm.back.map fun s => (given s).getD (.fin 0)) :=
  setCosts_eq f given

theorem newWeights_eq (f : CatFeature) (given : String → Option (XF K)) :
    newWeights f given = some (f.cm.back.map fun s => (given s).getD (.fin 0)) := by
  unfold newWeights
  have key : ∀ l : List Nat, (∀ i ∈ l, i < f.cm.back.length) → (l.mapM fun i => do
      let s ← f.cm.back[i]?
      some ((given s).getD (.fin 0))) = some (l.map fun i => (given ((f.cm.back[i]?).getD "")).getD (.fin 0)) := by
    intro l
    induction l with
    | nil => intro _; rfl
    | cons i l ih =>
      intro h
      rw [List.mapM_cons, ih fun j hj => h j (by simp [hj])]
      have hi := h i (by simp)
      simp [List.getElem?_eq_getElem hi]
  rw [key _ fun i hi => by simpa [CatMap.nCats] using hi]
  congr 1
  apply List.ext_getElem
  · simp [CatMap.nCats]
  · intro i h1 h2
    have : i < f.cm.back.length := by simpa using h2
    simp [List.getElem?_eq_getElem this]

/-- The numbers as a function of the category number. -/
def byNumber (f : CatFeature) (given : String → Option K) (k : Nat) : K :=
  match f.cm.back[k]? with
  | some s => (given s).getD 0
  | none => 0

theorem byNumber_list (f : CatFeature) (given : String → Option K) :
    (f.cm.back.map fun s => (asGiven given s).getD (.fin 0)) = finList f.cm.nCats (byNumber f given) := by
  apply List.ext_getElem
  · simp [CatMap.nCats]
  · intro i h1 h2
    have hi : i < f.cm.back.length := by simpa using h1
    simp only [finList, List.getElem_map, List.getElem_range, byNumber, List.getElem?_eq_getElem hi, asGiven]
    cases given f.cm.back[i] <;> rfl

/-- **C143**, the numbers: every class has the number given under its name, and zero if none is given; names that are
no classes do not count. -/
theorem c143_named (f : CatFeature) (given : String → Option K) :
    ∃ xs, newCosts f (asGiven given) = some xs ∧ newWeights f (asGiven given) = some xs ∧
      xs.length = f.cm.nCats ∧
      ∀ (k : Nat) (s : String), f.cm.back[k]? = some s → xs[k]? = some (.fin ((given s).getD 0)) := by
  refine ⟨_, newCosts_eq f _, newWeights_eq f _, by simp [CatMap.nCats], fun k s hk => ?_⟩
  rw [List.getElem?_map, hk, Option.map_some]
  unfold asGiven
  cases given s <;> rfl

theorem byNumber_class {f : CatFeature} {given : String → Option K} {c : Nat} {s : String}
    (h : f.classNamed c = some s) : ∃ k, f.catData[c]? = some k ∧ f.cm.back[k]? = some s ∧
      byNumber f given k = (given s).getD 0 := by
  obtain ⟨k, h1, h2⟩ := Option.bind_eq_some_iff.1 h
  exact ⟨k, h1, h2, by simp [byNumber, h2]⟩

theorem weightOf_pos_mem {f : CatFeature} {w : Nat → K} {cases : List Nat} {k : Nat} (h : 0 < f.weightOf w cases k) :
    ∃ c ∈ cases, f.catData[c]? = some k := by
  by_contra hno
  push Not at hno
  have : cases.filter (fun c => f.catData[c]? == some k) = [] := by
    rw [List.filter_eq_nil_iff]
    intro c hc
    simpa using hno c hc
  rw [CatFeature.weightOf, this] at h
  exact lt_irrefl _ h

theorem heaviest_occurs (f : CatFeature) (n : Nat) {w : Nat → K} (hw : ∀ k, 0 ≤ w k) (cases : List Nat)
    (h : f.InRange n cases) (hne : ∃ c ∈ cases, ∃ k, f.catData[c]? = some k ∧ 0 < w k) :
    ∃ c ∈ cases, f.catData[c]? = some (argmaxX (weighted (finList n w) (f.counts n cases)) 0 0 (.fin 0)) := by
  obtain ⟨c, hc, k, hk, hpos⟩ := hne
  obtain ⟨-, h2⟩ := heaviest f n hw cases h (List.ne_nil_of_mem hc)
  refine weightOf_pos_mem (w := w) (lt_of_lt_of_le ?_ (h2 k))
  unfold CatFeature.weightOf
  rw [List.map_const', List.sum_replicate, nsmul_eq_mul]
  have : 0 < (cases.filter fun c => f.catData[c]? == some k).length :=
    List.length_pos_of_mem (List.mem_filter.2 ⟨hc, by simp [hk]⟩)
  exact mul_pos (Nat.cast_pos.2 this) hpos

/-- **C143**, the part that holds: if no number is negative and some known case of the leaf is of a class with a
positive number, the class that a weighted forest predicts for the leaf is the class of one of its known cases. The same
holds of regret if all cases of the leaf are known. Missing from the full property: leaves of classes without a
positive number, `c143_unlisted`. -/
theorem c143_occurs_partial (f : CatFeature) (hf : f.Consistent) (given : String → Option K)
    (hpos : ∀ s x, given s = some x → 0 ≤ x) (cases : List Nat) (hc : ∀ c ∈ cases, c < f.missing.length)
    (hsome : ∃ c ∈ knownOf f.missing cases, ∃ s x, f.classNamed c = some s ∧ given s = some x ∧ 0 < x) :
    ∃ xs, newWeights f (asGiven given) = some xs ∧
      (∃ m, wrfPredict xs f cases = some m ∧ ∃ c ∈ knownOf f.missing cases, f.catData[c]? = some m) ∧
      newCosts f (asGiven given) = some xs ∧
      (knownOf f.missing cases = cases → ∃ m, regretPredict xs f cases = some m ∧
        ∃ c ∈ cases, f.catData[c]? = some m) := by
  have hw : ∀ k, 0 ≤ byNumber f given k := by
    intro k
    unfold byNumber
    split
    · rename_i s _
      cases hs : given s with
      | none => simp
      | some x => exact hpos s x hs
    · exact le_refl _
  have hne : ∃ c ∈ knownOf f.missing cases, ∃ k, f.catData[c]? = some k ∧ 0 < byNumber f given k := by
    obtain ⟨c, h1, s, x, h2, h3, h4⟩ := hsome
    obtain ⟨k, h5, -, h6⟩ := byNumber_class (given := given) h2
    exact ⟨c, h1, k, h5, by rw [h6, h3]; exact h4⟩
  have hin := hf.inRange cases
  refine ⟨finList f.cm.nCats (byNumber f given), by rw [newWeights_eq, byNumber_list], ⟨_, ?_,
    heaviest_occurs f f.cm.nCats hw _ hin hne⟩, by rw [newCosts_eq, byNumber_list], fun hall => ⟨_, ?_,
    heaviest_occurs f f.cm.nCats hw _ (hall ▸ hin) (hall ▸ hne)⟩⟩
  · unfold wrfPredict
    rw [modeCounts_eq hf cases hc]
    rfl
  · unfold regretPredict
    rw [countPerCat_eq f cases _ (by rw [List.length_replicate]; exact hall ▸ hin), List.length_replicate]
    rfl

theorem weightOf_unlisted (f : CatFeature) (w : Nat → K) (cases : List Nat)
    (h : ∀ c ∈ cases, ∀ k, f.catData[c]? = some k → w k = 0) (k : Nat) : f.weightOf w cases k = 0 := by
  unfold CatFeature.weightOf
  rw [List.map_const', List.sum_replicate, nsmul_eq_mul]
  by_cases hk : w k = 0
  · rw [hk, mul_zero]
  · have : cases.filter (fun c => f.catData[c]? == some k) = [] := by
      rw [List.filter_eq_nil_iff]
      intro c hc hck
      exact hk (h c hc k (by simpa using hck))
    rw [this]
    simp

theorem argmaxX_zeros (n k m : Nat) : argmaxX (List.replicate n (.fin (0 : K))) k m (.fin 0) = m := by
  induction n generalizing k with
  | zero => rfl
  | succ n ih =>
    rw [List.replicate_succ, argmaxX, if_neg (by rw [XF.fin_lt]; exact lt_irrefl _)]
    exact ih _

theorem argmaxX_unlisted (f : CatFeature) (w : Nat → K) (n : Nat) (cases : List Nat)
    (h : ∀ c ∈ cases, ∀ k, f.catData[c]? = some k → w k = 0) :
    argmaxX (weighted (finList n w) (f.counts n cases)) 0 0 (.fin 0) = 0 := by
  rw [weighted_eq]
  have : finList n (f.weightOf w cases) = List.replicate n (.fin 0) := by
    rw [List.eq_replicate_iff]
    refine ⟨by simp, fun x hx => ?_⟩
    obtain ⟨k, -, rfl⟩ := List.mem_map.1 hx
    rw [weightOf_unlisted f w cases h]
  rw [this, argmaxX_zeros]

theorem wrf_zeros (l : List (Int × K)) (h : ∀ p ∈ l, (p.1 : K) * p.2 = 0) :
    (l.map fun p => (p.1, XF.fin p.2)).foldl (fun (acc : XF K × XF K) (vw : Int × XF K) =>
        (acc.1 + .ofInt vw.1 * vw.2, acc.2 - .ofInt (vw.1 * vw.1) * vw.2 * vw.2)) (.fin 0, .fin 0) =
      (.fin 0, .fin 0) := by
  induction l with
  | nil => rfl
  | cons p l ih =>
    rw [List.map_cons, List.foldl_cons]
    have h1 : (XF.fin (0 : K) + .ofInt p.1 * .fin p.2) = .fin 0 := by
      rw [XF.ofInt, XF.fin_mul, XF.fin_add, h p (by simp), add_zero]
    have h2 : (XF.fin (0 : K) - .ofInt (p.1 * p.1) * .fin p.2 * .fin p.2) = .fin 0 := by
      rw [XF.ofInt, XF.fin_mul, XF.fin_mul, XF.fin_sub]
      congr 1
      have := h p (by simp)
      push_cast
      linear_combination -((p.1 : K) * p.2) * this
    simp only [h1, h2]
    exact ih fun q hq => h q (by simp [hq])

theorem wrfFromCounts_unlisted (f : CatFeature) (w : Nat → K) (n : Nat) (cases : List Nat)
    (hz : ∀ c ∈ cases, ∀ k, f.catData[c]? = some k → w k = 0) {t : Nat} :
    wrfFromCounts (finList n w) t (f.counts n cases) = .nan := by
  have e : (f.counts n cases).zip (finList n w) =
      ((List.range n).map fun k => ((f.catCount cases k : Int), w k)).map fun p => (p.1, XF.fin p.2) := by
    rw [CatFeature.counts, finList, List.zip_map', List.map_map]
    rfl
  have hw := wrf_zeros ((List.range n).map fun k => ((f.catCount cases k : Int), w k)) (by
    intro p hp
    obtain ⟨k, -, rfl⟩ := List.mem_map.1 hp
    have := weightOf_unlisted f w cases hz k
    rw [weightOf_eq] at this
    simpa using this)
  unfold wrfFromCounts
  rw [e, hw]
  simp only [XF.fin_mul, mul_zero, XF.zero_div_zero]
  rfl

/-- **C143** is false of the code: a leaf whose known cases are all of classes that the map does not name predicts the
class that came first in the data, of all classes, whether or not the leaf has a case of it; with disutilities it
predicts 0 / 0. Its weighted impurity is 0 / 0 too, so a division of one such class from the rest is never chosen. -/
theorem c143_unlisted (f : CatFeature) (hf : f.Consistent) (given : String → Option K) (cases : List Nat)
    (hc : ∀ c ∈ cases, c < f.missing.length)
    (hun : ∀ c ∈ knownOf f.missing cases, ∃ s, f.classNamed c = some s ∧ given s = none) :
    ∃ xs, newWeights f (asGiven given) = some xs ∧ wrfPredict xs f cases = some 0 ∧
      newCosts f (asGiven given) = some xs ∧
      (knownOf f.missing cases = cases → regretPredict xs f cases = some 0 ∧
        (∃ f', dEntropyPredict xs f cases = some (.nan, f')) ∧
        ∀ (a : Allocs K), a.counter.length = f.cm.nCats → ∃ a', (wrfTarget xs f).impurity a cases = some (.nan, a')) := by
  have hz : ∀ c ∈ knownOf f.missing cases, ∀ k, f.catData[c]? = some k → byNumber f given k = 0 := by
    intro c h1 k hk
    obtain ⟨s, h2, h3⟩ := hun c h1
    obtain ⟨k', h4, -, h5⟩ := byNumber_class (given := given) h2
    rw [h4] at hk
    cases hk
    rw [h5, h3]
    rfl
  have hin := hf.inRange cases
  refine ⟨finList f.cm.nCats (byNumber f given), by rw [newWeights_eq, byNumber_list], ?_,
    by rw [newCosts_eq, byNumber_list], fun hall => ?_⟩
  · unfold wrfPredict
    rw [modeCounts_eq hf cases hc]
    simp only [Option.bind_eq_bind, Option.bind_some, argmaxX_unlisted f _ _ _ hz]
  · rw [hall] at hz hin
    refine ⟨?_, ?_, fun a ha => ?_⟩
    · unfold regretPredict
      rw [countPerCat_eq f cases _ (by rw [List.length_replicate]; exact hin), List.length_replicate]
      simp only [Option.bind_eq_bind, Option.bind_some, argmaxX_unlisted f _ _ _ hz]
    · rw [dEntropyPredict_eq _ f cases hin]
      have : ∀ p, costOf f (byNumber f given) cases p = 0 := by
        intro p
        unfold costOf
        apply List.sum_eq_zero
        intro x hx
        obtain ⟨c, hc1, rfl⟩ := List.mem_map.1 hx
        obtain ⟨k, hk, -⟩ := hin c (List.mem_filter.1 hc1).1
        rw [cat_of_get hk]
        exact hz c (List.mem_filter.1 hc1).1 k hk
      rw [this, this, XF.zero_div_zero]
      exact ⟨_, rfl⟩
    · refine ⟨{ a with counter := f.counts f.cm.nCats cases }, ?_⟩
      show countImpurity f _ a cases = _
      unfold countImpurity
      rw [countPerCat_eq f cases a.counter (by rw [ha]; exact hin), ha]
      simp only [Option.bind_eq_bind, Option.bind_some, wrfFromCounts_unlisted f _ _ cases hz]

/-- **C143**, what follows for weighted forests: no search ever takes a division one side of which has only classes
that the map does not name, whatever the impurity before and whatever the best division so far. -/
theorem c143_never_divided (f : CatFeature) (hf : f.Consistent) (given : String → Option K) (l r : List Nat)
    (hl : knownOf f.missing l = l) (hr : knownOf f.missing r = r)
    (hun : (∀ c ∈ l, ∃ s, f.classNamed c = some s ∧ given s = none) ∨
      ∀ c ∈ r, ∃ s, f.classNamed c = some s ∧ given s = none)
    (a : Allocs K) (h1 : a.lcounter.length = f.cm.nCats) (h2 : a.rcounter.length = f.cm.nCats) :
    ∃ xs s a', newWeights f (asGiven given) = some xs ∧ (wrfTarget xs f).splitImpurity a l r none = some (s, a') ∧
      ∀ parent best : XF K, ¬ best < gain parent s := by
  have hz : ∀ cs : List Nat, (∀ c ∈ cs, ∃ s, f.classNamed c = some s ∧ given s = none) →
      ∀ c ∈ cs, ∀ k, f.catData[c]? = some k → byNumber f given k = 0 := by
    intro cs hcs c hc k hk
    obtain ⟨s, h2, h3⟩ := hcs c hc
    obtain ⟨k', h4, -, h5⟩ := byNumber_class (given := given) h2
    rw [h4] at hk
    cases hk
    rw [h5, h3]
    rfl
  refine ⟨finList f.cm.nCats (byNumber f given), .nan,
    { a with lcounter := f.counts f.cm.nCats l, rcounter := f.counts f.cm.nCats r },
    by rw [newWeights_eq, byNumber_list], ?_, fun parent best => ?_⟩
  · show countSplitImpurity f _ a l r none = _
    unfold countSplitImpurity
    rw [countPerCat_eq f l a.lcounter (by rw [h1]; exact hl ▸ hf.inRange l),
      countPerCat_eq f r a.rcounter (by rw [h2]; exact hr ▸ hf.inRange r), h1, h2]
    simp only [Option.bind_eq_bind, Option.bind_some, missBlock, Option.getD_none, List.length_nil, lt_irrefl,
      if_false]
    rcases hun with h | h
    · rw [wrfFromCounts_unlisted f _ _ l (hz l h), XF.mul_nan, XF.nan_add, XF.nan_div]
    · rw [wrfFromCounts_unlisted f _ _ r (hz r h), XF.mul_nan, XF.add_nan, XF.nan_div]
  · have : gain parent (.nan : XF K) = .nan := by
      unfold gain
      split
      · rfl
      · exact XF.sub_nan _
    rw [this]
    cases best <;> exact id

/-- A leaf of two cases of b, in data that begin with an a, when only a has a weight or cost: a is predicted. -/
example : exAbb.Consistent ∧ knownOf exAbb.missing [1, 2] = [1, 2] ∧
    (∀ c ∈ [1, 2], exAbb.classNamed c = some "b") ∧ exAbb.cm.back[0]? = some "a" ∧
    (newWeights exAbb (asGiven fun s => if s = "a" then some (3 : ℚ) else none)).bind
      (fun xs => wrfPredict xs exAbb [1, 2]) = some 0 ∧
    (newCosts exAbb (asGiven fun s => if s = "a" then some (3 : ℚ) else none)).bind
      (fun xs => regretPredict xs exAbb [1, 2]) = some 0 :=
  ⟨exAbb_consistent, by decide +kernel, by decide +kernel, by decide +kernel, by decide +kernel, by decide +kernel⟩

/-- The hypotheses of the three theorems are met: of the cases a, b, b the first is of a class with a weight, the other
two are not. -/
example : (∃ m, (newWeights exAbb (asGiven fun s => if s = "a" then some (3 : ℚ) else none)).bind
      (fun xs => wrfPredict xs exAbb [0, 1, 2]) = some m ∧ ∃ c ∈ [0, 1, 2], exAbb.catData[c]? = some m) ∧
    ∃ xs s a', newWeights exAbb (asGiven fun s => if s = "a" then some (3 : ℚ) else none) = some xs ∧
      (wrfTarget xs exAbb).splitImpurity ⟨[0, 0], [0, 0], [0, 0], .fin 0, .fin 0, .fin 0, .fin 0, .fin 0, .fin 0⟩ [0]
        [1, 2] none = some (s, a') ∧ ∀ parent best : XF ℚ, ¬ best < gain parent s := by
  refine ⟨?_, ?_⟩
  · obtain ⟨xs, h1, ⟨m, h2, c, h3, h4⟩, -⟩ := c143_occurs_partial exAbb exAbb_consistent
      (fun s => if s = "a" then some (3 : ℚ) else none)
      (fun s x h => by split_ifs at h; cases h; norm_num) [0, 1, 2] (by decide +kernel)
      ⟨0, by decide +kernel, "a", 3, by decide +kernel, by decide +kernel, by norm_num⟩
    refine ⟨m, by rw [h1]; exact h2, c, (mem_knownOf.1 h3).1, h4⟩
  · exact c143_never_divided exAbb exAbb_consistent
      (fun s => if s = "a" then some (3 : ℚ) else none) [0] [1, 2] (by decide +kernel) (by decide +kernel)
      (.inr fun c hc => ⟨"b", by revert c; decide +kernel, rfl⟩) _ (by decide +kernel) (by decide +kernel)

end CloudForest
