import Verif.Lemmas.AdaCost
import Verif.Props.AdaBoost

/-!
# C109: cost-sensitive adaptive boosting
-/

set_option linter.unusedSectionVars false

namespace CloudForest
variable {K : Type} [Field K] [LinearOrder K] [IsStrictOrderedRing K]

/-- The weight times the cost of its class, over the cases that are predicted wrongly. -/
def costlyError (f : CatFeature) (pick : List Nat → Nat) (w x : Nat → K) (leaves : List (List Nat)) : K :=
  weightedError f pick (fun c => w c * x (f.cat c)) leaves

theorem costFactor_pos (f : CatFeature) {E : K → K} (hE : ∀ x, 0 < E x) (x : Nat → K) (hx : ∀ k < f.cm.nCats, 0 < x k)
    (α : K) (leaves : List (List Nat)) (hr : ∀ leaf ∈ leaves, f.InRange f.cm.nCats leaf) (i : Nat) :
    0 < costFactor f E x α leaves i := by
  unfold costFactor
  induction leaves with
  | nil => simp
  | cons leaf ls ih =>
    rw [List.map_cons, List.prod_cons]
    refine mul_pos ?_ (ih fun l hl => hr l (by simp [hl]))
    by_cases hi : i ∈ leaf
    · obtain ⟨k, hk, hkn⟩ := hr leaf (by simp) i hi
      refine pow_pos ?_ _
      unfold costFac
      have hc := hx k hkn
      rw [cat_of_get hk]
      split_ifs
      · exact one_pos
      · exact mul_pos (hE _) hc
      · exact mul_pos (hE _) hc
    · rw [List.count_eq_zero_of_not_mem hi, pow_zero]
      exact one_pos

theorem adaCost_accepts {err : K} {E L : K → K} {el : ExpLog K} (law : el.Lawful E L) (hpos : 0 < err)
    (hlt : err < 1 / 2) : 0 < 1 / 2 * L ((1 - err) / err) := by
  refine mul_pos (by norm_num) ((law.gain _ (div_pos (by linarith) hpos)).2 ?_)
  rw [lt_div_iff₀ hpos]
  linarith

/-- **C109**, the part that holds: one round with positive costs. With a positive error the new weights are positive and
have sum one; relative to its cost, the weight of a wrongly predicted case grows against that of a rightly predicted one
exactly if the weighted cost of the errors is below one half, and nothing changes if it is not. -/
theorem c109_step_partial (el : ExpLog K) {E L : K → K} (law : el.Lawful E L) (f : CatFeature) (n : Nat)
    (hm : f.missing.length = n) (w : Nat → K) (hw : ∀ i < n, 0 < w i) (hs : ((List.range n).map w).sum = 1)
    (x : Nat → K) (hx : ∀ k < f.cm.nCats, 0 < x k) (leaves : List (List Nat)) (hl : f.Leaves n leaves) :
    ∃ pick : List Nat → Nat, (∀ leaf ∈ leaves, f.MostFrequent leaf (pick leaf)) ∧
      (0 < costlyError f pick w x leaves → ∃ (w' : Nat → K) (α : K),
        adaCostBoost el f (finList f.cm.nCats x) (finList n w) leaves = some (finList n w', .fin α) ∧
        (∀ i < n, 0 < w' i) ∧ ((List.range n).map w').sum = 1 ∧
        (costlyError f pick w x leaves < 1 / 2 →
          ∀ leaf ∈ leaves, ∀ c ∈ leaf, ∀ leaf' ∈ leaves, ∀ d ∈ leaf',
          f.missing[c]? = some false → f.missing[d]? = some false →
          f.catData[c]? ≠ some (pick leaf) → f.catData[d]? = some (pick leaf') →
          w' d / (w d * x (f.cat d)) < w' c / (w c * x (f.cat c))) ∧
        (0 < α ↔ costlyError f pick w x leaves < 1 / 2) ∧
        (1 / 2 ≤ costlyError f pick w x leaves → ∀ i < n, w' i = w i)) := by
  refine ⟨adaPick f, fun leaf h => adaPick_most f leaf (hl.range leaf h), fun hpos => ?_⟩
  have hn : n ≠ 0 := by
    rintro rfl
    simp at hs
  have hg : ∀ α : K, 0 < ((List.range n).map fun i => w i * costFactor f E x α leaves i).sum := fun α =>
    sum_range_pos hn fun i hi => mul_pos (hw i hi) (costFactor_pos f law.pos x hx α leaves hl.range i)
  have key := adaCostBoost_eq el law f n hm w x leaves hl hpos (hg _).ne'
  unfold costlyError at *
  by_cases hhalf : 1 / 2 ≤ weightedError f (adaPick f) (fun c => w c * x (f.cat c)) leaves
  · rw [if_pos hhalf] at key
    exact ⟨w, 0, key, hw, hs, fun h => absurd hhalf (not_le.2 h), iff_of_false (lt_irrefl _) (not_lt.2 hhalf),
      fun _ _ _ => rfl⟩
  · rw [if_neg hhalf] at key
    simp only at key
    have hlt := not_le.1 hhalf
    generalize weightedError f (adaPick f) (fun c => w c * x (f.cat c)) leaves = err at *
    have hα := adaCost_accepts law hpos hlt
    generalize 1 / 2 * L ((1 - err) / err) = α at *
    have hS := hg α
    refine ⟨_, α, key, fun i hi => div_pos (mul_pos (hw i hi) (costFactor_pos f law.pos x hx α leaves hl.range i)) hS,
      ?_, fun _ => ?_, iff_of_true hα hlt, fun h => absurd h hhalf⟩
    · rw [sum_range_div, div_self hS.ne']
    · intro leaf hlf c hc leaf' hlf' d hd hmc hmd hwc hrd
      have hwc0 := hw c (hl.cases leaf hlf c hc)
      have hwd0 := hw d (hl.cases leaf' hlf' d hd)
      obtain ⟨kc, hkc, hkcn⟩ := hl.range leaf hlf c hc
      obtain ⟨kd, hkd, hkdn⟩ := hl.range leaf' hlf' d hd
      have hxc : 0 < x (f.cat c) := by rw [cat_of_get hkc]; exact hx _ hkcn
      have hxd : 0 < x (f.cat d) := by rw [cat_of_get hkd]; exact hx _ hkdn
      rw [costFactor_of_mem f E x α leaves hl.disjoint leaf hlf c hc,
        costFactor_of_mem f E x α leaves hl.disjoint leaf' hlf' d hd]
      generalize ((List.range n).map fun i => w i * costFactor f E x α leaves i).sum = S at *
      have e1 : costFac f E x α (adaPick f leaf) c = E α * x (f.cat c) := by
        unfold costFac
        rw [hmc]
        simp [hwc]
      have e2 : costFac f E x α (adaPick f leaf') d = E (-α) * x (f.cat d) := by
        unfold costFac
        rw [hmd]
        simp [hrd]
      rw [e1, e2]
      have hgt : 1 < E α := (law.above α).2 hα
      have hinv := law.inv α
      have hlt1 : E (-α) < 1 := by
        have h0 := law.pos (-α)
        nlinarith
      rw [show w d * (E (-α) * x (f.cat d)) / S / (w d * x (f.cat d)) = E (-α) / S by field_simp,
        show w c * (E α * x (f.cat c)) / S / (w c * x (f.cat c)) = E α / S by field_simp]
      exact div_lt_div_of_pos_right (by linarith) hS

theorem weightedError_scale (f : CatFeature) (pick : List Nat → Nat) (w : Nat → K) (s : K) (leaves : List (List Nat)) :
    weightedError f pick (fun c => s * w c) leaves = s * weightedError f pick w leaves := by
  have h1 : ∀ l : List Nat, (l.map fun c => s * w c).sum = s * (l.map w).sum := by
    intro l
    induction l with
    | nil => simp
    | cons c l ih => simp [ih, mul_add]
  unfold weightedError
  induction leaves with
  | nil => simp
  | cons leaf ls ih => rw [List.map_cons, List.sum_cons, List.map_cons, List.sum_cons, ih, h1, mul_add]

theorem costlyError_scale (f : CatFeature) (pick : List Nat → Nat) (w x : Nat → K) (s : K) (leaves : List (List Nat)) :
    costlyError f pick w (fun k => s * x k) leaves = s * costlyError f pick w x leaves := by
  unfold costlyError
  rw [← weightedError_scale]
  congr 1
  funext c
  ring

/-- **C109 is false of the code**: costs that differ by a common factor ask for the same, but whether a tree is taken as
better than chance depends on the factor. For every tree with some error there is a factor with which it gets weight zero
and nothing changes, and one with which it gets positive weight, however many cases it predicts wrongly. -/
theorem c109_scale (el : ExpLog K) {E L : K → K} (law : el.Lawful E L) (f : CatFeature) (n : Nat)
    (hm : f.missing.length = n) (w : Nat → K) (hw : ∀ i < n, 0 < w i) (hs : ((List.range n).map w).sum = 1)
    (x : Nat → K) (hx : ∀ k < f.cm.nCats, 0 < x k) (leaves : List (List Nat)) (hl : f.Leaves n leaves)
    (hmix : ∃ leaf ∈ leaves, ∃ c ∈ leaf, ∃ d ∈ leaf, f.catData[c]? ≠ f.catData[d]?) :
    (∃ s > 0, adaCostBoost el f (finList f.cm.nCats fun k => s * x k) (finList n w) leaves =
      some (finList n w, .fin 0)) ∧
    (∃ s > 0, ∃ w' α, adaCostBoost el f (finList f.cm.nCats fun k => s * x k) (finList n w) leaves =
      some (w', .fin α) ∧ 0 < α) := by
  have hn : n ≠ 0 := by
    rintro rfl
    simp at hs
  have hpos : 0 < costlyError f (adaPick f) w x leaves := by
    unfold costlyError
    let v : Nat → K := fun c => if c ∈ leaves.flatten then w c * x (f.cat c) else w c
    have hv : ∀ i < n, 0 < v i := by
      intro i hi
      simp only [v]
      split
      · rename_i h
        obtain ⟨leaf, hlf, hil⟩ := List.mem_flatten.1 h
        obtain ⟨k, hk, hkn⟩ := hl.range leaf hlf i hil
        rw [cat_of_get hk]
        exact mul_pos (hw i hi) (hx k hkn)
      · exact hw i hi
    have he : weightedError f (adaPick f) (fun c => w c * x (f.cat c)) leaves = weightedError f (adaPick f) v leaves := by
      unfold weightedError
      congr 1
      refine List.map_congr_left fun leaf hlf => ?_
      congr 1
      refine List.map_congr_left fun c hc => ?_
      have : c ∈ leaves.flatten := List.mem_flatten.2 ⟨leaf, hlf, (List.mem_filter.1 hc).1⟩
      simp only [v, if_pos this]
    rw [he]
    exact weightedError_pos f (adaPick f) hv hl.cases hmix
  have hstep : ∀ s > 0, adaCostBoost el f (finList f.cm.nCats fun k => s * x k) (finList n w) leaves = _ := fun s h =>
    adaCostBoost_eq el law f n hm w (fun k => s * x k) leaves hl
      (by
        have := costlyError_scale f (adaPick f) w x s leaves
        unfold costlyError at this
        rw [this]
        exact mul_pos h hpos)
      (sum_range_pos hn fun i hi => mul_pos (hw i hi)
        (costFactor_pos f law.pos _ (fun k hk => mul_pos h (hx k hk)) _ leaves hl.range i)).ne'
  have hsc : ∀ s : K, weightedError f (adaPick f) (fun c => w c * (fun k => s * x k) (f.cat c)) leaves =
      s * costlyError f (adaPick f) w x leaves := fun s => costlyError_scale f (adaPick f) w x s leaves
  have e0 := hpos.ne'
  refine ⟨⟨1 / costlyError f (adaPick f) w x leaves, one_div_pos.2 hpos, ?_⟩,
    1 / (4 * costlyError f (adaPick f) w x leaves), one_div_pos.2 (by linarith), ?_⟩
  · have e : 1 / costlyError f (adaPick f) w x leaves * costlyError f (adaPick f) w x leaves = 1 := by
      field_simp
    rw [hstep _ (one_div_pos.2 hpos), hsc, e, if_pos (by norm_num)]
  · have e : 1 / (4 * costlyError f (adaPick f) w x leaves) * costlyError f (adaPick f) w x leaves = 1 / 4 := by
      field_simp
    rw [hstep _ (one_div_pos.2 (by linarith)), hsc, e, if_neg (by norm_num)]
    exact ⟨_, _, rfl, adaCost_accepts law (by norm_num) (by norm_num)⟩

/-! ## Classes that are not in the map -/

theorem setCosts_eq (f : CatFeature) (costmap : String → Option (XF K)) :
    setCosts f costmap (newAdaCost f).2 = some (f.cm.back.map fun s => (costmap s).getD (.fin 0)) := by
  have key : ∀ (l : List String) (done : List (XF K)),
      (l.zipIdx done.length).foldlM (fun costs x => wr costs x.2 ((costmap x.1).getD (.fin 0)))
        (done ++ List.replicate l.length (.fin 0)) = some (done ++ l.map fun s => (costmap s).getD (.fin 0)) := by
    intro l
    induction l with
    | nil => intro done; simp
    | cons s l ih =>
      intro done
      rw [List.zipIdx_cons, List.foldlM_cons]
      have : wr (done ++ List.replicate (s :: l).length (XF.fin (0 : K))) done.length ((costmap s).getD (.fin 0)) =
          some (done ++ [(costmap s).getD (.fin 0)] ++ List.replicate l.length (.fin 0)) := by
        unfold wr
        rw [if_pos (by simp)]
        simp [List.set_append, List.replicate_succ]
      rw [this]
      have h := ih (done ++ [(costmap s).getD (.fin 0)])
      simp only [List.length_append, List.length_singleton] at h
      refine h.trans ?_
      simp
  simpa [setCosts, newAdaCost, CatMap.nCats] using key f.cm.back []

theorem costFactor_nonneg (f : CatFeature) {E : K → K} (hE : ∀ x, 0 < E x) (x : Nat → K)
    (hx : ∀ k < f.cm.nCats, 0 ≤ x k) (α : K) (leaves : List (List Nat))
    (hr : ∀ leaf ∈ leaves, f.InRange f.cm.nCats leaf) (i : Nat) : 0 ≤ costFactor f E x α leaves i := by
  unfold costFactor
  induction leaves with
  | nil => simp
  | cons leaf ls ih =>
    rw [List.map_cons, List.prod_cons]
    refine mul_nonneg ?_ (ih fun l hl => hr l (by simp [hl]))
    by_cases hi : i ∈ leaf
    · obtain ⟨k, hk, hkn⟩ := hr leaf (by simp) i hi
      refine pow_nonneg ?_ _
      unfold costFac
      have hc := hx k hkn
      rw [cat_of_get hk]
      split_ifs
      · exact zero_le_one
      · exact mul_nonneg (hE _).le hc
      · exact mul_nonneg (hE _).le hc
    · rw [List.count_eq_zero_of_not_mem hi, pow_zero]
      exact zero_le_one

/-- With some error of positive cost, not all new weights are zero. -/
theorem costSum_pos (f : CatFeature) {E : K → K} (hE : ∀ x, 0 < E x) {n : Nat} (w x : Nat → K) (hw : ∀ i < n, 0 < w i)
    (hx : ∀ k < f.cm.nCats, 0 ≤ x k) (α : K) (leaves : List (List Nat)) (hl : f.Leaves n leaves)
    (hpos : 0 < costlyError f (adaPick f) w x leaves) :
    0 < ((List.range n).map fun i => w i * costFactor f E x α leaves i).sum := by
  have hex : ∃ leaf ∈ leaves, ∃ c ∈ leaf, 0 < w c * x (f.cat c) := by
    by_contra hno
    push Not at hno
    refine absurd hpos (not_lt.2 ?_)
    have hnp : ∀ l : List K, (∀ v ∈ l, v ≤ 0) → l.sum ≤ 0 := by
      intro l h
      induction l with
      | nil => simp
      | cons v l ih =>
        rw [List.sum_cons]
        exact add_nonpos (h v (by simp)) (ih fun u hu => h u (by simp [hu]))
    unfold costlyError weightedError
    refine hnp _ fun v hv => ?_
    obtain ⟨leaf, hlf, rfl⟩ := List.mem_map.1 hv
    refine hnp _ fun u hu => ?_
    obtain ⟨c, hc, rfl⟩ := List.mem_map.1 hu
    exact hno leaf hlf c (List.mem_filter.1 hc).1
  obtain ⟨leaf, hlf, c, hc, hv⟩ := hex
  have hcn := hl.cases leaf hlf c hc
  have hxc : 0 < x (f.cat c) := pos_of_mul_pos_right hv (hw c hcn).le
  have hterm : 0 < w c * costFactor f E x α leaves c := by
    refine mul_pos (hw c hcn) ?_
    rw [costFactor_of_mem f E x α leaves hl.disjoint leaf hlf c hc]
    unfold costFac
    split_ifs
    · exact one_pos
    · exact mul_pos (hE _) hxc
    · exact mul_pos (hE _) hxc
  refine lt_of_lt_of_le hterm (List.single_le_sum ?_ _ (List.mem_map.2 ⟨c, List.mem_range.2 hcn, rfl⟩))
  intro v hv
  obtain ⟨i, hi, rfl⟩ := List.mem_map.1 hv
  exact mul_nonneg (hw i (List.mem_range.1 hi)).le (costFactor_nonneg f hE x hx α leaves hl.range i)

/-- **C109**, weights that stay positive, **is false of the code** for classes that the costs do not mention: their cost is
zero, and so is the weight of all their cases after the first tree that has any error. -/
theorem c109_unlisted (el : ExpLog K) {E L : K → K} (law : el.Lawful E L) (f : CatFeature) (n : Nat)
    (hm : f.missing.length = n) (w x : Nat → K) (hw : ∀ i < n, 0 < w i) (hx0 : ∀ k < f.cm.nCats, 0 ≤ x k)
    (costmap : String → Option (XF K))
    (hx : f.cm.back.map (fun s => (costmap s).getD (.fin 0)) = finList f.cm.nCats x)
    (leaves : List (List Nat)) (hl : f.Leaves n leaves)
    (hpos : 0 < costlyError f (adaPick f) w x leaves) (hlt : costlyError f (adaPick f) w x leaves < 1 / 2)
    (s : String) (k : Nat) (hk : f.cm.back[k]? = some s) (hno : costmap s = none) :
    ∃ costs w' α, setCosts f costmap (newAdaCost f).2 = some costs ∧
      adaCostBoost el f costs (finList n w) leaves = some (finList n w', .fin α) ∧
      ∀ leaf ∈ leaves, ∀ c ∈ leaf, f.missing[c]? = some false → f.catData[c]? = some k → w' c = 0 := by
  have key := adaCostBoost_eq el law f n hm w x leaves hl hpos (costSum_pos f law.pos w x hw hx0 _ leaves hl hpos).ne'
  rw [if_neg (show ¬ 1 / 2 ≤ weightedError f (adaPick f) (fun c => w c * x (f.cat c)) leaves from not_le.2 hlt)] at key
  refine ⟨_, _, _, setCosts_eq f costmap, by rw [hx]; exact key, ?_⟩
  intro leaf hlf c hc hmc hkc
  have hxk : x k = 0 := by
    have hlt : k < f.cm.nCats := (List.getElem?_eq_some_iff.1 hk).1
    have h1 : (f.cm.back.map fun s => (costmap s).getD (XF.fin (0 : K)))[k]? = some (.fin 0) := by
      rw [List.getElem?_map, hk]
      simp [hno]
    rw [hx, finList_get x hlt] at h1
    exact XF.fin.inj (Option.some.inj h1)
  rw [costFactor_of_mem f E x _ leaves hl.disjoint leaf hlf c hc]
  unfold costFac
  rw [hmc, cat_of_get hkc, hxk]
  simp

/-! ## Examples -/

example : costlyError exAda (adaPick exAda) (fun _ => (1 / 5 : ℚ)) (fun k => if k = 0 then 1 else 2)
    [[0, 1, 2], [3]] = 2 / 5 := by decide +kernel

example : ∃ w' α, adaCostBoost realExpLog exAda (finList 2 fun k => if k = 0 then 1 else 2) (finList 5 fun _ => 1 / 5)
    [[0, 1, 2], [3]] = some (finList 5 w', .fin α) ∧ (∀ i < 5, 0 < w' i) ∧ ((List.range 5).map w').sum = 1 := by
  have hx : ∀ k < exAda.cm.nCats, (0 : ℝ) < (fun k => if k = 0 then 1 else 2) k := by
    intro k _
    dsimp only
    split <;> norm_num
  obtain ⟨pick, hp, h⟩ := c109_step_partial realExpLog realExpLog_lawful exAda 5 rfl (fun _ => 1 / 5)
    (fun _ _ => by norm_num) (by norm_num [List.range_succ]) (fun k => if k = 0 then 1 else 2) hx _ exAda_leaves
  have hpos : 0 < costlyError exAda pick (fun _ => (1 / 5 : ℝ)) (fun k => if k = 0 then 1 else 2) [[0, 1, 2], [3]] :=
    weightedError_pos exAda pick (n := 5) (fun i _ => mul_pos (by norm_num) (by dsimp only; split <;> norm_num))
      exAda_leaves.cases ⟨[0, 1, 2], by simp, 0, by simp, 2, by simp, by decide⟩
  obtain ⟨w', α, h1, h2, h3, -⟩ := h hpos
  exact ⟨w', α, h1, h2, h3⟩

example : ∃ s > 0, adaCostBoost realExpLog exAda (finList 2 fun k => s * if k = 0 then 1 else 2) (finList 5 fun _ => 1 / 5)
    [[0, 1, 2], [3]] = some (finList 5 fun _ => 1 / 5, .fin 0) :=
  (c109_scale realExpLog realExpLog_lawful exAda 5 rfl (fun _ => 1 / 5)
    (fun _ _ => by norm_num) (by norm_num [List.range_succ]) (fun k => if k = 0 then 1 else 2)
    (fun k _ => by split <;> norm_num) _ exAda_leaves
    ⟨[0, 1, 2], by simp, 0, by simp, 2, by simp, by decide⟩).1

/-- Only the cost of "b" is given: the cases of "a" lose their weights. -/
example : ∃ costs w' α,
    setCosts exAda (fun s => if s = "b" then some (.fin 1) else none) (newAdaCost exAda).2 = some costs ∧
    adaCostBoost realExpLog exAda costs (finList 5 fun _ => 1 / 5) [[0, 1, 2], [3]] = some (finList 5 w', .fin α) ∧
    w' 0 = 0 := by
  have hf : ([0, 1, 2].filter fun c => decide (exAda.catData[c]? ≠ some (adaPick exAda [0, 1, 2]))) = [2] ∧
      ([3].filter fun c => decide (exAda.catData[c]? ≠ some (adaPick exAda [3]))) = [] := by decide +kernel
  have he : costlyError exAda (adaPick exAda) (fun _ => (1 / 5 : ℝ)) (fun k => if k = 1 then 1 else 0) [[0, 1, 2], [3]] =
      1 / 5 := by
    unfold costlyError weightedError
    rw [List.map_cons, List.map_cons, hf.1, hf.2]
    norm_num [exAda, CatFeature.cat]
  obtain ⟨costs, w', α, h1, h2, h3⟩ := c109_unlisted realExpLog realExpLog_lawful exAda 5 rfl (fun _ => 1 / 5)
    (fun k => if k = 1 then 1 else 0) (fun _ _ => by norm_num) (fun k _ => by split <;> norm_num)
    (fun s => if s = "b" then some (.fin 1) else none) (by simp [exAda, finList, CatMap.nCats, List.range_succ])
    [[0, 1, 2], [3]] exAda_leaves (by rw [he]; norm_num) (by rw [he]; norm_num) "a" 0 rfl (by decide)
  exact ⟨costs, w', α, h1, h2, h3 [0, 1, 2] (by simp) 0 (by simp) rfl rfl⟩

end CloudForest
