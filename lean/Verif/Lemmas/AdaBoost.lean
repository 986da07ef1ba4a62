import Verif.Lemmas.Boost
import Verif.Lemmas.Impurity
import Verif.Lemmas.Values
import Mathlib.Tactic.Linarith
import Mathlib.Tactic.FieldSimp
import Mathlib.Algebra.Order.BigOperators.Group.List

/-!
# Lemmas for adaptive boosting
-/

set_option linter.unusedSectionVars false

namespace CloudForest
variable {K : Type} [Field K] [LinearOrder K] [IsStrictOrderedRing K]

/-- The category AdaBoost takes for a leaf. -/
def adaPick (f : CatFeature) (leaf : List Nat) : Nat := firstMost (f.counts f.cm.nCats leaf)

theorem counts_get (f : CatFeature) (n : Nat) (cs : List Nat) (k : Nat) :
    (f.counts n cs)[k]? = if k < n then some (f.catCount cs k : Int) else none := by
  unfold CatFeature.counts
  by_cases h : k < n
  · rw [if_pos h, List.getElem?_map, List.getElem?_range h]; rfl
  · rw [if_neg h]; exact List.getElem?_eq_none (by simp; omega)

theorem adaPick_most (f : CatFeature) (leaf : List Nat) (h : f.InRange f.cm.nCats leaf) :
    f.MostFrequent leaf (adaPick f leaf) := by
  intro k
  obtain ⟨M, h0, h1, h2⟩ := argmax_spec (f.counts f.cm.nCats leaf) 0 0 0
  by_cases hk : k < f.cm.nCats
  · have hle : (f.catCount leaf k : Int) ≤ M :=
      h1 _ (List.mem_of_getElem? (by rw [counts_get, if_pos hk]))
    rcases h2 with ⟨h3, rfl⟩ | ⟨j, h3, h4, -⟩
    · have : f.catCount leaf k = 0 := by omega
      omega
    · have hp : adaPick f leaf = j := by
        unfold adaPick firstMost
        rw [h4, Nat.zero_add]
      rw [hp]
      rw [counts_get] at h3
      split at h3
      · cases h3; omega
      · cases h3
  · have : f.catCount leaf k = 0 := by
      unfold CatFeature.catCount
      rw [List.countP_eq_zero]
      intro c hc
      obtain ⟨j, hj, hlt⟩ := h c hc
      rw [hj]
      simp
      omega
    omega

/-- The factor of a case in a leaf of class `m`. -/
def adaFac (f : CatFeature) (E : K → K) (α : K) (m : Nat) (c : Nat) : K :=
  if f.missing[c]? = some true then 1 else if f.catData[c]? ≠ some m then E α else E (-α)

theorem adaFac_pos (f : CatFeature) {E : K → K} (hE : ∀ x, 0 < E x) (α : K) (m c : Nat) : 0 < adaFac f E α m c := by
  unfold adaFac
  split_ifs
  · exact one_pos
  · exact hE _
  · exact hE _

theorem adaImp_eq (f : CatFeature) (n : Nat) (w : Nat → K) (cs : List Nat) (counter : List Int)
    (hr : ∀ c ∈ cs, ∃ k, f.catData[c]? = some k) (hc : ∀ c ∈ cs, c < n) :
    adaImpFromCounts f (finList n w) cs counter =
      some (.fin ((cs.filter fun c => decide (f.catData[c]? ≠ some (firstMost counter))).map w).sum) := by
  unfold adaImpFromCounts
  have key : ∀ (cs : List Nat) (e : K), (∀ c ∈ cs, ∃ k, f.catData[c]? = some k) → (∀ c ∈ cs, c < n) →
      cs.foldlM (fun (e : XF K) c => do
        let k ← f.catData[c]?
        if k ≠ firstMost counter then do
          let w ← (finList n w)[c]?
          some (e + w)
        else some e) (.fin e) =
      some (.fin (e + ((cs.filter fun c => decide (f.catData[c]? ≠ some (firstMost counter))).map w).sum)) := by
    intro cs
    induction cs with
    | nil => intro e _ _; simp
    | cons c cs ih =>
      intro e h1 h2
      obtain ⟨k, hk⟩ := h1 c (by simp)
      rw [List.foldlM_cons, hk, finList_get w (h2 c (by simp)), List.filter_cons, hk]
      by_cases hkm : k = firstMost counter
      · refine Eq.trans (b := List.foldlM _ (XF.fin e) cs) ?_ ((ih e (fun x hx => h1 x (by simp [hx]))
          fun x hx => h2 x (by simp [hx])).trans ?_)
        · simp [hkm]
        · simp [hkm]
      · refine Eq.trans (b := List.foldlM _ (XF.fin (e + w c)) cs) ?_ ((ih (e + w c) (fun x hx => h1 x (by simp [hx]))
          fun x hx => h2 x (by simp [hx])).trans ?_)
        · simp only [Option.bind_eq_bind, Option.bind_some]
          rw [if_pos hkm]
          rfl
        · have : decide (some k ≠ some (firstMost counter)) = true := by simpa using hkm
          rw [if_pos this, List.map_cons, List.sum_cons, add_assoc]
  rw [key cs 0 hr hc, zero_add]

theorem adaReweigh_eq (el : ExpLog K) {E L : K → K} (law : el.Lawful E L) (f : CatFeature) (n : Nat)
    (hm : f.missing.length = n) (α : K) (m : Nat) (cs : List Nat) (hr : ∀ c ∈ cs, ∃ k, f.catData[c]? = some k)
    (hc : ∀ c ∈ cs, c < n) (w : Nat → K) :
    cs.foldlM (adaReweigh el f (.fin α) m) (finList n w) =
      some (finList n fun i => w i * adaFac f E α m i ^ cs.count i) := by
  induction cs generalizing w with
  | nil => simp
  | cons c cs ih =>
    have hcn := hc c (by simp)
    obtain ⟨k, hk⟩ := hr c (by simp)
    have hstep : adaReweigh el f (.fin α) m (finList n w) c =
        some (finList n (Function.update w c (w c * adaFac f E α m c))) := by
      unfold adaReweigh
      have hmc : ∃ b, f.missing[c]? = some b := ⟨_, List.getElem?_eq_getElem (by omega)⟩
      obtain ⟨b, hb⟩ := hmc
      rw [hb, hk, finList_get w hcn]
      simp only [Option.bind_eq_bind, Option.bind_some]
      cases b with
      | true =>
        simp only [if_true]
        congr 1
        apply finList_congr
        intro i _
        by_cases hi : i = c
        · subst hi; simp [adaFac, hb]
        · rw [Function.update_of_ne hi]
      | false =>
        simp only [Bool.false_eq_true, if_false]
        have hfac : (XF.fin (w c) * (if k ≠ m then el.exp (.fin α) else el.exp (-.fin α)) : XF K) =
            .fin (w c * adaFac f E α m c) := by
          have hneg : (-(.fin α) : XF K) = .fin (-α) := rfl
          unfold adaFac
          rw [hneg, law.exp, law.exp, hb, hk]
          by_cases hkm : k = m
          · simp [hkm]
          · simp [hkm]
        rw [hfac]
        unfold wr
        rw [finList_length, if_pos hcn, finList_set]
    rw [List.foldlM_cons, hstep]
    refine (ih (fun x hx => hr x (by simp [hx])) (fun x hx => hc x (by simp [hx])) _).trans ?_
    congr 1
    apply finList_congr
    intro i _
    rw [List.count_cons]
    by_cases hi : i = c
    · subst hi
      simp [pow_succ]
      ring
    · rw [Function.update_of_ne hi]
      have : (c == i) = false := by simpa using Ne.symm hi
      simp [this]

/-- The product of the factors of a case over all leaves. -/
def adaFactor (f : CatFeature) (E : K → K) (α : K) (leaves : List (List Nat)) (i : Nat) : K :=
  (leaves.map fun leaf => adaFac f E α (adaPick f leaf) i ^ leaf.count i).prod

theorem adaFactor_pos (f : CatFeature) {E : K → K} (hE : ∀ x, 0 < E x) (α : K) (leaves : List (List Nat)) (i : Nat) :
    0 < adaFactor f E α leaves i := by
  unfold adaFactor
  induction leaves with
  | nil => simp
  | cons leaf ls ih =>
    rw [List.map_cons, List.prod_cons]
    exact mul_pos (pow_pos (adaFac_pos f hE α _ i) _) ih

theorem adaFactor_of_mem (f : CatFeature) (E : K → K) (α : K) (leaves : List (List Nat)) (hd : leaves.flatten.Nodup)
    (leaf : List Nat) (hl : leaf ∈ leaves) (i : Nat) (hi : i ∈ leaf) :
    adaFactor f E α leaves i = adaFac f E α (adaPick f leaf) i := by
  unfold adaFactor
  induction leaves with
  | nil => cases hl
  | cons x ls ih =>
    rw [List.flatten_cons, List.nodup_append] at hd
    obtain ⟨h1, h2, h3⟩ := hd
    have hnot : ∀ ls : List (List Nat), i ∉ ls.flatten →
        (ls.map fun leaf => adaFac f E α (adaPick f leaf) i ^ leaf.count i).prod = 1 := by
      intro ls hi
      induction ls with
      | nil => rfl
      | cons y ls ih =>
        rw [List.flatten_cons, List.mem_append, not_or] at hi
        rw [List.map_cons, List.prod_cons, ih hi.2, List.count_eq_zero_of_not_mem hi.1]
        simp
    rw [List.map_cons, List.prod_cons]
    by_cases hx : i ∈ x
    · have hnr : i ∉ ls.flatten := fun h => h3 i hx i h rfl
      rw [hnot ls hnr, mul_one, List.count_eq_one_of_mem h1 hx, pow_one]
      rcases List.mem_cons.1 hl with rfl | hl
      · rfl
      · exact absurd (List.mem_flatten.2 ⟨leaf, hl, hi⟩) hnr
    · rw [List.count_eq_zero_of_not_mem hx, pow_zero, one_mul]
      rcases List.mem_cons.1 hl with rfl | hl
      · exact absurd hi hx
      · exact ih h2 hl

theorem foldl_fin (l : List K) (s : K) : (l.map XF.fin).foldl (· + ·) (.fin s : XF K) = .fin (s + l.sum) := by
  induction l generalizing s with
  | nil => simp
  | cons x l ih =>
    rw [List.map_cons, List.foldl_cons]
    refine (ih (s + x)).trans ?_
    rw [List.sum_cons, add_assoc]

theorem sum_range_pos {n : Nat} (hn : n ≠ 0) {v : Nat → K} (h : ∀ i < n, 0 < v i) : 0 < ((List.range n).map v).sum := by
  induction n with
  | zero => exact absurd rfl hn
  | succ n ih =>
    rw [List.range_succ, List.map_append, List.sum_append, List.map_singleton, List.sum_singleton]
    by_cases h0 : n = 0
    · subst h0; simpa using h 0 (by omega)
    · exact add_pos (ih h0 fun i hi => h i (by omega)) (h n (by omega))

theorem sum_range_div (n : Nat) (v : Nat → K) (s : K) :
    ((List.range n).map fun i => v i / s).sum = ((List.range n).map v).sum / s := by
  induction n with
  | zero => simp
  | succ n ih => simp [List.range_succ, ih, add_div]

/-- Two cases of different category in a leaf make the weighted error positive, whatever is picked. -/
theorem weightedError_pos (f : CatFeature) (pick : List Nat → Nat) {n : Nat} {w : Nat → K} (hw : ∀ i < n, 0 < w i)
    {leaves : List (List Nat)} (hc : ∀ leaf ∈ leaves, ∀ c ∈ leaf, c < n)
    (hx : ∃ leaf ∈ leaves, ∃ c ∈ leaf, ∃ d ∈ leaf, f.catData[c]? ≠ f.catData[d]?) :
    0 < weightedError f pick w leaves := by
  have hnn : ∀ l : List Nat, (∀ c ∈ l, c < n) → 0 ≤ (l.map w).sum := by
    intro l hl
    apply List.sum_nonneg
    intro x hx
    obtain ⟨i, hi, rfl⟩ := List.mem_map.1 hx
    exact (hw i (hl i hi)).le
  have hterm : ∀ leaf ∈ leaves, 0 ≤ ((leaf.filter fun c => decide (f.catData[c]? ≠ some (pick leaf))).map w).sum :=
    fun leaf hl => hnn _ fun c h => hc leaf hl c (List.mem_of_mem_filter h)
  obtain ⟨leaf, hl, c, hcm, d, hdm, hne⟩ := hx
  obtain ⟨e, he, hew⟩ : ∃ e ∈ leaf, f.catData[e]? ≠ some (pick leaf) := by
    by_cases h : f.catData[c]? = some (pick leaf)
    · exact ⟨d, hdm, fun h' => hne (h.trans h'.symm)⟩
    · exact ⟨c, hcm, h⟩
  have hbig : 0 < ((leaf.filter fun c => decide (f.catData[c]? ≠ some (pick leaf))).map w).sum := by
    have hmem : w e ∈ (leaf.filter fun c => decide (f.catData[c]? ≠ some (pick leaf))).map w :=
      List.mem_map.2 ⟨e, List.mem_filter.2 ⟨he, by simpa using hew⟩, rfl⟩
    refine lt_of_lt_of_le (hw e (hc leaf hl e he)) (List.single_le_sum ?_ _ hmem)
    intro x hx
    obtain ⟨i, hi, rfl⟩ := List.mem_map.1 hx
    exact (hw i (hc leaf hl i (List.mem_of_mem_filter hi))).le
  unfold weightedError
  refine lt_of_lt_of_le hbig (List.single_le_sum ?_ _ (List.mem_map.2 ⟨leaf, hl, rfl⟩))
  intro x hx
  obtain ⟨y, hy, rfl⟩ := List.mem_map.1 hx
  exact hterm y hy

/-- `AdaBoostTarget.Boost` in closed form. -/
theorem adaBoost_eq (el : ExpLog K) {E L : K → K} (law : el.Lawful E L) (f : CatFeature) (n : Nat) (hn : n ≠ 0)
    (hm : f.missing.length = n) (w : Nat → K) (hw : ∀ i < n, 0 < w i) (leaves : List (List Nat))
    (hl : f.Leaves n leaves) (hpos : 0 < weightedError f (adaPick f) w leaves) :
    adaBoost el f (finList n w) leaves =
      if 1 / 2 ≤ weightedError f (adaPick f) w leaves then some (finList n w, .fin 0)
      else
        let α := 1 / 2 * L ((1 - weightedError f (adaPick f) w leaves) / weightedError f (adaPick f) w leaves)
        some (finList n fun i => w i * adaFactor f E α leaves i /
          ((List.range n).map fun i => w i * adaFactor f E α leaves i).sum, .fin α) := by
  unfold adaBoost
  have herr : ∀ (ls : List (List Nat)) (e : K) (counter : List Int), counter.length = f.cm.nCats →
      (∀ leaf ∈ ls, f.InRange f.cm.nCats leaf ∧ ∀ c ∈ leaf, c < n) → ∃ counter', counter'.length = f.cm.nCats ∧
      ls.foldlM (fun (acc : XF K × List Int) cases => do
        let counter ← f.countPerCat cases acc.2
        let e ← adaImpFromCounts f (finList n w) cases counter
        some (acc.1 + e, counter)) (.fin e, counter) =
      some (.fin (e + weightedError f (adaPick f) w ls), counter') := by
    intro ls
    induction ls with
    | nil => intro e counter h _; exact ⟨counter, h, by simp [weightedError]⟩
    | cons leaf ls ih =>
      intro e counter h hls
      obtain ⟨h1, h2⟩ := hls leaf (by simp)
      obtain ⟨c', h3, h4⟩ := ih (e + ((leaf.filter fun c => decide (f.catData[c]? ≠ some (adaPick f leaf))).map w).sum)
        (f.counts f.cm.nCats leaf) (counts_length _ _ _) fun x hx => hls x (by simp [hx])
      refine ⟨c', h3, ?_⟩
      rw [List.foldlM_cons, countPerCat_eq f leaf counter (by rw [h]; exact h1), h]
      simp only [Option.bind_eq_bind, Option.bind_some]
      rw [adaImp_eq f n w leaf _ (fun c hc => (h1 c hc).imp fun _ h => h.1) h2]
      refine h4.trans ?_
      unfold weightedError
      rw [List.map_cons, List.sum_cons, add_assoc]
  have hls : ∀ leaf ∈ leaves, f.InRange f.cm.nCats leaf ∧ ∀ c ∈ leaf, c < n :=
    fun leaf h => ⟨hl.range leaf h, hl.cases leaf h⟩
  obtain ⟨counter, hcl, e1⟩ := herr leaves 0 (List.replicate f.cm.nCats 0) (by simp) hls
  rw [e1]
  simp only [Option.bind_eq_bind, Option.bind_some, zero_add]
  generalize weightedError f (adaPick f) w leaves = err at hpos
  by_cases hhalf : 1 / 2 ≤ err
  · rw [if_pos hhalf, if_pos (show (XF.fin (1 / 2) : XF K) ≤ .fin err from hhalf)]
  · rw [if_neg hhalf, if_neg (show ¬ (XF.fin (1 / 2) : XF K) ≤ .fin err from hhalf)]
    have hlt : err < 1 / 2 := not_le.1 hhalf
    have hquot : 0 < (1 - err) / err := div_pos (by linarith) hpos
    have hdiv : ((.fin 1 - .fin err) / .fin err : XF K) = .fin ((1 - err) / err) := by
      show XF.div (.fin (1 + -err)) (.fin err) = _
      unfold XF.div
      simp only
      rw [if_neg hpos.ne', sub_eq_add_neg]
    have hα : (.fin (1 / 2) * el.log ((.fin 1 - .fin err) / .fin err) : XF K) = .fin (1 / 2 * L ((1 - err) / err)) := by
      rw [hdiv, law.log _ hquot]
      rfl
    rw [hα]
    generalize 1 / 2 * L ((1 - err) / err) = α
    have hre : ∀ (ls : List (List Nat)) (w : Nat → K) (counter : List Int), counter.length = f.cm.nCats →
        (∀ leaf ∈ ls, f.InRange f.cm.nCats leaf ∧ ∀ c ∈ leaf, c < n) → ∃ counter',
        ls.foldlM (fun (acc : List (XF K) × List Int) cases =>
          (f.countPerCat cases acc.2).bind fun counter =>
          (cases.foldlM (adaReweigh el f (.fin α) (firstMost counter)) acc.1).bind fun weights =>
          some (weights, counter)) (finList n w, counter) =
        some (finList n fun i => w i * adaFactor f E α ls i, counter') := by
      intro ls
      induction ls with
      | nil => intro w counter h _; exact ⟨counter, by simp [adaFactor]⟩
      | cons leaf ls ih =>
        intro w counter h hls
        obtain ⟨h1, h2⟩ := hls leaf (by simp)
        obtain ⟨c', h4⟩ := ih (fun i => w i * adaFac f E α (adaPick f leaf) i ^ leaf.count i)
          (f.counts f.cm.nCats leaf) (counts_length _ _ _) fun x hx => hls x (by simp [hx])
        refine ⟨c', ?_⟩
        rw [List.foldlM_cons, countPerCat_eq f leaf counter (by rw [h]; exact h1), h]
        simp only [Option.bind_eq_bind, Option.bind_some]
        rw [adaReweigh_eq el law f n hm α _ leaf (fun c hc => (h1 c hc).imp fun _ h => h.1) h2]
        refine h4.trans ?_
        congr 2
        apply finList_congr
        intro i _
        unfold adaFactor
        rw [List.map_cons, List.prod_cons, mul_assoc]
    obtain ⟨c', e2⟩ := hre leaves w counter hcl hls
    rw [e2]
    simp only [Option.bind_some]
    congr 2
    have hnorm : (finList n fun i => w i * adaFactor f E α leaves i).foldl (· + ·) (.fin 0 : XF K) =
        .fin ((List.range n).map fun i => w i * adaFactor f E α leaves i).sum := by
      have : (finList n fun i => w i * adaFactor f E α leaves i) =
          ((List.range n).map fun i => w i * adaFactor f E α leaves i).map XF.fin := by
        unfold finList
        rw [List.map_map]
        rfl
      rw [this, foldl_fin, zero_add]
    rw [hnorm]
    have hs : 0 < ((List.range n).map fun i => w i * adaFactor f E α leaves i).sum := by
      exact sum_range_pos hn fun i hi => mul_pos (hw i hi) (adaFactor_pos f law.pos α leaves i)
    generalize ((List.range n).map fun i => w i * adaFactor f E α leaves i).sum = S at hs
    unfold finList
    rw [List.map_map]
    apply List.map_congr_left
    intro i _
    show XF.div (.fin _) (.fin S) = _
    unfold XF.div
    simp only
    rw [if_neg hs.ne']

theorem adaPick_pure (f : CatFeature) (leaf : List Nat) (h : f.InRange f.cm.nCats leaf)
    (hpure : ∀ c ∈ leaf, ∀ d ∈ leaf, f.catData[c]? = f.catData[d]?) :
    ∀ c ∈ leaf, f.catData[c]? = some (adaPick f leaf) := by
  intro c hc
  obtain ⟨k, hk, -⟩ := h c hc
  have h1 := adaPick_most f leaf h k
  have h2 : 0 < f.catCount leaf k := List.countP_pos_iff.2 ⟨c, hc, by simpa using hk⟩
  obtain ⟨d, hd, hdk⟩ := List.countP_pos_iff.1 (lt_of_lt_of_le h2 h1)
  rw [hpure c hc d hd]
  simpa using hdk

theorem adaReweigh_zero (el : ExpLog K) (hexp : el.exp .ninf = .fin 0) (f : CatFeature) (n : Nat)
    (hm : f.missing = List.replicate n false) (m : Nat) (cs : List Nat) (hr : ∀ c ∈ cs, f.catData[c]? = some m)
    (hc : ∀ c ∈ cs, c < n) (w : Nat → K) :
    cs.foldlM (adaReweigh el f .pinf m) (finList n w) = some (finList n fun i => if i ∈ cs then 0 else w i) := by
  induction cs generalizing w with
  | nil => simp
  | cons c cs ih =>
    have hcn := hc c (by simp)
    have hstep : adaReweigh el f .pinf m (finList n w) c = some (finList n (Function.update w c 0)) := by
      unfold adaReweigh
      have hb : f.missing[c]? = some false := by rw [hm]; simp [hcn]
      rw [hb, hr c (by simp), finList_get w hcn]
      simp only [Option.bind_eq_bind, Option.bind_some, Bool.false_eq_true, if_false, ne_eq, not_true]
      have hneg : (-.pinf : XF K) = .ninf := rfl
      have hz : (XF.fin (w c) * .fin 0 : XF K) = .fin 0 := by
        show XF.fin (w c * 0) = _
        rw [mul_zero]
      rw [hneg, hexp, hz]
      unfold wr
      rw [finList_length, if_pos hcn, finList_set]
    rw [List.foldlM_cons, hstep]
    refine (ih (fun x hx => hr x (by simp [hx])) (fun x hx => hc x (by simp [hx])) _).trans ?_
    congr 1
    apply finList_congr
    intro i _
    by_cases hi : i = c
    · subst hi; simp
    · simp [Function.update_of_ne hi, hi]

theorem adaBoost_pure (el : ExpLog K) (hlog : el.log .pinf = .pinf) (hexp : el.exp .ninf = .fin 0)
    (f : CatFeature) (n : Nat) (_hn : n ≠ 0) (hm : f.missing = List.replicate n false) (w : Nat → K)
    (leaves : List (List Nat)) (hl : f.Leaves n leaves) (hall : ∀ i < n, i ∈ leaves.flatten)
    (hpure : ∀ leaf ∈ leaves, ∀ c ∈ leaf, ∀ d ∈ leaf, f.catData[c]? = f.catData[d]?) :
    adaBoost el f (finList n w) leaves = some (List.replicate n .nan, .pinf) := by
  have hpick : ∀ leaf ∈ leaves, ∀ c ∈ leaf, f.catData[c]? = some (adaPick f leaf) :=
    fun leaf h => adaPick_pure f leaf (hl.range leaf h) (hpure leaf h)
  unfold adaBoost
  have herr : ∀ (ls : List (List Nat)) (counter : List Int), counter.length = f.cm.nCats →
      (∀ leaf ∈ ls, leaf ∈ leaves) → ∃ counter', counter'.length = f.cm.nCats ∧
      ls.foldlM (fun (acc : XF K × List Int) cases => do
        let counter ← f.countPerCat cases acc.2
        let e ← adaImpFromCounts f (finList n w) cases counter
        some (acc.1 + e, counter)) (.fin 0, counter) = some (.fin 0, counter') := by
    intro ls
    induction ls with
    | nil => intro counter h _; exact ⟨counter, h, rfl⟩
    | cons leaf ls ih =>
      intro counter h hls
      have hmem := hls leaf (by simp)
      obtain ⟨c', h3, h4⟩ := ih (f.counts f.cm.nCats leaf) (counts_length _ _ _) fun x hx => hls x (by simp [hx])
      refine ⟨c', h3, ?_⟩
      rw [List.foldlM_cons, countPerCat_eq f leaf counter (by rw [h]; exact hl.range leaf hmem), h]
      simp only [Option.bind_eq_bind, Option.bind_some]
      rw [adaImp_eq f n w leaf _ (fun c hc => ((hl.range leaf hmem) c hc).imp fun _ h => h.1) (hl.cases leaf hmem)]
      have hnil : (leaf.filter fun c => decide (f.catData[c]? ≠ some (firstMost (f.counts f.cm.nCats leaf)))) = [] := by
        rw [List.filter_eq_nil_iff]
        intro c hc
        have := hpick leaf hmem c hc
        unfold adaPick at this
        simp [this]
      rw [hnil]
      have hz : (XF.fin 0 + .fin (List.map w []).sum : XF K) = .fin 0 := by
        show XF.fin (0 + _) = _
        simp
      simp only [Option.bind_some]
      rw [hz]
      exact h4
  obtain ⟨counter, hcl, e1⟩ := herr leaves (List.replicate f.cm.nCats 0) (by simp) fun _ h => h
  rw [e1]
  simp only [Option.bind_eq_bind, Option.bind_some]
  have hnot : ¬ (XF.fin (1 / 2) : XF K) ≤ .fin 0 := by
    show ¬ ((1 / 2 : K) ≤ 0)
    simp
  rw [if_neg hnot]
  have hdiv : ((.fin 1 - .fin 0) / .fin 0 : XF K) = .pinf := by
    show XF.div (.fin (1 + -0)) (.fin 0) = _
    simp [XF.div, XF.infTimes]
  have hα : (.fin (1 / 2) * .pinf : XF K) = .pinf := by
    show XF.infTimes (1 / 2 : K) = _
    simp [XF.infTimes]
  rw [hdiv, hlog, hα]
  have hre : ∀ (ls : List (List Nat)) (w : Nat → K) (counter : List Int), counter.length = f.cm.nCats →
      (∀ leaf ∈ ls, leaf ∈ leaves) → ∃ counter',
      ls.foldlM (fun (acc : List (XF K) × List Int) cases =>
        (f.countPerCat cases acc.2).bind fun counter =>
        (cases.foldlM (adaReweigh el f .pinf (firstMost counter)) acc.1).bind fun weights =>
        some (weights, counter)) (finList n w, counter) =
      some (finList n fun i => if i ∈ ls.flatten then 0 else w i, counter') := by
    intro ls
    induction ls with
    | nil => intro w counter h _; exact ⟨counter, by simp⟩
    | cons leaf ls ih =>
      intro w counter h hls
      have hmem := hls leaf (by simp)
      obtain ⟨c', h4⟩ := ih (fun i => if i ∈ leaf then 0 else w i)
        (f.counts f.cm.nCats leaf) (counts_length _ _ _) fun x hx => hls x (by simp [hx])
      refine ⟨c', ?_⟩
      rw [List.foldlM_cons, countPerCat_eq f leaf counter (by rw [h]; exact hl.range leaf hmem), h]
      simp only [Option.bind_eq_bind, Option.bind_some]
      have hp := hpick leaf hmem
      unfold adaPick at hp
      rw [adaReweigh_zero el hexp f n hm _ leaf hp (hl.cases leaf hmem)]
      refine h4.trans ?_
      congr 2
      apply finList_congr
      intro i _
      by_cases h1 : i ∈ leaf <;> by_cases h2 : i ∈ ls.flatten <;> simp [h1, h2]
  obtain ⟨c', e2⟩ := hre leaves w counter hcl fun _ h => h
  rw [e2]
  simp only [Option.bind_some]
  have hz : (finList n fun i => if i ∈ leaves.flatten then 0 else w i) = finList n fun _ => (0 : K) :=
    finList_congr fun i hi => if_pos (hall i hi)
  rw [hz]
  have hnorm : (finList n fun _ => (0 : K)).foldl (· + ·) (.fin 0 : XF K) = .fin 0 := by
    have : (finList n fun _ => (0 : K)) = ((List.range n).map fun _ => (0 : K)).map XF.fin := by
      unfold finList
      rw [List.map_map]
      rfl
    rw [this, foldl_fin]
    simp
  rw [hnorm]
  congr 2
  unfold finList
  rw [List.map_map]
  have hnan : ∀ i ∈ List.range n, ((· / XF.fin 0) ∘ fun _ => XF.fin (0 : K)) i = .nan := by
    intro i _
    show XF.div (.fin 0) (.fin 0) = _
    simp [XF.div, XF.infTimes]
  rw [List.map_congr_left hnan, List.map_const', List.length_range]

end CloudForest
