import Verif.Model.AdaCost
import Verif.Lemmas.AdaBoost
import Verif.Lemmas.Targets2

/-!
# Lemmas for cost-sensitive adaptive boosting
-/

set_option linter.unusedSectionVars false

namespace CloudForest
variable {K : Type} [Field K] [LinearOrder K] [IsStrictOrderedRing K]

/-- The factor of a case in a leaf of class `m`. -/
def costFac (f : CatFeature) (E : K → K) (x : Nat → K) (α : K) (m : Nat) (c : Nat) : K :=
  if f.missing[c]? = some true then 1 else (if f.catData[c]? ≠ some m then E α else E (-α)) * x (f.cat c)

theorem adaCostReweigh_eq (el : ExpLog K) {E L : K → K} (law : el.Lawful E L) (f : CatFeature) (n : Nat)
    (hm : f.missing.length = n) (α : K) (m : Nat) (cs : List Nat) (hr : f.InRange f.cm.nCats cs)
    (hc : ∀ c ∈ cs, c < n) (w x : Nat → K) :
    cs.foldlM (adaCostReweigh el f (finList f.cm.nCats x) (.fin α) m) (finList n w) =
      some (finList n fun i => w i * costFac f E x α m i ^ cs.count i) := by
  induction cs generalizing w with
  | nil => simp
  | cons c cs ih =>
    have hcn := hc c (by simp)
    obtain ⟨k, hk, hkn⟩ := hr c (by simp)
    have hcat := cat_of_get hk
    have hstep : adaCostReweigh el f (finList f.cm.nCats x) (.fin α) m (finList n w) c =
        some (finList n (Function.update w c (w c * costFac f E x α m c))) := by
      unfold adaCostReweigh
      have hmc : ∃ b, f.missing[c]? = some b := ⟨_, List.getElem?_eq_getElem (by omega)⟩
      obtain ⟨b, hb⟩ := hmc
      rw [hb, hk, finList_get w hcn]
      simp only [Option.bind_eq_bind, Option.bind_some]
      cases b with
      | true =>
        simp only [if_true]
        congr 1
        apply finList_congr
        intro i _
        by_cases hi : i = c
        · subst hi; simp [costFac, hb]
        · rw [Function.update_of_ne hi]
      | false =>
        simp only [Bool.false_eq_true, if_false, finList_get x hkn, Option.bind_some]
        have hfac : (XF.fin (w c) * (if k ≠ m then el.exp (.fin α) else el.exp (-.fin α)) * XF.fin (x k) : XF K) =
            .fin (w c * costFac f E x α m c) := by
          have hneg : (-(.fin α) : XF K) = .fin (-α) := rfl
          unfold costFac
          rw [hneg, law.exp, law.exp, hb, hk]
          by_cases hkm : k = m
          · simp [hkm, hcat, mul_assoc]
          · simp [hkm, hcat, mul_assoc]
        rw [hfac]
        unfold wr
        rw [finList_length, if_pos hcn, finList_set]
    rw [List.foldlM_cons, hstep]
    refine (ih (fun x hx => hr x (by simp [hx])) (fun x hx => hc x (by simp [hx])) _).trans ?_
    congr 1
    apply finList_congr
    intro i _
    rw [List.count_cons]
    by_cases hi : i = c
    · subst hi
      simp [pow_succ]
      ring
    · rw [Function.update_of_ne hi]
      have : (c == i) = false := by simpa using Ne.symm hi
      simp [this]

/-- The product of the factors of a case over all leaves. -/
def costFactor (f : CatFeature) (E : K → K) (x : Nat → K) (α : K) (leaves : List (List Nat)) (i : Nat) : K :=
  (leaves.map fun leaf => costFac f E x α (adaPick f leaf) i ^ leaf.count i).prod

theorem costFactor_of_mem (f : CatFeature) (E : K → K) (x : Nat → K) (α : K) (leaves : List (List Nat)) (hd : leaves.flatten.Nodup)
    (leaf : List Nat) (hl : leaf ∈ leaves) (i : Nat) (hi : i ∈ leaf) :
    costFactor f E x α leaves i = costFac f E x α (adaPick f leaf) i := by
  unfold costFactor
  induction leaves with
  | nil => cases hl
  | cons y ls ih =>
    rw [List.flatten_cons, List.nodup_append] at hd
    obtain ⟨h1, h2, h3⟩ := hd
    have hnot : ∀ ls : List (List Nat), i ∉ ls.flatten →
        (ls.map fun leaf => costFac f E x α (adaPick f leaf) i ^ leaf.count i).prod = 1 := by
      intro ls hi
      induction ls with
      | nil => rfl
      | cons z ls ih =>
        rw [List.flatten_cons, List.mem_append, not_or] at hi
        rw [List.map_cons, List.prod_cons, ih hi.2, List.count_eq_zero_of_not_mem hi.1]
        simp
    rw [List.map_cons, List.prod_cons]
    by_cases hx : i ∈ y
    · have hnr : i ∉ ls.flatten := fun h => h3 i hx i h rfl
      rw [hnot ls hnr, mul_one, List.count_eq_one_of_mem h1 hx, pow_one]
      rcases List.mem_cons.1 hl with rfl | hl
      · rfl
      · exact absurd (List.mem_flatten.2 ⟨leaf, hl, hi⟩) hnr
    · rw [List.count_eq_zero_of_not_mem hx, pow_zero, one_mul]
      rcases List.mem_cons.1 hl with rfl | hl
      · exact absurd hi hx
      · exact ih h2 hl

/-- `AdaCostTarget.Boost` in closed form. -/
theorem adaCostBoost_eq (el : ExpLog K) {E L : K → K} (law : el.Lawful E L) (f : CatFeature) (n : Nat)
    (hm : f.missing.length = n) (w x : Nat → K) (leaves : List (List Nat))
    (hl : f.Leaves n leaves) (hpos : 0 < weightedError f (adaPick f) (fun c => w c * x (f.cat c)) leaves)
    (hS : ((List.range n).map fun i => w i * costFactor f E x (1 / 2 * L ((1 - weightedError f (adaPick f) (fun c => w c * x (f.cat c)) leaves) /
      weightedError f (adaPick f) (fun c => w c * x (f.cat c)) leaves)) leaves i).sum ≠ 0) :
    adaCostBoost el f (finList f.cm.nCats x) (finList n w) leaves =
      if 1 / 2 ≤ weightedError f (adaPick f) (fun c => w c * x (f.cat c)) leaves then some (finList n w, .fin 0)
      else
        let α := 1 / 2 * L ((1 - weightedError f (adaPick f) (fun c => w c * x (f.cat c)) leaves) /
          weightedError f (adaPick f) (fun c => w c * x (f.cat c)) leaves)
        some (finList n fun i => w i * costFactor f E x α leaves i /
          ((List.range n).map fun i => w i * costFactor f E x α leaves i).sum, .fin α) := by
  unfold adaCostBoost
  have herr : ∀ (ls : List (List Nat)) (e : K) (counter : List Int), counter.length = f.cm.nCats →
      (∀ leaf ∈ ls, f.InRange f.cm.nCats leaf ∧ ∀ c ∈ leaf, c < n) → ∃ counter', counter'.length = f.cm.nCats ∧
      ls.foldlM (fun (acc : XF K × List Int) cases => do
        let counter ← f.countPerCat cases acc.2
        let e ← adaCostImpFromCounts f (finList n w) (finList f.cm.nCats x) cases counter
        some (acc.1 + e, counter)) (.fin e, counter) =
      some (.fin (e + weightedError f (adaPick f) (fun c => w c * x (f.cat c)) ls), counter') := by
    intro ls
    induction ls with
    | nil => intro e counter h _; exact ⟨counter, h, by simp [weightedError]⟩
    | cons leaf ls ih =>
      intro e counter h hls
      obtain ⟨h1, h2⟩ := hls leaf (by simp)
      obtain ⟨c', h3, h4⟩ := ih (e + ((leaf.filter fun c => decide (f.catData[c]? ≠ some (adaPick f leaf))).map fun c => w c * x (f.cat c)).sum)
        (f.counts f.cm.nCats leaf) (counts_length _ _ _) fun x hx => hls x (by simp [hx])
      refine ⟨c', h3, ?_⟩
      rw [List.foldlM_cons, countPerCat_eq f leaf counter (by rw [h]; exact h1), h]
      simp only [Option.bind_eq_bind, Option.bind_some]
      rw [(adaCost_caseImp f f.cm.nCats n w x leaf h1 h2).eq leaf fun c h => h]
      refine h4.trans ?_
      unfold weightedError
      rw [List.map_cons, List.sum_cons, add_assoc]
  have hls : ∀ leaf ∈ leaves, f.InRange f.cm.nCats leaf ∧ ∀ c ∈ leaf, c < n :=
    fun leaf h => ⟨hl.range leaf h, hl.cases leaf h⟩
  obtain ⟨counter, hcl, e1⟩ := herr leaves 0 (List.replicate f.cm.nCats 0) (by simp) hls
  rw [e1]
  simp only [Option.bind_eq_bind, Option.bind_some, zero_add]
  generalize weightedError f (adaPick f) (fun c => w c * x (f.cat c)) leaves = err at hpos hS
  by_cases hhalf : 1 / 2 ≤ err
  · rw [if_pos hhalf, if_pos (show (XF.fin (1 / 2) : XF K) ≤ .fin err from hhalf)]
  · rw [if_neg hhalf, if_neg (show ¬ (XF.fin (1 / 2) : XF K) ≤ .fin err from hhalf)]
    have hlt : err < 1 / 2 := not_le.1 hhalf
    have hquot : 0 < (1 - err) / err := div_pos (by linarith) hpos
    have hdiv : ((.fin 1 - .fin err) / .fin err : XF K) = .fin ((1 - err) / err) := by
      show XF.div (.fin (1 + -err)) (.fin err) = _
      unfold XF.div
      simp only
      rw [if_neg hpos.ne', sub_eq_add_neg]
    have hα : (.fin (1 / 2) * el.log ((.fin 1 - .fin err) / .fin err) : XF K) = .fin (1 / 2 * L ((1 - err) / err)) := by
      rw [hdiv, law.log _ hquot]
      rfl
    rw [hα]
    generalize 1 / 2 * L ((1 - err) / err) = α at hS
    have hre : ∀ (ls : List (List Nat)) (w : Nat → K) (counter : List Int), counter.length = f.cm.nCats →
        (∀ leaf ∈ ls, f.InRange f.cm.nCats leaf ∧ ∀ c ∈ leaf, c < n) → ∃ counter',
        ls.foldlM (fun (acc : List (XF K) × List Int) cases =>
          (f.countPerCat cases acc.2).bind fun counter =>
          (cases.foldlM (adaCostReweigh el f (finList f.cm.nCats x) (.fin α) (firstMost counter)) acc.1).bind fun weights =>
          some (weights, counter)) (finList n w, counter) =
        some (finList n fun i => w i * costFactor f E x α ls i, counter') := by
      intro ls
      induction ls with
      | nil => intro w counter h _; exact ⟨counter, by simp [costFactor]⟩
      | cons leaf ls ih =>
        intro w counter h hls
        obtain ⟨h1, h2⟩ := hls leaf (by simp)
        obtain ⟨c', h4⟩ := ih (fun i => w i * costFac f E x α (adaPick f leaf) i ^ leaf.count i)
          (f.counts f.cm.nCats leaf) (counts_length _ _ _) fun x hx => hls x (by simp [hx])
        refine ⟨c', ?_⟩
        rw [List.foldlM_cons, countPerCat_eq f leaf counter (by rw [h]; exact h1), h]
        simp only [Option.bind_eq_bind, Option.bind_some]
        rw [adaCostReweigh_eq el law f n hm α _ leaf h1 h2]
        refine h4.trans ?_
        congr 2
        apply finList_congr
        intro i _
        unfold costFactor
        rw [List.map_cons, List.prod_cons, mul_assoc]
    obtain ⟨c', e2⟩ := hre leaves w counter hcl hls
    rw [e2]
    simp only [Option.bind_some]
    congr 2
    have hnorm : (finList n fun i => w i * costFactor f E x α leaves i).foldl (· + ·) (.fin 0 : XF K) =
        .fin ((List.range n).map fun i => w i * costFactor f E x α leaves i).sum := by
      have : (finList n fun i => w i * costFactor f E x α leaves i) =
          ((List.range n).map fun i => w i * costFactor f E x α leaves i).map XF.fin := by
        unfold finList
        rw [List.map_map]
        rfl
      rw [this, foldl_fin, zero_add]
    rw [hnorm]
    generalize ((List.range n).map fun i => w i * costFactor f E x α leaves i).sum = S at hS
    unfold finList
    rw [List.map_map]
    apply List.map_congr_left
    intro i _
    show XF.div (.fin _) (.fin S) = _
    unfold XF.div
    simp only
    rw [if_neg hS]

end CloudForest
