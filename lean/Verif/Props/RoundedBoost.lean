import Verif.Lemmas.RoundedBoost
import Verif.Props.BoostRun

/-!
# C155: gradient boosting in double precision
-/

set_option linter.unusedSectionVars false

namespace CloudForest
variable {K : Type} [Field K] [LinearOrder K] [IsStrictOrderedRing K]

theorem putAll_map (h : XF K → XF K) (f : NumFeature K) (n : Nat) (hm : f.missing.length = n) (hl : f.numData.length = n) :
    (List.range n).foldlM (fun (f : NumFeature K) i => (f.numData[i]?).bind fun x => f.put i (h x)) f =
      some { f with numData := f.numData.map h, missing := List.replicate n false } := by
  have key : ∀ k ≤ n, (List.range k).foldlM (fun (f : NumFeature K) i => (f.numData[i]?).bind fun x => f.put i (h x)) f =
      some { f with numData := (f.numData.take k).map h ++ f.numData.drop k
                    missing := List.replicate k false ++ f.missing.drop k } := by
    intro k
    induction k with
    | zero => intro _; simp
    | succ k ih =>
      intro hk
      rw [List.range_succ, List.foldlM_append, ih (by omega)]
      have hk1 : k < f.numData.length := by omega
      have hk2 : k < f.missing.length := by omega
      simp only [Option.bind_eq_bind, Option.bind_some, List.foldlM_cons, List.foldlM_nil]
      have e1 : ((f.numData.take k).map h ++ f.numData.drop k)[k]? = some f.numData[k] := by
        rw [List.getElem?_append_right (by simp), List.length_map, List.length_take, min_eq_left (by omega), Nat.sub_self,
          List.getElem?_drop, Nat.add_zero, List.getElem?_eq_getElem hk1]
      rw [e1]
      simp only [Option.bind_some]
      unfold NumFeature.put wr
      have l1 : k < ((f.numData.take k).map h ++ f.numData.drop k).length := by simp; omega
      have l2 : k < (List.replicate k false ++ f.missing.drop k).length := by simp; omega
      simp only [if_pos l1, if_pos l2, Option.bind_eq_bind, Option.bind_some]
      congr 2
      · rw [List.set_append_right _ _ (by simp), List.length_map, List.length_take, min_eq_left (by omega), Nat.sub_self,
          List.drop_eq_getElem_cons hk1, List.set_cons_zero, ← List.take_append_getElem hk1, List.map_append,
          List.append_assoc]
        rfl
      · rw [List.set_append_right _ _ (by simp), List.length_replicate, Nat.sub_self, List.replicate_succ',
          List.drop_eq_getElem_cons hk2, List.set_cons_zero]
        simp
  rw [key n le_rfl]
  rw [List.take_of_length_le (by omega), List.drop_eq_nil_of_le (by omega), List.drop_eq_nil_of_le (by omega),
    List.append_nil, List.append_nil]

section
variable {B : ℚ}

theorem tiny_small (hB : 1 / 2 ^ 900 ≤ B) : tiny64 ≤ ulp64 * B / 1000 := by
  have e1 : tiny64 = ulp64 * (1 / 2 ^ 900) * (1 / 2 ^ 122) := by
    unfold tiny64 ulp64
    rw [div_mul_div_comm, div_mul_div_comm, ← pow_add, ← pow_add, one_mul, one_mul]
  have e2 : ulp64 * (1 / 2 ^ 900) ≤ ulp64 * B := mul_le_mul_of_nonneg_left hB ulp64_pos.le
  have e3 : (1 : ℚ) / 2 ^ 122 ≤ 1 / 1000 := by norm_num
  rw [e1, div_eq_mul_one_div (ulp64 * B)]
  refine mul_le_mul e2 e3 (one_div_pos.2 (pow_pos (by norm_num) _)).le ?_
  exact le_trans (mul_pos ulp64_pos (one_div_pos.2 (pow_pos (by norm_num) _))).le e2

theorem round_upto (hB' : B ≤ 2 ^ 900) (x : ℚ) (hx : |x| ≤ 2 ^ 50 * B) :
    ∃ y, F64.round x = .fin y ∧ |y - x| ≤ ulp64 * |x| + tiny64 := by
  refine round_big (hx.trans ?_)
  calc 2 ^ 50 * B ≤ 2 ^ 50 * 2 ^ 900 := mul_le_mul_of_nonneg_left hB' (pow_pos (by norm_num) _).le
    _ = 2 ^ 950 := by rw [← pow_add]
    _ ≤ 2 ^ 1000 := pow_le_pow_right₀ (by norm_num) (by norm_num)

theorem foldlM_read (h : XF K → XF K → XF K) (xs : List (XF K)) (y : Nat → K) (n : Nat)
    (hy : ∀ i < n, xs[i]? = some (.fin (y i))) (s : XF K) :
    (List.range n).foldlM (fun (s : XF K) i => (xs[i]?).bind fun x => some (h s x)) s =
      some (((List.range n).map y).foldl (fun s q => h s (.fin q)) s) := by
  have key : ∀ (cs : List Nat) (s : XF K), (∀ c ∈ cs, c < n) →
      cs.foldlM (fun (s : XF K) i => (xs[i]?).bind fun x => some (h s x)) s =
        some ((cs.map y).foldl (fun s q => h s (.fin q)) s) := by
    intro cs
    induction cs with
    | nil => exact fun s _ => rfl
    | cons c cs ih =>
      intro s hc
      rw [List.foldlM_cons, hy c (hc c (by simp))]
      exact ih _ fun d hd => hc d (by simp [hd])
  exact key _ s fun c => List.mem_range.1

/-- The prior in double precision. -/
theorem prior_err (hB0 : 0 < B)
    (hround : ∀ x : ℚ, |x| ≤ 2 ^ 50 * B → ∃ y, F64.round x = .fin y ∧ |y - x| ≤ ulp64 * |x| + tiny64)
    (ys : List ℚ) (hne : ys ≠ []) (hn : ys.length ≤ 2 ^ 40) (hy : ∀ y ∈ ys, |y| ≤ B) (htB : tiny64 ≤ ulp64 * B / 1000) :
    ∃ P, XF.rounded F64.round (ys.foldl (fun s q => XF.rounded F64.round (s + .fin q)) (.fin 0) / XF.ofNat ys.length) = .fin P ∧
      |P - ys.sum / ys.length| ≤ 3 / 2 * (ys.length + 1) * (ulp64 * B) ∧ |P| ≤ B * (1 + 2 / 1000) := by
  obtain ⟨n, hn'⟩ : ∃ n, n = ys.length := ⟨_, rfl⟩
  have hn0 : (1 : ℚ) ≤ n := by
    have : 0 < ys.length := List.length_pos_of_ne_nil hne
    rw [hn']; exact_mod_cast this
  have hN : (n : ℚ) ≤ 2 ^ 40 := by rw [hn']; exact_mod_cast hn
  have hu := ulp64_pos
  obtain ⟨S, h1, h2⟩ := sum_fold_err (M := n * B) (B := B) (x0 := 0) (by positivity)
    (by
      have : ulp64 * B ≤ ulp64 * (n * B) := mul_le_mul_of_nonneg_left (by nlinarith) hu.le
      linarith)
    (fun x hx => hround x (hx.trans (by nlinarith))) ys hn hy (by rw [← hn']; simp)
  rw [← hn'] at h2 ⊢
  rw [h1]
  rw [zero_add] at h2
  have hnp : (0 : ℚ) < n := by linarith
  have hsum : |ys.sum| ≤ n * B := by
    rw [hn']
    clear h1 h2 hne hn hn' hn0 hN hnp
    induction ys with
    | nil => simp
    | cons a l ih =>
      have h1 := hy a (by simp)
      have h2 := ih fun z hz => hy z (by simp [hz])
      rw [List.sum_cons, List.length_cons]
      push_cast
      have := abs_add_le a l.sum
      linarith
  have d1 : |S / n - ys.sum / n| ≤ 3 / 2 * n * (ulp64 * B) := by
    rw [← sub_div, abs_div, abs_of_pos hnp, div_le_iff₀ hnp]
    linarith
  have d2 : |ys.sum / n| ≤ B := by
    rw [abs_div, abs_of_pos hnp, div_le_iff₀ hnp]
    linarith
  have hsmall : 3 / 2 * (n : ℚ) * (ulp64 * B) ≤ B / 1000 := by
    have e : 3 / 2 * 2 ^ 40 * ulp64 ≤ 1 / 1000 := by unfold ulp64; norm_num
    have : 3 / 2 * (n : ℚ) * ulp64 ≤ 1 / 1000 := by nlinarith
    have := mul_le_mul_of_nonneg_right this hB0.le
    linarith
  have d3 : |S / n| ≤ B * (1 + 1 / 1000) := by
    have := abs_add_le (S / n - ys.sum / n) (ys.sum / n)
    rw [sub_add_cancel] at this
    linarith
  obtain ⟨P, hP, eP⟩ := hround (S / n) (d3.trans (by nlinarith))
  have hulp : ulp64 ≤ 1 / 10000 := by unfold ulp64; norm_num
  have k := mul_le_mul_of_nonneg_left d3 hu.le
  have k0 : 0 ≤ ulp64 * B := by positivity
  have kB : ulp64 * B ≤ B / 10000 := by
    have := mul_le_mul_of_nonneg_right hulp hB0.le
    linarith
  refine ⟨P, ?_, ?_, ?_⟩
  · have : (XF.fin S / XF.ofNat n : XF ℚ) = .fin (S / n) := XF.fin_div _ hnp.ne'
    rw [this]
    exact hP
  · have := abs_add_le (P - S / n) (S / n - ys.sum / n)
    rw [sub_add_sub_cancel] at this
    have e : 3 / 2 * ((n : ℚ) + 1) * (ulp64 * B) = 3 / 2 * n * (ulp64 * B) + 3 / 2 * (ulp64 * B) := by ring
    rw [e]
    linarith
  · have := abs_add_le (P - S / n) (S / n)
    rw [sub_add_cancel] at this
    linarith

theorem sum_predsFor (parse : String → Option (XF K)) (fm : FeatureMatrix K) (trees : List (Tree K)) (i : Nat) :
    ((predsFor fm trees i).map (predVal parse)).sum = (trees.map fun t => treeValue parse fm t i).sum := by
  unfold predsFor
  induction trees with
  | nil => rfl
  | cons t ts ih =>
    rw [List.flatMap_cons, List.map_append, List.sum_append, ih, List.map_cons, List.sum_cons]
    congr 1
    unfold treeValue
    cases landing fm t.root i <;> simp

theorem length_predsFor (fm : FeatureMatrix K) (trees : List (Tree K)) (i : Nat) :
    (predsFor fm trees i).length ≤ trees.length := by
  unfold predsFor
  induction trees with
  | nil => exact le_rfl
  | cons t ts ih =>
    rw [List.flatMap_cons, List.length_append, List.length_cons]
    have : ((landing fm t.root i).map (·.2)).toList.length ≤ 1 := by cases landing fm t.root i <;> simp
    omega

theorem mem_predsFor {fm : FeatureMatrix K} {trees : List (Tree K)} {i : Nat} {p : String} (h : p ∈ predsFor fm trees i) :
    ∃ t ∈ trees, ∃ x, landing fm t.root i = some x ∧ x.2 = p := by
  obtain ⟨t, ht, hp⟩ := List.mem_flatMap.1 h
  cases e : landing fm t.root i with
  | none => rw [e] at hp; simp at hp
  | some x => rw [e] at hp; exact ⟨t, ht, x, e, by simpa [eq_comm] using hp⟩

theorem XF.sub_fin (x : XF K) (q : K) : x - .fin q = x + .fin (-q) := by
  cases x <;> rfl

/-- The rounded products, which the residuals lose and the votes gain. -/
theorem products (parse : String → Option (XF ℚ)) {lr : ℚ} (hlr : 0 ≤ lr) (hlr1 : lr ≤ 1) (ps : List String)
    (hB0 : 0 < B) (htB : tiny64 ≤ ulp64 * B / 1000)
    (hround : ∀ x : ℚ, |x| ≤ 2 ^ 50 * B → ∃ y, F64.round x = .fin y ∧ |y - x| ≤ ulp64 * |x| + tiny64)
    (hp : ∀ p ∈ ps, ∃ z, parse p = some (.fin z) ∧ Rep64 z ∧ |z| ≤ B) :
    ∃ qs : List ℚ, qs.length = ps.length ∧ (∀ q ∈ qs, |q| ≤ B) ∧
      (∀ x, ps.foldl (fun x p => resStep F64.round parse (.fin lr) p x) x =
        (qs.map fun q => -q).foldl (fun x q => XF.rounded F64.round (x + .fin q)) x) ∧
      (∀ s, ps.foldl (fun s p => sumStep F64.round parse (.fin lr) p s) s =
        qs.foldl (fun x q => XF.rounded F64.round (x + .fin q)) s) ∧
      |qs.sum - lr * (ps.map (predVal parse)).sum| ≤ ps.length * (2 * (ulp64 * B)) := by
  induction ps with
  | nil => exact ⟨[], rfl, by simp, fun _ => rfl, fun _ => rfl, by simp⟩
  | cons p ps ih =>
    obtain ⟨qs, h1, h2, h3, h4, h5⟩ := ih fun p hp' => hp p (by simp [hp'])
    obtain ⟨z, e, hz, hzB⟩ := hp p (by simp)
    have hzlr : |lr * z| ≤ |z| := by
      rw [abs_mul, abs_of_nonneg hlr]
      exact mul_le_of_le_one_left (abs_nonneg z) hlr1
    have hz' : Rep64 |z| := by
      rcases abs_choice z with h | h <;> rw [h]
      · exact hz
      · exact hz.neg
    obtain ⟨q, hq, hq1, hq2⟩ := F64.rounds.between hz'.neg hz' (abs_le.1 hzlr).1 (abs_le.1 hzlr).2
    obtain ⟨q', hq', hq3⟩ := hround (lr * z) ((hzlr.trans hzB).trans (by nlinarith))
    rw [hq] at hq'
    cases hq'
    have m1 : XF.rounded F64.round (.fin lr * .fin z) = .fin q := hq
    have m2 : XF.rounded F64.round (.fin z * .fin lr) = .fin q := by
      have : (.fin z * .fin lr : XF ℚ) = .fin lr * .fin z := congrArg XF.fin (mul_comm z lr)
      rw [this]
      exact hq
    have hv : predVal parse p = z := by unfold predVal; rw [e]
    refine ⟨q :: qs, by simp [h1], ?_, ?_, ?_, ?_⟩
    · intro a ha
      rcases List.mem_cons.1 ha with rfl | ha
      · exact (abs_le.2 ⟨hq1, hq2⟩).trans hzB
      · exact h2 a ha
    · intro x
      rw [List.foldl_cons, h3, List.map_cons, List.foldl_cons]
      unfold resStep
      rw [e, Option.getD_some, m1, XF.sub_fin]
    · intro x
      rw [List.foldl_cons, h4, List.foldl_cons]
      unfold sumStep
      rw [e]
      simp only [m2]
    · rw [List.sum_cons, List.map_cons, List.sum_cons, hv, List.length_cons]
      push_cast
      have := abs_add_le (q - lr * z) (qs.sum - lr * (ps.map (predVal parse)).sum)
      have e1 : q - lr * z + (qs.sum - lr * (ps.map (predVal parse)).sum) =
        q + qs.sum - lr * (z + (ps.map (predVal parse)).sum) := by ring
      rw [e1] at this
      have := mul_le_mul_of_nonneg_left (hzlr.trans hzB) ulp64_pos.le
      have : 0 < ulp64 * B := mul_pos ulp64_pos hB0
      linarith

end

/-- **C155, what holds.** A target is boosted in double precision by trees that do not split on it: prior, residuals
and votes are rounded after every operation. Afterwards, for every case, the prediction of the boosted trees and the
residual that is left add up to the original value up to rounding. The prediction is the prior plus the learning rate
times the sum of what the trees predict, and the prior the mean of the target, both up to rounding. The bounds grow with
the number of trees and cases and with the largest number among targets and predictions. Missing: equality, see
`c155_exact`. -/
theorem c155_telescope_partial (parse : String → Option (XF ℚ)) (fm : FeatureMatrix ℚ) (ti n : Nat) (f : NumFeature ℚ)
    (y : Nat → ℚ) (lr : ℚ) (trees : List (Tree ℚ)) (hti : fm.data[ti]? = some (.num f))
    (hc : fm.allCases = some (List.range n)) (hn : n ≠ 0) (hn' : n ≤ 2 ^ 40) (hm : f.missing.length = n)
    (hl : f.numData.length = n) (hy : ∀ i < n, f.numData[i]? = some (.fin (y i))) (B : ℚ) (hB : 1 / 2 ^ 900 ≤ B)
    (hB' : B ≤ 2 ^ 900) (hyB : ∀ i < n, |y i| ≤ B) (hlr : 0 ≤ lr) (hlr1 : lr ≤ 1) (hT : trees.length ≤ 2 ^ 40)
    (ht : ∀ t ∈ trees, Usable fm (List.range n) t.root ∧ t.root.Avoids fm ti ∧
      ∀ i < n, ∀ x, landing fm t.root i = some x → ∃ z, parse x.2 = some (.fin z) ∧ Rep64 z ∧ |z| ≤ B) :
    ∃ g fm' g' trees' preds, newGradBoostR F64.round f (.fin lr) = some g ∧
      GradBoost.roundsR F64.round parse ti ({ fm with data := fm.data.set ti (.num g.f) }, g) trees =
        some ((fm', g'), trees') ∧
      applySumR F64.round parse g'.mean trees' fm = some preds ∧ preds.length = n ∧
      ∃ prior, g.mean = .fin prior ∧ |prior - ((List.range n).map y).sum / n| ≤ (n + 1) * B / 2 ^ 51 ∧
        ∀ i < n, ∃ s r, preds[i]? = some (.fin s) ∧ g'.f.numData[i]? = some (.fin r) ∧
          |s + r - y i| ≤ (trees.length + 1) * (trees.length + 3) * B / 2 ^ 51 ∧
          |s - (prior + lr * (trees.map fun t => treeValue parse fm t i).sum)| ≤
            (trees.length + 1) * (trees.length + 3) * B / 2 ^ 51 := by
  have hB0 : 0 < B := lt_of_lt_of_le (one_div_pos.2 (pow_pos (by norm_num) _)) hB
  have htB := tiny_small hB
  have hround := round_upto (B := B) hB'
  clear hB hB'
  have hu := ulp64_pos
  have e51 : (4 : ℚ) * ulp64 = 1 / 2 ^ 51 := by unfold ulp64; norm_num
  -- the start
  obtain ⟨P, hP, hP1, hP2⟩ := prior_err hB0 hround ((List.range n).map y) (by simpa using hn) (by simpa using hn')
    (by intro q hq; obtain ⟨i, hi, rfl⟩ := List.mem_map.1 hq; exact hyB i (List.mem_range.1 hi)) htB
  rw [List.length_map, List.length_range] at hP hP1
  have hnew : newGradBoostR F64.round f (.fin lr) =
      some ⟨{ f with numData := f.numData.map fun x => XF.rounded F64.round (x - .fin P),
                     missing := List.replicate n false }, .fin lr, .fin P⟩ := by
    unfold newGradBoostR
    have e1 := foldlM_read (fun s x => XF.rounded F64.round (s + x)) f.numData y n hy (.fin 0)
    have e2 := putAll_map (fun x => XF.rounded F64.round (x - .fin P)) f n hm hl
    simp only [Option.bind_eq_bind] at e1 e2 ⊢
    rw [hm, e1]
    simp only [Option.bind_some, hP]
    rw [e2]
    rfl
  have hlen : (f.numData.map fun x => XF.rounded F64.round (x - .fin P)).length = n := by rw [List.length_map, hl]
  obtain ⟨fm', xs', h1, h2, h3⟩ := roundsR_each F64.round parse fm ti n f (.fin lr) (.fin P) hti hc hm trees _ hlen
    fun t h => ⟨(ht t h).1, (ht t h).2.1⟩
  rw [hlen] at h1
  obtain ⟨preds, h4, h5, h6⟩ := applySumR_each F64.round parse fm n (.fin lr) (.fin P) hlr hc trees fun t h => (ht t h).1
  refine ⟨_, fm', _, _, preds, hnew, h1, h4, h5, P, rfl, ?_, fun i hi => ?_⟩
  · refine hP1.trans ?_
    rw [mul_div_assoc, div_eq_mul_one_div B, ← e51]
    have : 0 ≤ ((n : ℚ) + 1) * (ulp64 * B) := by positivity
    linarith
  obtain ⟨qs, k1, k2, k3, k4, k5⟩ := products parse hlr hlr1 (predsFor fm trees i) hB0 htB hround fun p hp => by
    obtain ⟨t, htt, x, hx, rfl⟩ := mem_predsFor hp
    exact (ht t htt).2.2 i hi x hx
  obtain ⟨L, hL⟩ : ∃ L, L = qs.length := ⟨_, rfl⟩
  obtain ⟨T, hT'⟩ : ∃ T, T = trees.length := ⟨_, rfl⟩
  have hLT : L ≤ T := by rw [hL, k1, hT']; exact length_predsFor fm trees i
  rw [← hT'] at hT ⊢
  rw [← k1, ← hL] at k5
  have hLT' : (L : ℚ) ≤ T := by exact_mod_cast hLT
  have hTq : (T : ℚ) ≤ 2 ^ 40 := by exact_mod_cast hT
  have hL0 : (0 : ℚ) ≤ L := Nat.cast_nonneg L
  obtain ⟨M, hM⟩ : ∃ M, M = ((T : ℚ) + 3) * B := ⟨_, rfl⟩
  have hLB : (L : ℚ) * B ≤ T * B := mul_le_mul_of_nonneg_right hLT' hB0.le
  have hM3 : M = T * B + 3 * B := by rw [hM]; ring
  have hTB : 0 ≤ (T : ℚ) * B := mul_nonneg (Nat.cast_nonneg T) hB0.le
  have hMB : 3 * B ≤ M := by linarith
  have hM0 : 0 < M := by linarith
  have hE : ulp64 * (3 * B) ≤ ulp64 * M := mul_le_mul_of_nonneg_left hMB hu.le
  have hE0 : 0 < ulp64 * B := mul_pos hu hB0
  have htM : tiny64 ≤ ulp64 * M / 1000 := by linarith
  have hroundM : ∀ x : ℚ, |x| ≤ 2 * M → ∃ y, F64.round x = .fin y ∧ |y - x| ≤ ulp64 * |x| + tiny64 := fun x hx => by
    refine hround x (hx.trans ?_)
    have : (T : ℚ) * B ≤ 2 ^ 40 * B := mul_le_mul_of_nonneg_right hTq hB0.le
    rw [hM3]
    linarith
  have hulp : ulp64 ≤ 1 / 10000 := by unfold ulp64; norm_num
  have hsmall : 3 / 2 * (L : ℚ) * (ulp64 * M) ≤ M / 1000 := by
    have e : 3 / 2 * 2 ^ 40 * ulp64 ≤ 1 / 1000 := by unfold ulp64; norm_num
    have : 3 / 2 * (L : ℚ) * ulp64 ≤ 3 / 2 * 2 ^ 40 * ulp64 := by
      apply mul_le_mul_of_nonneg_right _ hu.le
      linarith
    have := mul_le_mul_of_nonneg_right (this.trans e) hM0.le
    linarith
  -- votes
  obtain ⟨V, v1, v2⟩ := sum_fold_err (x0 := 0) hM0 htM hroundM qs (by omega) k2 (by
    rw [← hL, abs_zero]; linarith)
  rw [← hL, zero_add] at v2
  have hQ : |qs.sum| ≤ L * B := by
    rw [hL]
    clear k1 k3 k4 k5 v1 v2 hL
    induction qs with
    | nil => simp
    | cons a l ih =>
      have h1 := k2 a (by simp)
      have h2 := ih fun z hz => k2 z (by simp [hz])
      rw [List.sum_cons, List.length_cons]
      push_cast
      have := abs_add_le a l.sum
      linarith
  have hV : |V + P| ≤ M * (1 + 1 / 1000) := by
    have a1 := abs_add_le (V - qs.sum) (qs.sum + P)
    have a2 := abs_add_le qs.sum P
    have e : V - qs.sum + (qs.sum + P) = V + P := by ring
    rw [e] at a1
    linarith
  obtain ⟨s, s1, s2⟩ := hroundM (V + P) (hV.trans (by linarith))
  -- the residual
  have hyi := hyB i hi
  have hyP : |y i - P| ≤ B * (2 + 2 / 1000) := by
    have := abs_sub (y i) P
    linarith
  obtain ⟨r0, r1, r2⟩ := hroundM (y i - P) (hyP.trans (by linarith))
  have kr := mul_le_mul_of_nonneg_left hyP hu.le
  have kB : ulp64 * B ≤ B / 10000 := by
    have := mul_le_mul_of_nonneg_right hulp hB0.le
    linarith
  have r3 : |r0 - (y i - P)| ≤ ulp64 * B * (2 + 3 / 1000) := by linarith
  have hr0 : |r0| ≤ B * (2 + 1 / 10) := by
    have := abs_add_le (r0 - (y i - P)) (y i - P)
    rw [sub_add_cancel] at this
    linarith
  obtain ⟨R, w1, w2⟩ := sum_fold_err (B := B) (x0 := r0) hM0 htM hroundM (qs.map fun q => -q) (by rw [List.length_map]; omega)
    (by intro a ha; obtain ⟨q, hq, rfl⟩ := List.mem_map.1 ha; rw [abs_neg]; exact k2 q hq)
    (by rw [List.length_map, ← hL]; linarith)
  rw [List.length_map, ← hL] at w2
  have hneg : (qs.map fun q => -q).sum = -qs.sum := by
    clear k1 k2 k3 k4 k5 v1 v2 hQ w1 w2 hL
    induction qs with
    | nil => simp
    | cons a l ih => rw [List.map_cons, List.sum_cons, List.sum_cons, ih]; ring
  rw [hneg] at w2
  have hEM := mul_le_mul_of_nonneg_left hV hu.le
  have hLM : (L : ℚ) * (ulp64 * M) ≤ T * (ulp64 * M) := mul_le_mul_of_nonneg_right hLT' (by positivity)
  have hTE : 0 ≤ (T : ℚ) * (ulp64 * M) := by positivity
  have hbound : ((T : ℚ) + 1) * (T + 3) * B / 2 ^ 51 = 4 * (T * (ulp64 * M)) + 4 * (ulp64 * M) := by
    rw [div_eq_mul_one_div, ← e51, hM]; ring
  refine ⟨s, R, ?_, ?_, ?_, ?_⟩
  · rw [h6 i hi, k4, v1]
    exact congrArg some s1
  · show xs'[i]? = _
    rw [h3 i hi, List.getElem?_map, hy i hi]
    simp only [Option.map_some]
    rw [k3, ← w1]
    congr 2
    rw [XF.sub_fin]
    show F64.round (y i + -P) = _
    rw [← sub_eq_add_neg]
    exact r1
  · have a1 := abs_add_le (s - (V + P)) (V - qs.sum)
    have a2 := abs_add_le (R - (r0 + -qs.sum)) (r0 - (y i - P))
    have a3 := abs_add_le (s - (V + P) + (V - qs.sum)) (R - (r0 + -qs.sum) + (r0 - (y i - P)))
    have e : s - (V + P) + (V - qs.sum) + (R - (r0 + -qs.sum) + (r0 - (y i - P))) = s + R - y i := by ring
    rw [e] at a3
    rw [hbound]
    linarith
  · have a1 := abs_add_le (s - (V + P)) (V - qs.sum)
    rw [sum_predsFor] at k5
    have a3 := abs_add_le (s - (V + P) + (V - qs.sum)) (qs.sum - lr * (trees.map fun t => treeValue parse fm t i).sum)
    have e : s - (V + P) + (V - qs.sum) + (qs.sum - lr * (trees.map fun t => treeValue parse fm t i).sum) =
      s - (P + lr * (trees.map fun t => treeValue parse fm t i).sum) := by ring
    rw [e] at a3
    have := mul_le_mul_of_nonneg_left hE hL0
    rw [hbound]
    have e2 : (L : ℚ) * (ulp64 * (3 * B)) = 3 / 2 * (L * (2 * (ulp64 * B))) := by ring
    linarith

/-- A target of two cases, one small number and one large. -/
def exTinyFM : FeatureMatrix ℚ where
  data := [.num ⟨[.fin 1, .fin (1 / 2 ^ 60)], [false, false], "N:y", false⟩,
    .num ⟨[.fin 0, .fin 3], [false, false], "N:x", true⟩]
  map s := if s = "N:x" then some 1 else if s = "N:y" then some 0 else none
  caseLabels := ["a", "b"]

/-- A tree that splits on the other feature. -/
def exTinyTree : Tree ℚ :=
  ⟨.mk none 0 (exBoostLeaf "0.5") (exBoostLeaf "0.5") .nil "" (some ⟨"N:x", true, .fin 1, []⟩), "N:y", .fin (-1)⟩

theorem exTiny_tree : Usable exTinyFM (List.range 2) exTinyTree.root ∧ exTinyTree.root.Avoids exTinyFM 0 ∧
    ∀ i < 2, ∀ x, landing exTinyFM exTinyTree.root i = some x →
      ∃ z, exBoostParse x.2 = some (.fin z) ∧ Rep64 z ∧ |z| ≤ 1 := by
  have hh : exBoostParse "0.5" = some (.fin (1 / 2)) := by decide +kernel
  have hrep : Rep64 (1 / 2) := (F64.rounds.fin (1 / 2) (1 / 2) (by decide +kernel)).1
  refine ⟨⟨⟨.num ⟨[.fin 0, .fin 3], [false, false], "N:x", true⟩, rfl, (fun _ _ => rfl),
      fun c hc => ?_⟩, ⟨rfl, rfl⟩, ⟨rfl, rfl⟩, .inl rfl⟩, ⟨fun h => absurd rfl h, fun s hs => ?_,
      ⟨fun h => absurd rfl h, (fun _ h => by cases h), trivial, trivial, trivial⟩,
      ⟨fun h => absurd rfl h, (fun _ h => by cases h), trivial, trivial, trivial⟩, trivial⟩, ?_⟩
  · exact ⟨List.mem_range.1 hc, List.mem_range.1 hc⟩
  · cases hs
    decide
  · intro i hi x hx
    have : x.2 = "0.5" := by
      have h0 : (landing exTinyFM exTinyTree.root 0).map (·.2) = some "0.5" := by decide +kernel
      have h1 : (landing exTinyFM exTinyTree.root 1).map (·.2) = some "0.5" := by decide +kernel
      interval_cases i
      · rw [hx] at h0; exact Option.some.inj h0
      · rw [hx] at h1; exact Option.some.inj h1
    rw [this]
    exact ⟨_, hh, hrep, by norm_num⟩

/-- **C155.** Exactly they do not add up: the small value of the target is lost with the first subtraction. -/
theorem c155_exact : ¬ ∀ (parse : String → Option (XF ℚ)) (fm : FeatureMatrix ℚ) (ti n : Nat) (f : NumFeature ℚ)
    (y : Nat → ℚ) (lr : ℚ) (trees : List (Tree ℚ)), fm.data[ti]? = some (.num f) →
    fm.allCases = some (List.range n) → n ≠ 0 → f.missing.length = n → f.numData.length = n →
    (∀ i < n, f.numData[i]? = some (.fin (y i))) → (∀ i < n, |y i| ≤ 1) → 0 ≤ lr → lr ≤ 1 →
    (∀ t ∈ trees, Usable fm (List.range n) t.root ∧ t.root.Avoids fm ti ∧
      ∀ i < n, ∀ x, landing fm t.root i = some x → ∃ z, parse x.2 = some (.fin z) ∧ Rep64 z ∧ |z| ≤ 1) →
    ∀ g fm' g' trees' preds, newGradBoostR F64.round f (.fin lr) = some g →
      GradBoost.roundsR F64.round parse ti ({ fm with data := fm.data.set ti (.num g.f) }, g) trees =
        some ((fm', g'), trees') →
      applySumR F64.round parse g'.mean trees' fm = some preds →
      ∀ i < n, ∀ s r, preds[i]? = some (.fin s) → g'.f.numData[i]? = some (.fin r) → s + r = y i := by
  intro h
  have key : ((newGradBoostR F64.round ⟨[.fin 1, .fin (1 / 2 ^ 60)], [false, false], "N:y", false⟩ (.fin 1)).bind fun g =>
      (GradBoost.roundsR F64.round exBoostParse 0 ({ exTinyFM with data := exTinyFM.data.set 0 (.num g.f) }, g)
        [exTinyTree]).bind fun st => (applySumR F64.round exBoostParse st.1.2.mean st.2 exTinyFM).map fun preds =>
          (preds[1]?, st.1.2.f.numData[1]?)) = some (some (.fin 1), some (.fin (-1))) := by decide +kernel
  obtain ⟨g, hg, key⟩ := Option.bind_eq_some_iff.1 key
  obtain ⟨⟨⟨fm', g'⟩, trees'⟩, hr, key⟩ := Option.bind_eq_some_iff.1 key
  obtain ⟨preds, hp, key⟩ := Option.map_eq_some_iff.1 key
  obtain ⟨k1, k2⟩ := Prod.mk.inj key
  have := h exBoostParse exTinyFM 0 2 ⟨[.fin 1, .fin (1 / 2 ^ 60)], [false, false], "N:y", false⟩
    (fun i => if i = 0 then 1 else 1 / 2 ^ 60) 1 [exTinyTree] rfl rfl (by decide) rfl rfl
    (by intro i hi; interval_cases i <;> rfl)
    (by intro i hi; interval_cases i <;> norm_num [abs_of_pos]) (by norm_num) le_rfl
    (by intro t ht; rw [List.mem_singleton.1 ht]; exact exTiny_tree)
    g fm' g' trees' preds hg hr hp 1 (by decide) 1 (-1) k1 k2
  norm_num at this

example : ∃ preds, preds.length = 2 ∧ ∃ g fm' g' trees', newGradBoostR F64.round
      ⟨[.fin 1, .fin (1 / 2 ^ 60)], [false, false], "N:y", false⟩ (.fin (1 / 8)) = some g ∧
    GradBoost.roundsR F64.round exBoostParse 0 ({ exTinyFM with data := exTinyFM.data.set 0 (.num g.f) }, g)
      [exTinyTree, exTinyTree] = some ((fm', g'), trees') ∧
    applySumR F64.round exBoostParse g'.mean trees' exTinyFM = some preds := by
  obtain ⟨g, fm', g', trees', preds, h1, h2, h3, h4, -⟩ := c155_telescope_partial exBoostParse exTinyFM 0 2
    ⟨[.fin 1, .fin (1 / 2 ^ 60)], [false, false], "N:y", false⟩
    (fun i => if i = 0 then 1 else 1 / 2 ^ 60) (1 / 8) [exTinyTree, exTinyTree] rfl rfl (by decide) (by norm_num) rfl rfl
    (by intro i hi; interval_cases i <;> rfl) 1
    (by rw [div_le_one (pow_pos (by norm_num) _)]; exact one_le_pow₀ (by norm_num)) (one_le_pow₀ (by norm_num))
    (by intro i hi; interval_cases i <;> norm_num [abs_of_pos]) (by norm_num) (by norm_num)
    (by show 2 ≤ 2 ^ 40; norm_num)
    (by intro t ht; simp only [List.mem_cons, List.not_mem_nil, or_false, or_self] at ht; rw [ht]; exact exTiny_tree)
  exact ⟨preds, h4, g, fm', g', trees', h1, h2, h3⟩

end CloudForest
