import Verif.Model.RoundedVotes
import Verif.Lemmas.RoundedGini
import Verif.Lemmas.Ballot

/-! # Lemmas on running means in floating point -/

set_option linter.unusedSectionVars false

namespace CloudForest
variable {K : Type} [Field K] [LinearOrder K] [IsStrictOrderedRing K]

theorem round_big {x : ℚ} (h : |x| ≤ 2 ^ 1000) : ∃ y, F64.round x = .fin y ∧ |y - x| ≤ ulp64 * |x| + tiny64 := by
  have hp : (2 : ℚ) ^ 1000 < 2 ^ 1024 := pow_lt_pow_right₀ (by norm_num) (by norm_num)
  have hr : Rep64 ((2 : ℚ) ^ 1000) :=
    ⟨1, 1000, by norm_num, by norm_num, by rw [Int.cast_one, one_mul]; rfl, by rw [abs_of_pos (by positivity)]; exact hp⟩
  have hr' : Rep64 (-(2 : ℚ) ^ 1000) :=
    ⟨-1, 1000, by norm_num, by norm_num, by rw [Int.cast_neg, Int.cast_one, neg_one_mul]; rfl, by
      rw [abs_neg, abs_of_pos (by positivity)]; exact hp⟩
  obtain ⟨h1, h2⟩ := abs_le.1 h
  obtain ⟨y, e, -, -⟩ := F64.rounds.between hr' hr h1 h2
  exact ⟨y, e, round_err e⟩

/-- The running mean after some votes of weight one. -/
def meanFold (r : K → XF K) (ys : List K) : RunningMean K :=
  ys.foldl (fun m y => m.weightedAddR r (.fin y) (.fin 1)) .new

theorem meanFold_append (r : K → XF K) (ys : List K) (y : K) :
    meanFold r (ys ++ [y]) = (meanFold r ys).weightedAddR r (.fin y) (.fin 1) := by
  unfold meanFold
  rw [List.foldl_append]
  rfl

theorem meanFold_err' {V : ℚ} (hV0 : 0 < V) (htV : tiny64 ≤ ulp64 * V / 1000)
    (round_big : ∀ x : ℚ, |x| ≤ 2 * V * 2 ^ 40 → ∃ y, F64.round x = .fin y ∧ |y - x| ≤ ulp64 * |x| + tiny64)
    (ys : List ℚ) (hn : ys.length ≤ 2 ^ 40)
    (hy : ∀ y ∈ ys, Rep64 y ∧ |y| ≤ V) :
    ∃ M, meanFold F64.round ys = ⟨.fin M, .fin ys.length⟩ ∧
      |ys.length * M - ys.sum| ≤ 2 * ulp64 * V * (ys.length * (ys.length + 1)) := by
  induction ys using List.reverseRecOn with
  | nil => exact ⟨0, by simp [meanFold, RunningMean.new], by simp⟩
  | append_singleton ys y ih =>
    rw [List.length_append, List.length_singleton] at hn
    obtain ⟨M, h1, h2⟩ := ih (by omega) (fun z hz => hy z (by simp [hz]))
    obtain ⟨hrep, hyV⟩ := hy y (by simp)
    obtain ⟨n, hn'⟩ : ∃ n, n = ys.length := ⟨_, rfl⟩
    rw [← hn'] at hn h1 h2
    have hu := ulp64_pos
    have ht := tiny64_pos
    have hN : (0 : ℚ) ≤ n := Nat.cast_nonneg n
    have hN40 : (n : ℚ) + 1 ≤ 2 ^ 40 := by exact_mod_cast hn
    have hsum : |ys.sum| ≤ n * V := by
      rw [hn']
      clear h1 h2 ih hn hN hN40 hn'
      induction ys with
      | nil => simp
      | cons a l ih =>
        have h1 := (hy a (by simp)).2
        have h2 := ih fun z hz => hy z (by simp only [List.cons_append, List.mem_cons]; exact .inr hz)
        rw [List.sum_cons, List.length_cons]
        push_cast
        have := abs_add_le a l.sum
        linarith
    -- the exact product is at most slightly more than n V
    have hprod : |n * M| ≤ n * V * (1 + 1 / 1000) := by
      have h3 : |n * M| ≤ |ys.sum| + |n * M - ys.sum| := by
        have := abs_add_le (ys.sum) (n * M - ys.sum)
        rwa [add_sub_cancel] at this
      have h4 : 2 * ulp64 * V * (n * (n + 1)) ≤ n * V * (1 / 1000) := by
        have : 2 * ulp64 * (n + 1) ≤ 1 / 1000 := by
          have := mul_le_mul_of_nonneg_left hN40 (show 0 ≤ 2 * ulp64 by positivity)
          have e : 2 * ulp64 * 2 ^ 40 ≤ 1 / 1000 := by unfold ulp64; norm_num
          linarith
        have := mul_le_mul_of_nonneg_left this (show 0 ≤ (n : ℚ) * V by positivity)
        nlinarith
      linarith
    have hu1 : ulp64 ≤ 1 / 1000 := by unfold ulp64; norm_num
    have big : ∀ {x : ℚ}, |x| ≤ 2 * V * (n + 1) → |x| ≤ 2 * V * 2 ^ 40 := by
      intro x hx
      have := mul_le_mul_of_nonneg_left hN40 (show 0 ≤ 2 * V by positivity)
      linarith
    have hVn : V ≤ V * (n + 1) := by nlinarith
    -- product
    obtain ⟨p, hp, ep⟩ := round_big (M * n) (big (by rw [mul_comm M]; nlinarith))
    rw [mul_comm M, abs_sub_comm] at ep
    have ep' : |p - n * M| ≤ ulp64 * V * (n + 1) * (1 + 3 / 1000) := by
      rw [abs_sub_comm]
      refine ep.trans ?_
      have e1 := mul_le_mul_of_nonneg_left hprod hu.le
      have e2 : tiny64 ≤ ulp64 * (V * (n + 1)) / 1000 := by
        have := mul_le_mul_of_nonneg_left hVn hu.le
        linarith
      have e3 : 0 ≤ ulp64 * V := by positivity
      have e4 : 0 ≤ ulp64 * V * n := by positivity
      nlinarith
    have hpabs : |p| ≤ n * V * (1 + 1 / 1000) + V * (n + 1) * (2 / 1000) := by
      have h3 := abs_add_le (n * M) (p - n * M)
      rw [add_sub_cancel] at h3
      have : ulp64 * V * (n + 1) * (1 + 3 / 1000) ≤ V * (n + 1) * (2 / 1000) := by
        have := mul_le_mul_of_nonneg_right hu1 (show 0 ≤ V * (n + 1) * (1 + 3 / 1000) by positivity)
        have h0 : 0 ≤ V * (n + 1) := by positivity
        nlinarith
      linarith
    -- sum
    have hpy : |p + y| ≤ V * (n + 1) * (1 + 4 / 1000) := by
      have := abs_add_le p y
      have h0 : 0 ≤ V * n := by positivity
      nlinarith
    obtain ⟨q, hq, eq⟩ := round_big (p + y) (big (hpy.trans (by nlinarith)))
    have eq' : |q - (p + y)| ≤ ulp64 * V * (n + 1) * (1 + 6 / 1000) := by
      refine eq.trans ?_
      have e1 := mul_le_mul_of_nonneg_left hpy hu.le
      have e2 : tiny64 ≤ ulp64 * (V * (n + 1)) / 1000 := by
        have := mul_le_mul_of_nonneg_left hVn hu.le
        linarith
      nlinarith
    have hqabs : |q| ≤ V * (n + 1) * (1 + 7 / 1000) := by
      have h3 := abs_add_le (p + y) (q - (p + y))
      rw [add_sub_cancel] at h3
      have : ulp64 * V * (n + 1) * (1 + 6 / 1000) ≤ V * (n + 1) * (2 / 1000) := by
        have := mul_le_mul_of_nonneg_right hu1 (show 0 ≤ V * (n + 1) * (1 + 6 / 1000) by positivity)
        have h0 : 0 ≤ V * (n + 1) := by positivity
        nlinarith
      linarith
    -- quotient
    have hN1 : (0 : ℚ) < n + 1 := by linarith
    have hdiv : |q / (n + 1)| * (n + 1) = |q| := by
      rw [abs_div, abs_of_pos hN1, div_mul_cancel₀ _ hN1.ne']
    have hdabs : |q / (n + 1)| ≤ V * (1 + 7 / 1000) := by
      rw [abs_div, abs_of_pos hN1, div_le_iff₀ hN1]
      linarith
    obtain ⟨M', hM', eM⟩ := round_big (q / (n + 1)) (big (hdabs.trans (by nlinarith)))
    refine ⟨M', ?_, ?_⟩
    · rw [meanFold_append, h1, RunningMean.weightedAddR, if_pos ⟨rfl, rfl⟩]
      have e1 : F64.round ((n : ℚ) + 1) = .fin ((n : ℚ) + 1) := by
        have := round_int (m := (n + 1 : ℕ)) (by
          rw [abs_of_nonneg (by positivity)]
          have : n + 1 ≤ 2 ^ 53 := by omega
          exact_mod_cast this)
        push_cast at this
        exact this
      have e2 : XF.rounded F64.round ((.fin (n : ℚ) : XF ℚ) + .fin 1) = .fin ((n : ℚ) + 1) := e1
      have e3 : XF.rounded F64.round ((.fin M : XF ℚ) * .fin (n : ℚ)) = .fin p := hp
      have e4 : XF.rounded F64.round ((.fin 1 : XF ℚ) * .fin y) = .fin y := by
        show F64.round (1 * y) = .fin y
        rw [one_mul]
        exact F64.rounds.self hrep
      have e5 : XF.rounded F64.round ((.fin p : XF ℚ) + .fin y) = .fin q := hq
      have e6 : XF.rounded F64.round ((.fin q : XF ℚ) / .fin ((n : ℚ) + 1)) = .fin M' := by
        rw [XF.fin_div _ hN1.ne']
        exact hM'
      rw [e2, e3, e4, e5, e6]
      simp [← hn']
    · rw [List.length_append, List.length_singleton, List.sum_append, List.sum_singleton, ← hn']
      push_cast
      have k1 : (n + 1) * M' - (ys.sum + y) =
          (n + 1) * (M' - q / (n + 1)) + (q - (p + y)) + (p - n * M) + (n * M - ys.sum) := by
        field_simp
        ring
      have k2 : |(n + 1) * (M' - q / (n + 1))| ≤ ulp64 * V * (n + 1) * (1 + 8 / 1000) := by
        rw [abs_mul, abs_of_pos hN1]
        have := mul_le_mul_of_nonneg_left eM hN1.le
        have e2 : (n + 1) * tiny64 ≤ ulp64 * (V * (n + 1)) / 1000 := by
          have := mul_le_mul_of_nonneg_left htV hN1.le
          linarith
        have e3 := mul_le_mul_of_nonneg_left hqabs hu.le
        have e4 : (n + 1) * (ulp64 * |q / (n + 1)| + tiny64) = ulp64 * |q| + (n + 1) * tiny64 := by
          rw [← hdiv]; ring
        rw [e4] at this
        linarith
      rw [k1]
      have l1 := abs_add_le ((n + 1) * (M' - q / (n + 1)) + (q - (p + y)) + (p - n * M)) (n * M - ys.sum)
      have l2 := abs_add_le ((n + 1) * (M' - q / (n + 1)) + (q - (p + y))) (p - n * M)
      have l3 := abs_add_le ((n + 1) * (M' - q / (n + 1))) (q - (p + y))
      have h0 : 0 ≤ ulp64 * V * (n + 1) := by positivity
      have k3 : 2 * ulp64 * V * ((n + 1) * (n + 1 + 1)) = 2 * ulp64 * V * (n * (n + 1)) + 4 * (ulp64 * V * (n + 1)) := by ring
      rw [k3]
      linarith

theorem meanFold_err {V : ℚ} (hV : 1 / 2 ^ 900 ≤ V) (hV' : V ≤ 2 ^ 900) (ys : List ℚ) (hn : ys.length ≤ 2 ^ 40)
    (hy : ∀ y ∈ ys, Rep64 y ∧ |y| ≤ V) :
    ∃ M, meanFold F64.round ys = ⟨.fin M, .fin ys.length⟩ ∧
      |ys.length * M - ys.sum| ≤ 2 * ulp64 * V * (ys.length * (ys.length + 1)) := by
  refine meanFold_err' (lt_of_lt_of_le (one_div_pos.2 (pow_pos (by norm_num) _)) hV) ?_ (fun x hx => round_big (hx.trans ?_))
    ys hn hy
  · have e1 : tiny64 = ulp64 * (1 / 2 ^ 900) * (1 / 2 ^ 122) := by
      unfold tiny64 ulp64
      rw [div_mul_div_comm, div_mul_div_comm, ← pow_add, ← pow_add, one_mul, one_mul]
    have e2 : ulp64 * (1 / 2 ^ 900) ≤ ulp64 * V := mul_le_mul_of_nonneg_left hV ulp64_pos.le
    have e3 : (1 : ℚ) / 2 ^ 122 ≤ 1 / 1000 := by norm_num
    rw [e1, div_eq_mul_one_div (ulp64 * V)]
    refine mul_le_mul e2 e3 (one_div_pos.2 (pow_pos (by norm_num) _)).le ?_
    exact le_trans (mul_pos ulp64_pos (one_div_pos.2 (pow_pos (by norm_num) _))).le e2
  · calc 2 * V * 2 ^ 40 ≤ 2 * 2 ^ 900 * 2 ^ 40 := by
          refine mul_le_mul_of_nonneg_right (mul_le_mul_of_nonneg_left hV' (by norm_num)) (pow_pos (by norm_num) _).le
      _ = 2 ^ 941 := by rw [← pow_succ', ← pow_add]
      _ ≤ 2 ^ 1000 := pow_le_pow_right₀ (by norm_num) (by norm_num)

end CloudForest
