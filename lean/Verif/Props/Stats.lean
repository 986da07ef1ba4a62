import Verif.Lemmas.Stats
import Verif.Model.Driver
import Verif.Props.Shuffle
import Mathlib.Analysis.SpecialFunctions.Pow.Real
import Mathlib.Analysis.SpecialFunctions.Gamma.Basic

/-!
# Properties C95 and C96: Welch's t-test and the features it selects
-/

set_option linter.unusedSectionVars false

namespace CloudForest
variable {K : Type} [Field K] [LinearOrder K] [IsStrictOrderedRing K]

/-! ## C95 -/

/-- **C95**, the statistics of a sample of at least two: `MeanAndVar` gives its mean, its unbiased
variance and its size. -/
theorem c95_mean_var (xs : List K) (h : 2 ≤ xs.length) :
    meanAndVar (xs.map XF.fin) = (.fin (sampleMean xs), .fin (sampleVar xs), .fin xs.length) :=
  meanAndVar_eq xs h

/-- **C95**, the test statistic: `Ttest` gives Welch's t, the difference of the means by the root
of the sum of the squared standard errors, his degrees of freedom, and the first mean. Missing
are samples of one value, and samples without any variance, see `c96_one_permutation` and
`c96_constant_scores`; and the probability is exact in special cases only. -/
theorem c95_welch_partial (F : MathFns K) (A B : List K) (hA : 2 ≤ A.length) (hB : 2 ≤ B.length)
    (r : K) (hs : F.sqrt (.fin (seSq A + seSq B)) = .fin r) (hr : r * r = seSq A + seSq B)
    (hr0 : r ≠ 0) :
    let T := ttest F (A.map XF.fin) (B.map XF.fin)
    T.t = .fin ((sampleMean A - sampleMean B) / r) ∧ T.v = .fin (welchDf A B) ∧
      T.am = .fin (sampleMean A) := by
  intro T
  have := ttest_stats F A B hA hB r hs hr hr0
  exact ⟨by rw [show T = _ from this], by rw [show T = _ from this], by rw [show T = _ from this]⟩

theorem tailProb_neg (F : MathFns K) (t v p : K) (ht : 0 < t) :
    tailProb F (.fin t) (.fin v) = .fin p ↔ tailProb F (.fin (-t)) (.fin v) = .fin (1 - p) := by
  have h1 : (.fin 0 : XF K) < .fin t := ht
  have h2 : ¬ (.fin 0 : XF K) < .fin (-t) := by
    show ¬ (0 : K) < -t
    linarith
  unfold tailProb
  simp only [if_pos h1, if_neg h2, XF.fin_mul, neg_mul_neg]
  generalize tailIntegral F (.fin (t * t)) (.fin v) = I
  cases I with
  | nan => constructor <;> intro h <;> cases h
  | pinf =>
    have : (XF.pinf / XF.fin 2 : XF K) = .pinf := by
      show (if (2 : K) < 0 then _ else _) = _
      rw [if_neg (by norm_num)]
    rw [this]
    constructor <;> intro h <;> cases h
  | ninf =>
    have : (XF.ninf / XF.fin 2 : XF K) = .ninf := by
      show (if (2 : K) < 0 then _ else _) = _
      rw [if_neg (by norm_num)]
    rw [this]
    constructor <;> intro h <;> cases h
  | fin x =>
    rw [XF.fin_div _ (two_ne_zero), XF.fin_sub]
    simp only [XF.fin.injEq]
    constructor <;> intro h <;> linarith

/-- **C95**, one side against the other: exchanging samples with different means turns `p` into
`1 - p`. -/
theorem c95_exchange (F : MathFns K) (A B : List K) (hA : 2 ≤ A.length) (hB : 2 ≤ B.length)
    (r : K) (hs : F.sqrt (.fin (seSq A + seSq B)) = .fin r) (hr : r * r = seSq A + seSq B)
    (hr0 : 0 < r) (hne : sampleMean A ≠ sampleMean B) (p : K)
    (hp : (ttest F (A.map XF.fin) (B.map XF.fin)).p = .fin p) :
    (ttest F (B.map XF.fin) (A.map XF.fin)).p = .fin (1 - p) := by
  have e1 := ttest_stats F A B hA hB r hs hr hr0.ne'
  have e2 := ttest_stats F B A hB hA r (by rw [add_comm]; exact hs) (by rw [add_comm]; exact hr)
    hr0.ne'
  rw [e1] at hp
  rw [e2]
  simp only at hp ⊢
  have hdf : welchDf B A = welchDf A B := by
    unfold welchDf
    rw [add_comm (seSq B) (seSq A), add_comm (seSq B ^ 2 / _)]
  rw [hdf]
  have hneg : (sampleMean B - sampleMean A) / r = -((sampleMean A - sampleMean B) / r) := by ring
  rw [hneg]
  rcases lt_or_gt_of_ne hne with h | h
  · have ht : 0 < -((sampleMean A - sampleMean B) / r) := by
      rw [← hneg]; exact div_pos (sub_pos.2 h) hr0
    rw [tailProb_neg F _ _ _ ht, neg_neg, sub_sub_cancel]
    exact hp
  · exact (tailProb_neg F _ _ _ (div_pos (sub_pos.2 h) hr0)).1 hp

/-- **C95**, which hypothesis: if the integral, which stands for the share of Student's
distribution beyond `t` and `-t`, comes out between 0 and 1, then `p` is at most one half if the
first sample has the larger mean, and at least one half otherwise. (The comment at stats.go:25 has
it the other way round.) -/
theorem c95_direction (F : MathFns K) (A B : List K) (hA : 2 ≤ A.length) (hB : 2 ≤ B.length)
    (r : K) (hs : F.sqrt (.fin (seSq A + seSq B)) = .fin r) (hr : r * r = seSq A + seSq B)
    (hr0 : 0 < r) (y : K) (hy : tailIntegral F (.fin (((sampleMean A - sampleMean B) / r) ^ 2))
      (.fin (welchDf A B)) = .fin y) (y0 : 0 ≤ y) (y1 : y ≤ 1) :
    ∃ p, (ttest F (A.map XF.fin) (B.map XF.fin)).p = .fin p ∧ 0 ≤ p ∧ p ≤ 1 ∧
      (sampleMean B < sampleMean A → p ≤ 1 / 2) ∧ (sampleMean A ≤ sampleMean B → 1 / 2 ≤ p) := by
  rw [ttest_stats F A B hA hB r hs hr hr0.ne']
  simp only
  unfold tailProb
  rw [pow_two] at hy
  simp only [XF.fin_mul, hy, XF.fin_div _ (two_ne_zero : (2 : K) ≠ 0), XF.fin_sub]
  by_cases h : sampleMean B < sampleMean A
  · have : (.fin 0 : XF K) < .fin ((sampleMean A - sampleMean B) / r) :=
      show (0 : K) < _ from div_pos (sub_pos.2 h) hr0
    rw [if_pos this]
    exact ⟨y / 2, rfl, by linarith, by linarith, fun _ => by linarith, fun h' => absurd h (not_lt.2 h')⟩
  · have : ¬ (.fin 0 : XF K) < .fin ((sampleMean A - sampleMean B) / r) := by
      show ¬ (0 : K) < _
      rw [not_lt] at h ⊢
      exact div_nonpos_of_nonpos_of_nonneg (by linarith) hr0.le
    rw [if_neg this]
    exact ⟨1 - y / 2, rfl, by linarith, by linarith, fun h' => absurd h' h, fun _ => by linarith⟩

theorem contFraction_two {x : K} (h0 : 0 ≤ x) (h1 : x ≤ 1 / 10) :
    ∀ (i : Nat) (c : K), 1 / 2 ≤ c → c ≤ 1 →
      ∃ c', contFraction (.fin x) (.fin (1 / 2)) (.fin 1) i (.fin c) = .fin c' ∧ 1 / 2 ≤ c' ∧ c' ≤ 1 ∧
        (1 ≤ i → c' = 1) := by
  intro i
  induction i with
  | zero => intro c hc1 hc2; exact ⟨c, rfl, hc1, hc2, fun h => by omega⟩
  | succ i ih =>
    intro c hc1 hc2
    rw [contFraction]
    set m : K := ((i + 1 : Nat) : K) with hm
    have hm1 : 1 ≤ m := by
      rw [hm]; push_cast
      have : (0 : K) ≤ i := Nat.cast_nonneg i
      linarith
    have hc0 : c ≠ 0 := by linarith
    have hO : dO (XF.ofNat (i + 1)) (.fin x) (.fin (1 / 2)) (.fin 1) =
        .fin (-((1 / 2 + m) * (3 / 2 + m) * x / ((1 / 2 + 2 * m) * (3 / 2 + 2 * m)))) := by
      have hd : (1 / 2 + 2 * m) * (1 / 2 + 2 * m + 1) ≠ 0 := by positivity
      simp only [dO, XF.ofNat, XF.fin_mul, XF.fin_add, ← hm, XF.fin_div _ hd]
      congr 1
      have : (1 / 2 + 2 * m + 1) = 3 / 2 + 2 * m := by ring
      rw [this] at hd ⊢
      field_simp
      ring
    have hE : dE (XF.ofNat (i + 1)) (.fin x) (.fin (1 / 2)) (.fin 1) =
        .fin (-(m * (m - 1) * x / ((2 * m - 1 / 2) * (2 * m + 1 / 2)))) := by
      have h1 : 0 < 1 / 2 + 2 * m - 1 := by linarith
      have h2 : 0 < 1 / 2 + 2 * m := by linarith
      have hd : (1 / 2 + 2 * m - 1) * (1 / 2 + 2 * m) ≠ 0 := (mul_pos h1 h2).ne'
      simp only [dE, XF.ofNat, XF.fin_mul, XF.fin_add, XF.fin_sub, ← hm, XF.fin_div _ hd]
      congr 1
      have e1 : (1 / 2 + 2 * m - 1) = 2 * m - 1 / 2 := by ring
      have e2 : (1 / 2 + 2 * m) = 2 * m + 1 / 2 := by ring
      rw [e1, e2] at hd ⊢
      rw [← neg_div]
      congr 1
      ring
    rw [hO, hE]
    set u : K := (1 / 2 + m) * (3 / 2 + m) * x / ((1 / 2 + 2 * m) * (3 / 2 + 2 * m)) with hu
    set w : K := m * (m - 1) * x / ((2 * m - 1 / 2) * (2 * m + 1 / 2)) with hw
    have hu0 : 0 ≤ u := by rw [hu]; positivity
    have hu1 : u ≤ 1 / 10 := by
      rw [hu, div_le_iff₀ (by positivity)]
      have e1 : (1 / 2 + m) * (3 / 2 + m) * x ≤ (1 / 2 + m) * (3 / 2 + m) * (1 / 10) :=
        mul_le_mul_of_nonneg_left h1 (by positivity)
      nlinarith
    have hw0 : 0 ≤ w := by
      rw [hw]
      apply div_nonneg
      · exact mul_nonneg (mul_nonneg (by linarith) (by linarith)) h0
      · exact mul_nonneg (by linarith) (by linarith)
    have hw1 : w ≤ 1 / 10 := by
      rw [hw, div_le_iff₀ (mul_pos (by linarith) (by linarith))]
      have e1 : m * (m - 1) * x ≤ m * (m - 1) * (1 / 10) :=
        mul_le_mul_of_nonneg_left h1 (mul_nonneg (by linarith) (by linarith))
      nlinarith
    rw [XF.fin_div _ hc0, XF.fin_add]
    have hq1 : u / c ≤ 1 / 5 := by
      rw [div_le_iff₀ (by linarith)]; linarith
    have hq0 : 0 ≤ u / c := div_nonneg hu0 (by linarith)
    have hb : 1 + -u / c = 1 - u / c := by ring
    have hb0 : 0 < 1 - u / c := by linarith
    rw [hb, XF.fin_div _ hb0.ne', XF.fin_add]
    have hz0 : 0 ≤ w / (1 - u / c) := div_nonneg hw0 hb0.le
    have hz1 : w / (1 - u / c) ≤ 1 / 4 := by
      rw [div_le_iff₀ hb0]; linarith
    have hcc : 1 + -w / (1 - u / c) = 1 - w / (1 - u / c) := by ring
    rw [hcc]
    obtain ⟨c', e, k1, k2, k3⟩ := ih (1 - w / (1 - u / c)) (by linarith) (by linarith)
    refine ⟨c', e, k1, k2, fun _ => ?_⟩
    by_cases hi : 1 ≤ i
    · exact k3 hi
    · have hi0 : i = 0 := by omega
      subst hi0
      have hm' : m = 1 := by rw [hm]; simp
      have hw' : w = 0 := by rw [hw, hm']; simp
      rw [hw'] at e
      simp only [contFraction, zero_div, sub_zero, XF.fin.injEq] at e
      exact e.symm

/-- **C95**, the probability for two degrees of freedom: if the functions of `math` are exact
where they are used, then for `t² < 2/9` the value of `p` is the upper tail of Student's
distribution with two degrees of freedom, which is `1/2 - t / (2 √(t² + 2))`; `w` is
`√(t² / (t² + 2))`. -/
theorem c95_two_degrees_partial (F : MathFns K) (t w : K) (ht : t ^ 2 < 2 / 9) (_ : 0 ≤ w)
    (_ : w ^ 2 = t ^ 2 / (t ^ 2 + 2))
    (hpow : F.pow (.fin (t ^ 2 / (t ^ 2 + 2))) (.fin (1 / 2)) = .fin w)
    (hone : ∀ x, F.pow (.fin x) (.fin 1) = .fin x) (hbeta : F.beta (.fin (1 / 2)) (.fin 1) = .fin 2) :
    tailProb F (.fin t) (.fin 2) = .fin (if 0 < t then (1 - w) / 2 else (1 + w) / 2) := by
  have hd : t * t + 2 ≠ 0 := by nlinarith [mul_self_nonneg t]
  have hd' : 0 < t * t + 2 := by nlinarith [mul_self_nonneg t]
  set x : K := t ^ 2 / (t ^ 2 + 2) with hx
  have hx0 : 0 ≤ x := by rw [hx]; positivity
  have hx1 : x < 1 / 10 := by
    rw [hx, div_lt_iff₀ (by positivity)]; linarith
  have htt : 2 / (t * t + 2) = 1 - x := by
    rw [hx]; field_simp; ring
  have hlt : (.fin (9 / 10) : XF K) < .fin (1 - x) := show (9 / 10 : K) < _ by linarith
  obtain ⟨c, hc, -, -, hc1⟩ := contFraction_two hx0 hx1.le 50 1 (by norm_num) le_rfl
  have hreg : regIncBeta F (.fin x) (.fin (1 / 2)) (.fin 1) = .fin w := by
    have hO : dO (.fin 0) (.fin x) (.fin (1 / 2)) (.fin 1) = .fin (-x) := by
      have hd : (1 / 2 + 2 * (0 : K)) * (1 / 2 + 2 * 0 + 1) ≠ 0 := by norm_num
      simp only [dO, XF.fin_mul, XF.fin_add, XF.fin_div _ hd]
      congr 1
      field_simp
      ring
    unfold regIncBeta
    rw [hpow, XF.fin_sub, hone, hbeta, hO, hc, hc1 (by norm_num), XF.fin_div _ one_ne_zero,
      XF.fin_add, XF.fin_mul, XF.fin_mul, XF.fin_mul]
    have : 1 / 2 * 2 * (1 + -x / 1) ≠ 0 := by
      have : (1 / 2 : K) * 2 * (1 + -x / 1) = 1 - x := by ring
      rw [this]; linarith
    rw [XF.fin_div _ this]
    congr 1
    have hne : (1 : K) - x ≠ 0 := by linarith
    have : (1 / 2 : K) * 2 * (1 + -x / 1) = 1 - x := by ring
    rw [this]
    field_simp
  have h22 : (2 : K) / 2 = 1 := by norm_num
  unfold tailProb tailIntegral
  simp only [XF.fin_mul, XF.fin_add, XF.fin_div _ hd, htt, if_pos hlt, XF.fin_sub, sub_sub_cancel,
    XF.fin_div _ (two_ne_zero : (2 : K) ≠ 0), h22, hreg]
  by_cases h : 0 < t
  · rw [if_pos (show (.fin 0 : XF K) < .fin t from h), if_pos h]
  · rw [if_neg (show ¬ (.fin 0 : XF K) < .fin t from h), if_neg h]
    congr 1; ring

/-- The functions of `math`, on real numbers. -/
noncomputable def realFns : MathFns ℝ where
  sqrt
    | .fin x => .fin (Real.sqrt x)
    | _ => .nan
  pow
    | .fin x, .fin y => .fin (x ^ y)
    | _, _ => .nan
  beta
    | .fin a, .fin b => .fin (Real.Gamma a * Real.Gamma b / Real.Gamma (a + b))
    | _, _ => .nan

/-- Two pairs with the same spread. -/
example : let T := ttest realFns ([0, 2].map XF.fin) ([1 / 10, 21 / 10].map XF.fin)
    T.v = .fin 2 ∧ T.t = .fin (-(1 / 10) / Real.sqrt 2) ∧
      T.p = .fin ((1 + Real.sqrt ((-(1 / 10) / Real.sqrt 2) ^ 2 /
        ((-(1 / 10) / Real.sqrt 2) ^ 2 + 2))) / 2) := by
  intro T
  have hA : seSq ([0, 2] : List ℝ) = 1 := by norm_num [seSq, sampleVar, sampleMean]
  have hB : seSq ([1 / 10, 21 / 10] : List ℝ) = 1 := by norm_num [seSq, sampleVar, sampleMean]
  have hs : realFns.sqrt (.fin (seSq ([0, 2] : List ℝ) + seSq ([1 / 10, 21 / 10] : List ℝ))) =
      .fin (Real.sqrt 2) := by rw [hA, hB]; norm_num [realFns]
  have h2 : Real.sqrt 2 * Real.sqrt 2 = 2 := Real.mul_self_sqrt (by norm_num)
  have hpos : 0 < Real.sqrt 2 := Real.sqrt_pos.2 (by norm_num)
  have hT := ttest_stats realFns [0, 2] [1 / 10, 21 / 10] le_rfl le_rfl (Real.sqrt 2) hs
    (by rw [hA, hB, h2]; norm_num) hpos.ne'
  have hdf : welchDf ([0, 2] : List ℝ) [1 / 10, 21 / 10] = 2 := by
    rw [welchDf, hA, hB]; norm_num
  have hm : sampleMean ([0, 2] : List ℝ) - sampleMean [1 / 10, 21 / 10] = -(1 / 10) := by
    norm_num [sampleMean]
  rw [hdf, hm] at hT
  refine ⟨by rw [show T = _ from hT], by rw [show T = _ from hT], ?_⟩
  rw [show T = _ from hT]
  simp only
  have hsq : (-(1 / 10) / Real.sqrt 2) ^ 2 = 1 / 200 := by
    rw [div_pow, Real.sq_sqrt (by norm_num)]; norm_num
  rw [c95_two_degrees_partial realFns _ (Real.sqrt ((-(1 / 10) / Real.sqrt 2) ^ 2 /
        ((-(1 / 10) / Real.sqrt 2) ^ 2 + 2))) (by rw [hsq]; norm_num) (Real.sqrt_nonneg _)
        (Real.sq_sqrt (by rw [hsq]; norm_num)) (by
          simp only [realFns, Real.sqrt_eq_rpow]) (by simp [realFns]) (by
          simp only [realFns, Real.Gamma_one, XF.fin.injEq]
          rw [Real.Gamma_add_one (by norm_num)]
          have := (Real.Gamma_pos_of_pos (by norm_num : (0 : ℝ) < 1 / 2)).ne'
          field_simp)]
  rw [if_neg]
  rw [not_lt]
  exact div_nonpos_of_nonpos_of_nonneg (by norm_num) hpos.le

/-- Functions for an example on rational numbers: exact where it needs them. -/
def exFns : MathFns ℚ where
  sqrt
    | .fin x => .fin (if x = 25 / 4 then 5 / 2 else 0)
    | _ => .nan
  pow
    | .fin _, .fin _ => .fin (1 / 100)
    | _, _ => .nan
  beta
    | .fin _, .fin _ => .fin 3
    | _, _ => .nan

/-- Importances of two permutations, and those of the contrast. -/
def exScoresA : List ℚ := [7, 10]
@[inherit_doc exScoresA]
def exScoresB : List ℚ := [0, 4]

theorem exScores_se : seSq exScoresA + seSq exScoresB = 25 / 4 := by decide +kernel

/-- The first sample has the larger mean, and `p` is below one half; exchanged it is above. -/
example : ∃ p, (ttest exFns (exScoresA.map .fin) (exScoresB.map .fin)).p = .fin p ∧ p ≤ 1 / 2 ∧
    (ttest exFns (exScoresB.map .fin) (exScoresA.map .fin)).p = .fin (1 - p) := by
  have hs : exFns.sqrt (.fin (seSq exScoresA + seSq exScoresB)) = .fin (5 / 2) := by
    rw [exScores_se]; decide +kernel
  have hr : (5 / 2 : ℚ) * (5 / 2) = seSq exScoresA + seSq exScoresB := by
    rw [exScores_se]; norm_num
  have hfin : ∃ y, tailIntegral exFns (.fin (((sampleMean exScoresA - sampleMean exScoresB) /
      (5 / 2)) ^ 2)) (.fin (welchDf exScoresA exScoresB)) = .fin y ∧ 0 ≤ y ∧ y ≤ 1 := by
    have : (match tailIntegral exFns (.fin (((sampleMean exScoresA - sampleMean exScoresB) /
      (5 / 2)) ^ 2)) (.fin (welchDf exScoresA exScoresB)) with
        | .fin y => decide (0 ≤ y ∧ y ≤ 1) | _ => false) = true := by decide +kernel
    split at this
    · next y hy => exact ⟨y, hy, of_decide_eq_true this⟩
    · cases this
  obtain ⟨y, hy, y0, y1⟩ := hfin
  obtain ⟨p, hp, -, -, h1, -⟩ := c95_direction exFns exScoresA exScoresB le_rfl le_rfl (5 / 2) hs hr
    (by norm_num) y hy y0 y1
  exact ⟨p, hp, h1 (by decide +kernel), c95_exchange exFns exScoresA exScoresB le_rfl le_rfl (5 / 2)
    hs hr (by norm_num) (by decide +kernel) p hp⟩

/-! ## C96 -/

/-- **C96**, the decision itself: after the filter the candidates are the former candidates, other
than contrasts, whose p-value is below the cutoff and whose mean importance is positive; and
`sigcount`, from which `mTry` is worked out, is their number. -/
theorem c96_selection (fm : FeatureMatrix K) (firstace targeti : Nat) (cutoff : XF K)
    (test : Nat → XF K × XF K) (marks : List Bool) (hl : marks.length = fm.data.length) :
    let R := aceFilter firstace targeti cutoff test marks
    (∀ i, i ∈ candidates fm targeti R.1 ↔ i ∈ candidates fm targeti marks ∧ i < firstace ∧
      (test i).1 < cutoff ∧ .fin 0 < (test i).2) ∧
    R.2 = (candidates fm targeti R.1).length := by
  intro R
  have hget : ∀ i, R.1[i]? = (marks[i]?).map fun m =>
      if i < firstace then m || !decide ((test i).1 < cutoff ∧ .fin 0 < (test i).2 ∧ i ≠ targeti)
        else true := by
    intro i
    simp only [R, aceFilter, List.getElem?_map, List.getElem?_zipIdx, Nat.zero_add, Option.map_map]
    rfl
  have hmem : ∀ i, i ∈ candidates fm targeti R.1 ↔ i ∈ candidates fm targeti marks ∧
      i < firstace ∧ (test i).1 < cutoff ∧ .fin 0 < (test i).2 := by
    intro i
    simp only [candidates, List.mem_filter, List.mem_range, Bool.and_eq_true, bne_iff_ne, ne_eq,
      beq_iff_eq, hget i]
    cases hm : marks[i]? with
    | none => simp
    | some m =>
      by_cases hf : i < firstace
      · by_cases hs : (test i).1 < cutoff ∧ .fin 0 < (test i).2
        · by_cases ht : i = targeti
          · simp [ht]
          · simp [hf, hs, ht]
        · have hs' : ¬ ((test i).1 < cutoff ∧ .fin 0 < (test i).2 ∧ i ≠ targeti) :=
            fun h => hs ⟨h.1, h.2.1⟩
          simp only [hf, if_true, Option.map_some, decide_eq_false hs', Bool.not_false,
            Bool.or_true, Option.some.injEq, Bool.true_eq_false, and_false, true_and, false_iff]
          exact fun h => hs h.2
      · simp [hf]
  refine ⟨hmem, ?_⟩
  have hcount : R.2 = (List.range fm.data.length).countP (fun i => i != targeti && R.1[i]? == some false) := by
    have hz : ∀ (l : List Bool) (q : Bool → Nat → Bool) (k : Nat),
        (l.zipIdx k).countP (fun x => q x.1 x.2) =
          (List.range l.length).countP fun i => (l[i]?).any fun m => q m (i + k) := by
      intro l q
      induction l with
      | nil => intro k; rfl
      | cons m l ih =>
        intro k
        rw [List.zipIdx_cons, List.countP_cons, ih, List.length_cons, List.range_succ_eq_map,
          List.countP_cons, List.countP_map]
        simp only [List.getElem?_cons_zero, Option.any_some, Nat.zero_add]
        congr 1
        apply List.countP_congr
        intro i _
        have e : i + (k + 1) = i + 1 + k := by omega
        simp [e]
    simp only [R, aceFilter]
    rw [hz marks (fun m i => decide (i < firstace) && !m &&
      decide ((test i).1 < cutoff ∧ .fin 0 < (test i).2 ∧ i ≠ targeti)) 0, hl]
    apply List.countP_congr
    intro i _
    have := hget i
    simp only [R, aceFilter] at this
    rw [this]
    cases hm : marks[i]? with
    | none => simp
    | some m =>
      by_cases hf : i < firstace
      · by_cases ht : i = targeti
        · simp [hf, ht]
        · by_cases hs : (test i).1 < cutoff ∧ .fin 0 < (test i).2
          · simp [hf, ht, hs]
          · have hs' : ¬ ((test i).1 < cutoff ∧ .fin 0 < (test i).2 ∧ i ≠ targeti) :=
              fun h => hs ⟨h.1, h.2.1⟩
            simp [hf, decide_eq_false hs']
      · simp [hf]
  rw [hcount, candidates, List.countP_eq_length_filter]

/-- **C96**, the contrasts: ACE adds to every feature a shuffled copy, `firstace` places behind it,
which is a candidate if and only if the feature is one. The copy of the target is none. -/
theorem c96_setup (fm : FeatureMatrix K) (he : ∀ f ∈ fm.data, f.Even) (targeti : Nat)
    (ht : targeti < fm.data.length) (marks : List Bool) (hl : marks.length = fm.data.length)
    (rng : Rng) :
    ∃ fm' marks' rng', aceSetup fm targeti marks rng = some (fm', fm.data.length, marks', rng') ∧
      marks'.length = fm'.data.length ∧ fm'.data.length = 2 * fm.data.length ∧
      ∀ i < fm.data.length,
        (∃ f g, fm.data[i]? = some f ∧ fm'.data[i]? = some f ∧
          fm'.data[i + fm.data.length]? = some g ∧ ShuffledOf f g) ∧
        (i ∈ candidates fm' targeti marks' ↔ i ∈ candidates fm targeti marks) ∧
        (i + fm.data.length ∈ candidates fm' targeti marks' ↔ i ∈ candidates fm targeti marks) := by
  obtain ⟨fakes, fm', rng', e, hd, -, hf⟩ := c31_contrastAll fm he rng
  have hfl : fakes.length = fm.data.length := hf.length_eq.symm
  have hlen : fm'.data.length = 2 * fm.data.length := by rw [hd, List.length_append, hfl]; omega
  have hml : (marks ++ marks.take fm.data.length).length = 2 * fm.data.length := by simp [hl]; omega
  refine ⟨fm', (marks ++ marks.take fm.data.length).set (targeti + fm.data.length) true, rng', ?_,
    by rw [List.length_set, hml, hlen], hlen, ?_⟩
  · have : targeti + fm.data.length < (marks ++ marks.take fm.data.length).length := by omega
    simp only [aceSetup, e, Option.bind_eq_bind, Option.bind_some]
    rw [if_neg (by omega), if_pos this]
  · intro i hi
    have hmi : marks[i]? = some marks[i] := List.getElem?_eq_getElem (by omega)
    refine ⟨?_, ?_, ?_⟩
    · obtain ⟨f, hfi⟩ : ∃ f, fm.data[i]? = some f := ⟨_, List.getElem?_eq_getElem hi⟩
      obtain ⟨g, hgi⟩ : ∃ g, fakes[i]? = some g := ⟨_, List.getElem?_eq_getElem (by omega)⟩
      refine ⟨f, g, hfi, ?_, ?_, ?_⟩
      · rw [hd, List.getElem?_append_left hi, hfi]
      · rw [hd, List.getElem?_append_right (by omega), Nat.add_sub_cancel, hgi]
      · have := List.forall₂_iff_get.1 hf
        have h2 := this.2 i hi (by omega)
        rw [List.getElem?_eq_some_iff] at hfi hgi
        obtain ⟨_, rfl⟩ := hfi
        obtain ⟨_, rfl⟩ := hgi
        exact h2
    · simp only [candidates, List.mem_filter, List.mem_range, Bool.and_eq_true, bne_iff_ne, ne_eq,
        beq_iff_eq]
      rw [List.getElem?_set_ne (by omega), List.getElem?_append_left (by omega)]
      constructor
      · rintro ⟨-, h⟩; exact ⟨hi, h⟩
      · rintro ⟨-, h⟩; exact ⟨by omega, h⟩
    · simp only [candidates, List.mem_filter, List.mem_range, Bool.and_eq_true, bne_iff_ne, ne_eq,
        beq_iff_eq]
      by_cases hti : i = targeti
      · subst hti
        rw [List.getElem?_set_self (by omega)]
        simp
      · rw [List.getElem?_set_ne (by omega), List.getElem?_append_right (by omega), hl,
          Nat.add_sub_cancel, List.getElem?_take_of_lt hi]
        constructor
        · rintro ⟨-, -, h⟩; exact ⟨hi, hti, h⟩
        · rintro ⟨-, -, h⟩; exact ⟨by omega, by omega, h⟩

example : (aceSetup exTwo 1 [false, false] fun _ => 1).map (fun r =>
    (r.1.data.map Feature.name, r.2.1, candidates r.1 1 r.2.2.1)) =
    some (["N:x", "N:y", "N:x:SHUFFLED", "N:y:SHUFFLED"], 2, [0, 2]) := by
  decide +kernel

/-- **C96 is false of the code: one permutation.** With `-ace 1 -cutoff c` each feature has one
score. The variance of a single score is 0/0, so every p-value is NaN and every feature is
dropped, whatever the scores and the cutoff. -/
theorem c96_one_permutation (F : MathFns K) (hF : F.pow .nan .nan = .nan) (fm : FeatureMatrix K)
    (firstace targeti : Nat) (cutoff : XF K) (marks : List Bool) (hl : marks.length = fm.data.length)
    (score : Nat → K) :
    candidates fm targeti (aceFilter firstace targeti cutoff (fun i =>
      let T := ttest F [.fin (score i)] [.fin (score (i + firstace))]
      (T.p, T.am)) marks).1 = [] := by
  have hp : ∀ x y : K, (ttest F [.fin x] [.fin y]).p = .nan := by
    intro x y
    have hv : ∀ x : K, (meanAndVar [XF.fin x]).2.1 = .nan := by
      intro x
      simp only [meanAndVar, List.foldl_cons, List.foldl_nil, XF.fin_add, XF.fin_mul, zero_add,
        List.length_singleton, XF.ofNat, Nat.cast_one, XF.fin_div _ (one_ne_zero : (1 : K) ≠ 0),
        XF.fin_sub, div_one, one_mul, sub_self]
      exact XF.zero_div_zero
    simp only [ttest, hv, XF.nan_div, XF.nan_add, XF.nan_mul]
    exact tailProb_nan F hF _
  apply List.eq_nil_iff_forall_not_mem.2
  intro i hi
  have := ((c96_selection fm firstace targeti cutoff _ marks hl).1 i).1 hi
  exact XF.not_nan_lt _ (by simpa [hp] using this.2.2.1)

/-- **C96 is false of the code: constant scores.** Of a feature with the same score `x` in every
permutation, and a contrast with the same score `y` every time, the p-value is NaN; so it is
dropped however much larger `x` is. -/
theorem c96_constant_scores (F : MathFns K) (hF : F.pow .nan .nan = .nan) (n : Nat) (hn : 2 ≤ n)
    (x y : K) (cutoff : XF K) :
    (ttest F (List.replicate n (.fin x)) (List.replicate n (.fin y))).p = .nan ∧
      ¬ (ttest F (List.replicate n (.fin x)) (List.replicate n (.fin y))).p < cutoff := by
  have hm : ∀ x : K, meanAndVar (List.replicate n (XF.fin x)) = (.fin x, .fin 0, .fin n) := by
    intro x
    have hn0 : (n : K) ≠ 0 := by
      have : n ≠ 0 := by omega
      exact_mod_cast this
    have := meanAndVar_eq (List.replicate n x) (by simpa using hn)
    rw [List.map_replicate] at this
    rw [this]
    have hmean : sampleMean (List.replicate n x) = x := by
      simp [sampleMean]; field_simp
    have hvar : sampleVar (List.replicate n x) = 0 := by
      simp [sampleVar, hmean]
    rw [hmean, hvar, List.length_replicate]
  have hn0 : (n : K) ≠ 0 := by
    have : n ≠ 0 := by omega
    exact_mod_cast this
  have hn1 : (n : K) - 1 ≠ 0 := by
    intro e
    have : ((n : Nat) : K) = ((1 : Nat) : K) := by push_cast; linarith
    have := Nat.cast_injective this
    omega
  have hp : (ttest F (List.replicate n (.fin x)) (List.replicate n (.fin y))).p = .nan := by
    simp only [ttest, hm, XF.fin_div _ hn0, zero_div, XF.fin_add, add_zero, XF.fin_mul, mul_zero,
      XF.fin_sub, XF.fin_div _ hn1, XF.zero_div_zero]
    exact tailProb_nan F hF _
  exact ⟨hp, by rw [hp]; exact XF.not_nan_lt _⟩

/-- Three features and their contrasts, target 2. Feature 0 passes, feature 1 has too large a
p-value, and the filter leaves one candidate. -/
example : aceFilter 3 2 (.fin (1 / 20 : ℚ)) (fun i => if i = 0 then (.fin (1 / 100), .fin 4)
      else (.fin (1 / 2), .fin 3)) [false, false, false, false, false, true] =
    ([false, true, true, true, true, true], 1) := by
  decide +kernel

example : realFns.pow .nan .nan = .nan := rfl

end CloudForest
