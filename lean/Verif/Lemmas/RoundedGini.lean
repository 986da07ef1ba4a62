import Verif.Model.RoundedGini
import Verif.Lemmas.Rounding4
import Verif.Lemmas.Impurity2
import Verif.Lemmas.Search
import Mathlib.Tactic.Linarith

/-! # Lemmas about the Gini impurity in rounded arithmetic -/

set_option linter.unusedSectionVars false

namespace CloudForest

theorem tiny_le : 2 * tiny64 ≤ ulp64 := by
  unfold tiny64 ulp64
  have : (2 : ℚ) ^ 54 ≤ 2 ^ 1075 := pow_le_pow_right₀ (by norm_num) (by norm_num)
  have h := one_div_le_one_div_of_le (by positivity) this
  have e : (2 : ℚ) * (1 / 2 ^ 54) = 1 / 2 ^ 53 := by norm_num
  linarith

theorem rep64_int {m : ℤ} (h : |m| ≤ 2 ^ 53) : Rep64 (m : ℚ) := by
  simpa using rep64_frac (m := m) (k := 0) h (by omega)

theorem round_int {m : ℤ} (h : |m| ≤ 2 ^ 53) : F64.round (m : ℚ) = .fin (m : ℚ) := F64.rounds.self (rep64_int h)

/-- A number of at most `2⁵³` has a rounded value. -/
theorem round_small {x : ℚ} (h : |x| ≤ 2 ^ 53) : ∃ y, F64.round x = .fin y ∧ |y - x| ≤ ulp64 * |x| + tiny64 := by
  obtain ⟨h1, h2⟩ := abs_le.1 h
  obtain ⟨y, e, -, -⟩ := F64.rounds.between
    (a := ((-(2 ^ 53) : ℤ) : ℚ)) (b := ((2 ^ 53 : ℤ) : ℚ)) (x := x)
    (rep64_int (by norm_num)) (rep64_int (by norm_num))
    (by push_cast; exact h1) (by push_cast; exact h2)
  exact ⟨y, e, round_err e⟩

/-- One term of the Gini impurity. -/
def giniStepR (r : ℚ → XF ℚ) (t : XF ℚ) (e : XF ℚ) (i : ℤ) : XF ℚ :=
  XF.rounded r (e - XF.rounded r (XF.rounded r (.ofInt (i * i)) / t))

theorem giniStepR_eq {t : ℚ} (ht : t ≠ 0) {e : ℚ} {i : ℤ} (hi : |i * i| ≤ 2 ^ 53) {p : ℚ}
    (hp : F64.round (((i * i : ℤ) : ℚ) / t) = .fin p) :
    giniStepR F64.round (.fin t) (.fin e) i = F64.round (e - p) := by
  unfold giniStepR
  have h1 : XF.rounded F64.round (XF.ofInt (i * i) : XF ℚ) = .fin ((i * i : ℤ) : ℚ) := round_int hi
  rw [h1, XF.fin_div _ ht]
  show XF.rounded F64.round (XF.fin e - F64.round (((i * i : ℤ) : ℚ) / t)) = _
  rw [hp, XF.fin_sub]
  rfl

theorem giniFold_err {n : Nat} (hn0 : n ≠ 0) (hn : n ≤ 2 ^ 26) : ∀ (cs : List ℤ) (j : Nat) (e E : ℚ),
    (∀ i ∈ cs, 0 ≤ i ∧ i ≤ n) → 4 * ((j + cs.length : Nat) : ℚ) * ulp64 ≤ 1 → |e - E| ≤ 4 * j * ulp64 → E ≤ 1 →
    0 ≤ E - (cs.map fun i : ℤ => ((i : ℚ) / n) ^ 2).sum →
    ∃ e', cs.foldl (giniStepR F64.round (.fin ((n * n : Nat) : ℚ))) (.fin e) = .fin e' ∧
      |e' - (E - (cs.map fun i : ℤ => ((i : ℚ) / n) ^ 2).sum)| ≤ 4 * ((j + cs.length : Nat) : ℚ) * ulp64 := by
  have hu := ulp64_pos
  have ht := tiny64_pos
  have htu := tiny_le
  have hN : (0 : ℚ) < n := by exact_mod_cast Nat.pos_of_ne_zero hn0
  have hNN : ((n * n : Nat) : ℚ) ≠ 0 := by push_cast; positivity
  have hu1 : ulp64 ≤ 1 / 8 := by unfold ulp64; norm_num
  intro cs
  induction cs with
  | nil => intro j e E _ _ h _ _; exact ⟨e, rfl, by simpa using h⟩
  | cons i cs ih =>
    intro j e E hi hj he hE h0
    rw [List.map_cons, List.sum_cons] at h0 ⊢
    have hs0 : 0 ≤ (cs.map fun i : ℤ => ((i : ℚ) / n) ^ 2).sum := List.sum_nonneg (by
      intro x hx
      obtain ⟨y, -, rfl⟩ := List.mem_map.1 hx
      positivity)
    obtain ⟨hi0, hin⟩ := hi i List.mem_cons_self
    have hi2 : |i * i| ≤ 2 ^ 53 := by
      rw [abs_of_nonneg (mul_nonneg hi0 hi0)]
      have : i ≤ 2 ^ 26 := hin.trans (by exact_mod_cast hn)
      nlinarith
    obtain ⟨P, hP⟩ : ∃ P : ℚ, P = ((i : ℚ) / n) ^ 2 := ⟨_, rfl⟩
    have hPe : ((i * i : ℤ) : ℚ) / ((n * n : Nat) : ℚ) = P := by rw [hP]; push_cast; rw [div_pow, sq, sq]
    have hP0 : 0 ≤ P := by rw [hP]; positivity
    rw [← hP] at h0 ⊢
    have hP1 : P ≤ 1 := by linarith
    obtain ⟨p, hp, hpe⟩ := round_small (x := P) (by rw [abs_of_nonneg hP0]; linarith [show (1:ℚ) ≤ 2 ^ 53 by norm_num])
    rw [abs_of_nonneg hP0] at hpe
    have hpe' : |p - P| ≤ ulp64 + tiny64 := by
      have : ulp64 * P ≤ ulp64 * 1 := mul_le_mul_of_nonneg_left hP1 hu.le
      linarith
    have hlen : ((j + (i :: cs).length : Nat) : ℚ) = ((j + 1 + cs.length : Nat) : ℚ) := by
      push_cast [List.length_cons]; ring
    rw [hlen] at hj ⊢
    have hj1 : 4 * ((j : ℚ) + 1) * ulp64 ≤ 1 := by
      have : (4 * ((j : ℚ) + 1) * ulp64) ≤ 4 * ((j + 1 + cs.length : Nat) : ℚ) * ulp64 := by
        refine mul_le_mul_of_nonneg_right ?_ hu.le
        push_cast
        have : (0 : ℚ) ≤ (cs.length : ℚ) := by positivity
        linarith
      linarith
    have hju : 0 ≤ 4 * (j : ℚ) * ulp64 := by positivity
    have hx : |e - p - (E - P)| ≤ 4 * j * ulp64 + ulp64 + tiny64 := by
      have := abs_sub (e - E) (p - P)
      rw [show e - E - (p - P) = e - p - (E - P) by ring] at this
      linarith
    have hEP : |E - P| ≤ 1 := abs_le.2 ⟨by linarith, by linarith⟩
    have hxx : |e - p| ≤ 2 := by
      have := abs_add_le (e - p - (E - P)) (E - P)
      rw [sub_add_cancel] at this
      linarith
    obtain ⟨y, hy, hye⟩ := round_small (x := e - p) (hxx.trans (by norm_num))
    have hye' : |y - (e - p)| ≤ 2 * ulp64 + tiny64 := by
      have : ulp64 * |e - p| ≤ ulp64 * 2 := mul_le_mul_of_nonneg_left hxx hu.le
      linarith
    rw [List.foldl_cons, giniStepR_eq hNN hi2 (by rw [hPe]; exact hp), hy]
    have hstep : |y - (E - P)| ≤ 4 * ((j + 1 : Nat) : ℚ) * ulp64 := by
      have := abs_add_le (y - (e - p)) (e - p - (E - P))
      rw [show y - (e - p) + (e - p - (E - P)) = y - (E - P) by ring] at this
      push_cast
      linarith
    obtain ⟨e', h1, h2⟩ := ih (j + 1) y (E - P) (fun i hi' => hi i (List.mem_cons_of_mem _ hi')) hj hstep (by linarith)
      (by linarith)
    refine ⟨e', h1, ?_⟩
    rw [show E - (P + (cs.map fun i : ℤ => ((i : ℚ) / n) ^ 2).sum) =
        E - P - (cs.map fun i : ℤ => ((i : ℚ) / n) ^ 2).sum by ring]
    exact h2

theorem giniFromCountsR_fold {n : Nat} (hn : n ≤ 2 ^ 26) (cs : List ℤ) : giniFromCountsR F64.round n cs =
    cs.foldl (giniStepR F64.round (.fin ((n * n : Nat) : ℚ))) (.fin 1) := by
  unfold giniFromCountsR
  have : XF.rounded F64.round (XF.ofNat (n * n) : XF ℚ) = .fin ((n * n : Nat) : ℚ) := by
    have h := round_int (m := ((n * n : Nat) : ℤ)) (by
      rw [abs_of_nonneg (by positivity)]
      have : n * n ≤ 2 ^ 26 * 2 ^ 26 := Nat.mul_le_mul hn hn
      have : n * n ≤ 2 ^ 53 := this.trans (by norm_num)
      exact_mod_cast this)
    exact_mod_cast h
  rw [this]
  rfl

/-- The rounded Gini impurity is near the Gini impurity. -/
theorem giniR_err (f : CatFeature) {k : Nat} {cases : List Nat} (hne : cases ≠ []) (hn : cases.length ≤ 2 ^ 26)
    (hk : k ≤ 2 ^ 50) (hr : f.InRange k cases) :
    ∃ e, giniFromCountsR F64.round cases.length (f.counts k cases) = .fin e ∧
      |e - f.gini ℚ k cases| ≤ 4 * k * ulp64 := by
  have hlen : cases.length ≠ 0 := by simpa using hne
  have hmap : ((f.counts k cases).map fun i : ℤ => ((i : ℚ) / cases.length) ^ 2) =
      (List.range k).map fun j => ((f.catCount cases j : ℚ) / (cases.length : ℚ)) ^ 2 := by
    unfold CatFeature.counts
    rw [List.map_map]
    refine List.map_congr_left fun j _ => ?_
    simp
  obtain ⟨e, h1, h2⟩ := giniFold_err hlen hn (f.counts k cases) 0 1 1 (by
      intro i hi
      obtain ⟨j, -, rfl⟩ := List.mem_map.1 hi
      exact ⟨by positivity, by exact_mod_cast List.countP_le_length⟩) (by
      rw [counts_length]
      have : (k : ℚ) ≤ 2 ^ 50 := by exact_mod_cast hk
      unfold ulp64
      rw [Nat.zero_add]
      have h3 : (2 : ℚ) ^ 53 = 8 * 2 ^ 50 := by norm_num
      rw [h3]
      rw [mul_one_div, div_le_one (by positivity)]
      linarith [show (0:ℚ) < 2 ^ 50 by positivity]) (by simp) le_rfl (by
      rw [hmap]
      exact gini_nonneg f k cases hr hne)
  rw [giniFromCountsR_fold hn]
  refine ⟨e, h1, ?_⟩
  rw [hmap, counts_length, Nat.zero_add] at h2
  exact h2

/-! ## Pure and mixed nodes -/

theorem giniFold_exact {n : Nat} (hn0 : n ≠ 0) (hn : n ≤ 2 ^ 26) : ∀ (cs : List ℤ) (m : ℤ),
    (∀ i ∈ cs, i = 0 ∨ i = n) → |m| + cs.length ≤ 2 ^ 53 →
    cs.foldl (giniStepR F64.round (.fin ((n * n : Nat) : ℚ))) (.fin (m : ℚ)) =
      .fin (m - (cs.map fun i : ℤ => ((i : ℚ) / n) ^ 2).sum) := by
  have hN : (0 : ℚ) < n := by exact_mod_cast Nat.pos_of_ne_zero hn0
  have hNN : ((n * n : Nat) : ℚ) ≠ 0 := by push_cast; positivity
  intro cs
  induction cs with
  | nil => intro m _ _; simp
  | cons i cs ih =>
    intro m hi hm
    obtain ⟨d, hd, hd1, hd2⟩ : ∃ d : ℤ, (d : ℚ) = ((i : ℚ) / n) ^ 2 ∧ 0 ≤ d ∧ d ≤ 1 := by
      rcases hi i List.mem_cons_self with rfl | rfl
      · exact ⟨0, by simp, le_refl _, by norm_num⟩
      · exact ⟨1, by rw [Int.cast_natCast, div_self hN.ne']; norm_num, by norm_num, le_refl _⟩
    have hi2 : |i * i| ≤ 2 ^ 53 := by
      have h0 : 0 ≤ i ∧ i ≤ n := by rcases hi i List.mem_cons_self with rfl | rfl <;> constructor <;> omega
      rw [abs_of_nonneg (mul_nonneg h0.1 h0.1)]
      have : i ≤ 2 ^ 26 := h0.2.trans (by exact_mod_cast hn)
      nlinarith
    have hPe : ((i * i : ℤ) : ℚ) / ((n * n : Nat) : ℚ) = d := by rw [hd]; push_cast; rw [div_pow, sq, sq]
    have hd53 : |d| ≤ 2 ^ 53 := by rw [abs_of_nonneg hd1]; linarith
    have hmd : |m - d| ≤ |m| + 1 := (abs_sub _ _).trans (by rw [abs_of_nonneg hd1]; omega)
    push_cast [List.length_cons] at hm
    rw [List.foldl_cons, giniStepR_eq hNN hi2 (by rw [hPe]; exact round_int hd53), ← Int.cast_sub,
      round_int (by omega), ih (m - d) (fun i h => hi i (List.mem_cons_of_mem _ h)) (by omega), List.map_cons,
      List.sum_cons, ← hd]
    push_cast
    congr 1
    ring

/-- All the cases have one category. -/
def CatFeature.OneCat (f : CatFeature) (cases : List Nat) : Prop :=
  ∀ c ∈ cases, ∀ d ∈ cases, f.catData[c]? = f.catData[d]?

theorem giniR_pure (f : CatFeature) {k : Nat} {cases : List Nat} (hne : cases ≠ []) (hn : cases.length ≤ 2 ^ 26)
    (hk : k ≤ 2 ^ 50) (hr : f.InRange k cases) (hp : f.OneCat cases) :
    giniFromCountsR F64.round cases.length (f.counts k cases) = .fin 0 := by
  have hlen : cases.length ≠ 0 := by simpa using hne
  have h := giniFold_exact hlen hn (f.counts k cases) 1 (by
    intro i hi
    obtain ⟨j, -, rfl⟩ := List.mem_map.1 hi
    unfold CatFeature.catCount
    by_cases h : ∃ c ∈ cases, f.catData[c]? = some j
    · obtain ⟨c, hc, e⟩ := h
      right
      rw [List.countP_eq_length.2 fun d hd => by rw [hp d hd c hc, e]; simp]
    · left
      rw [List.countP_eq_zero.2 fun d hd hh => h ⟨d, hd, by simpa using hh⟩]
      rfl) (by
    rw [counts_length]
    have : (k : ℤ) ≤ 2 ^ 50 := by exact_mod_cast hk
    norm_num at this ⊢
    omega)
  rw [giniFromCountsR_fold hn]
  rw [Int.cast_one] at h
  rw [h]
  have hmap : ((f.counts k cases).map fun i : ℤ => ((i : ℚ) / cases.length) ^ 2) =
      (List.range k).map fun j => ((f.catCount cases j : ℚ) / (cases.length : ℚ)) ^ 2 := by
    unfold CatFeature.counts
    rw [List.map_map]
    refine List.map_congr_left fun j _ => ?_
    simp
  rw [hmap]
  exact congrArg XF.fin ((gini_eq_zero f k cases hr hne).2 hp)

/-- A mixed node has an impurity of at least one over the number of its cases. -/
theorem gini_mixed (f : CatFeature) {k : Nat} {cases : List Nat} (hne : cases ≠ []) (hr : f.InRange k cases)
    (hp : ¬ f.OneCat cases) : 1 / (cases.length : ℚ) ≤ f.gini ℚ k cases := by
  have hN : (0 : ℚ) < cases.length := length_pos' hne
  unfold CatFeature.gini
  have hsum : ((List.range k).map fun j => (f.catCount cases j : ℚ) * (1 / cases.length : ℚ)).sum = 1 := by
    rw [sum_count_weight f k cases hr fun _ => (1 / cases.length : ℚ)]
    simp
    field_simp
  have hle : ((List.range k).map fun j => ((f.catCount cases j : ℚ) / (cases.length : ℚ)) ^ 2).sum ≤
      ((List.range k).map fun j => (f.catCount cases j : ℚ) * ((1 - 1 / cases.length) * (1 / cases.length) : ℚ)).sum := by
    refine List.sum_le_sum fun j _ => ?_
    have hlt : f.catCount cases j + 1 ≤ cases.length := by
      by_contra hc
      have h1 : f.catCount cases j = cases.length := le_antisymm List.countP_le_length (by omega)
      have h2 := List.countP_eq_length.1 h1
      refine hp fun c hc d hd => ?_
      have h3 := h2 c hc
      have h4 := h2 d hd
      rw [beq_iff_eq] at h3 h4
      rw [h3, h4]
    have hlt' : (f.catCount cases j : ℚ) + 1 ≤ cases.length := by exact_mod_cast hlt
    have h0 : (0 : ℚ) ≤ f.catCount cases j := by positivity
    have e1 : ((f.catCount cases j : ℚ) / (cases.length : ℚ)) ^ 2 =
        (f.catCount cases j : ℚ) * f.catCount cases j * (1 / cases.length * (1 / cases.length)) := by
      field_simp
    have e2 : (f.catCount cases j : ℚ) * ((1 - 1 / cases.length) * (1 / cases.length)) =
        (f.catCount cases j : ℚ) * (cases.length - 1) * (1 / cases.length * (1 / cases.length)) := by
      field_simp
    rw [e1, e2]
    exact mul_le_mul_of_nonneg_right (mul_le_mul_of_nonneg_left (by linarith) h0) (by positivity)
  have hs2 : ((List.range k).map fun j => (f.catCount cases j : ℚ) * ((1 - 1 / cases.length) * (1 / cases.length) : ℚ)).sum
      = 1 - 1 / cases.length := by
    rw [sum_count_weight f k cases hr fun _ => ((1 - 1 / cases.length) * (1 / cases.length) : ℚ)]
    simp
    field_simp
  linarith

/-! ## Divisions -/

theorem wavgR_errB {nl ng : Nat} (hl : nl ≠ 0) (hg : ng ≠ 0) {x y X Y δ B : ℚ} (hn : ((nl : ℚ) + ng) * B ≤ 2 ^ 50)
    (hB : 2 * tiny64 ≤ ulp64 * B) (hδ1 : δ ≤ B)
    (hX0 : 0 ≤ X) (hX1 : X ≤ B) (hY0 : 0 ≤ Y) (hY1 : Y ≤ B) (hx : |x - X| ≤ δ) (hy : |y - Y| ≤ δ) :
    ∃ z, wavgR F64.round nl ng (.fin x) (.fin y) = .fin z ∧
      |z - (nl * X + ng * Y) / (nl + ng)| ≤ δ + 16 * (ulp64 * B) := by
  have hu := ulp64_pos
  have ht := tiny64_pos
  have hL : (1 : ℚ) ≤ nl := by exact_mod_cast Nat.one_le_iff_ne_zero.2 hl
  have hG : (1 : ℚ) ≤ ng := by exact_mod_cast Nat.one_le_iff_ne_zero.2 hg
  have hδ0 : 0 ≤ δ := (abs_nonneg _).trans hx
  have hB0 : 0 ≤ B := hX0.trans hX1
  obtain ⟨v, hv⟩ : ∃ v, v = ulp64 * B := ⟨_, rfl⟩
  rw [← hv] at hB ⊢
  have hv0 : 0 < v := by linarith
  have hu1 : v ≤ B / 64 := by
    have : ulp64 ≤ 1 / 64 := by unfold ulp64; norm_num
    have := mul_le_mul_of_nonneg_right this hB0
    linarith
  have hBN : B ≤ ((nl : ℚ) + ng) * B := by
    have := mul_le_mul_of_nonneg_right (show (1 : ℚ) ≤ nl + ng by linarith) hB0
    linarith
  have hlB : 0 ≤ (nl : ℚ) * B := by positivity
  have hgB : 0 ≤ (ng : ℚ) * B := by positivity
  have hN : (nl : ℚ) * B + ng * B ≤ 2 ^ 50 := by linarith
  have big : (2 : ℚ) ^ 50 * 8 = 2 ^ 53 := by norm_num
  have hx2 : |x| ≤ 2 * B := by
    have := abs_add_le (x - X) X
    rw [sub_add_cancel, abs_of_nonneg hX0] at this
    linarith
  have hy2 : |y| ≤ 2 * B := by
    have := abs_add_le (y - Y) Y
    rw [sub_add_cancel, abs_of_nonneg hY0] at this
    linarith
  have hlx : |(nl : ℚ) * x| ≤ nl * (2 * B) := by
    rw [abs_mul, abs_of_nonneg (by linarith : (0 : ℚ) ≤ nl)]
    exact mul_le_mul_of_nonneg_left hx2 (by linarith)
  have hgy : |(ng : ℚ) * y| ≤ ng * (2 * B) := by
    rw [abs_mul, abs_of_nonneg (by linarith : (0 : ℚ) ≤ ng)]
    exact mul_le_mul_of_nonneg_left hy2 (by linarith)
  obtain ⟨a, ha, ea⟩ := round_small (x := (nl : ℚ) * x) (by linarith)
  obtain ⟨b, hb, eb⟩ := round_small (x := (ng : ℚ) * y) (by linarith)
  have ea' : |a - nl * x| ≤ 3 * v * nl := by
    have h1 : ulp64 * |(nl : ℚ) * x| ≤ ulp64 * (nl * (2 * B)) := mul_le_mul_of_nonneg_left hlx hu.le
    have h2 : v * 1 ≤ v * nl := mul_le_mul_of_nonneg_left hL hv0.le
    rw [show ulp64 * (nl * (2 * B)) = 2 * (v * nl) by rw [hv]; ring] at h1
    linarith
  have eb' : |b - ng * y| ≤ 3 * v * ng := by
    have h1 : ulp64 * |(ng : ℚ) * y| ≤ ulp64 * (ng * (2 * B)) := mul_le_mul_of_nonneg_left hgy hu.le
    have h2 : v * 1 ≤ v * ng := mul_le_mul_of_nonneg_left hG hv0.le
    rw [show ulp64 * (ng * (2 * B)) = 2 * (v * ng) by rw [hv]; ring] at h1
    linarith
  have h3l : 3 * v * nl ≤ B * nl := mul_le_mul_of_nonneg_right (by linarith) (by linarith)
  have h3g : 3 * v * ng ≤ B * ng := mul_le_mul_of_nonneg_right (by linarith) (by linarith)
  have hab : |a + b| ≤ 3 * (nl * B + ng * B) := by
    have h1 := abs_add_le (a - nl * x) (nl * x)
    have h2 := abs_add_le (b - ng * y) (ng * y)
    rw [sub_add_cancel] at h1 h2
    have := abs_add_le a b
    linarith
  obtain ⟨s, hs, es⟩ := round_small (x := a + b) (by linarith)
  have es' : |s - (a + b)| ≤ 4 * v * (nl + ng) := by
    have h1 : ulp64 * |a + b| ≤ ulp64 * (3 * (nl * B + ng * B)) := mul_le_mul_of_nonneg_left hab hu.le
    have h2 : v * 1 ≤ v * (nl + ng) := mul_le_mul_of_nonneg_left (by linarith) hv0.le
    rw [show ulp64 * (3 * (nl * B + ng * B)) = 3 * (v * (nl + ng)) by rw [hv]; ring] at h1
    linarith
  have hnum : |s - (nl * X + ng * Y)| ≤ (δ + 7 * v) * (nl + ng) := by
    have e1 : |(nl : ℚ) * x - nl * X| ≤ nl * δ := by
      rw [← mul_sub, abs_mul, abs_of_nonneg (by linarith : (0 : ℚ) ≤ nl)]
      exact mul_le_mul_of_nonneg_left hx (by linarith)
    have e2 : |(ng : ℚ) * y - ng * Y| ≤ ng * δ := by
      rw [← mul_sub, abs_mul, abs_of_nonneg (by linarith : (0 : ℚ) ≤ ng)]
      exact mul_le_mul_of_nonneg_left hy (by linarith)
    obtain ⟨p1, p2⟩ := abs_le.1 e1
    obtain ⟨p3, p4⟩ := abs_le.1 e2
    obtain ⟨p5, p6⟩ := abs_le.1 ea'
    obtain ⟨p7, p8⟩ := abs_le.1 eb'
    obtain ⟨p9, p10⟩ := abs_le.1 es'
    exact abs_le.2 ⟨by linarith, by linarith⟩
  have hpos : (0 : ℚ) < nl + ng := by linarith
  have hdiv : |s / (nl + ng) - (nl * X + ng * Y) / (nl + ng)| ≤ δ + 7 * v := by
    rw [← sub_div, abs_div, abs_of_pos hpos, div_le_iff₀ hpos]
    exact hnum
  have hw1 : |(nl * X + ng * Y) / ((nl : ℚ) + ng)| ≤ B := by
    rw [abs_of_nonneg (by positivity), div_le_iff₀ hpos]
    have h1 : (nl : ℚ) * X ≤ nl * B := mul_le_mul_of_nonneg_left hX1 (by linarith)
    have h2 : (ng : ℚ) * Y ≤ ng * B := mul_le_mul_of_nonneg_left hY1 (by linarith)
    linarith
  have hq : |s / ((nl : ℚ) + ng)| ≤ 3 * B := by
    have := abs_add_le (s / ((nl : ℚ) + ng) - (nl * X + ng * Y) / (nl + ng)) ((nl * X + ng * Y) / (nl + ng))
    rw [sub_add_cancel] at this
    linarith
  obtain ⟨z, hz, ez⟩ := round_small (x := s / ((nl : ℚ) + ng)) (by linarith)
  refine ⟨z, ?_, ?_⟩
  · unfold wavgR
    have e1 : XF.rounded F64.round (XF.ofNat nl * XF.fin x : XF ℚ) = .fin a := ha
    have e2 : XF.rounded F64.round (XF.ofNat ng * XF.fin y : XF ℚ) = .fin b := hb
    have e3 : XF.rounded F64.round (XF.fin a + XF.fin b : XF ℚ) = .fin s := hs
    rw [e1, e2, e3]
    have e4 : (XF.ofNat nl + XF.ofNat ng + XF.fin 0 : XF ℚ) = .fin (nl + ng) := by
      show XF.fin ((nl : ℚ) + ng + 0) = _
      rw [add_zero]
    rw [e4, XF.fin_div _ hpos.ne']
    exact hz
  · have h1 : ulp64 * |s / ((nl : ℚ) + ng)| ≤ ulp64 * (3 * B) := mul_le_mul_of_nonneg_left hq hu.le
    rw [show ulp64 * (3 * B) = 3 * v by rw [hv]; ring] at h1
    have := abs_add_le (z - s / ((nl : ℚ) + ng)) (s / (nl + ng) - (nl * X + ng * Y) / (nl + ng))
    rw [show z - s / ((nl : ℚ) + ng) + (s / (nl + ng) - (nl * X + ng * Y) / (nl + ng)) =
      z - (nl * X + ng * Y) / (nl + ng) by ring] at this
    linarith

theorem wavgR_err {nl ng : Nat} (hl : nl ≠ 0) (hg : ng ≠ 0) (hn : nl + ng ≤ 2 ^ 26) {x y X Y δ : ℚ} (hδ1 : δ ≤ 1)
    (hX0 : 0 ≤ X) (hX1 : X ≤ 1) (hY0 : 0 ≤ Y) (hY1 : Y ≤ 1) (hx : |x - X| ≤ δ) (hy : |y - Y| ≤ δ) :
    ∃ z, wavgR F64.round nl ng (.fin x) (.fin y) = .fin z ∧
      |z - (nl * X + ng * Y) / (nl + ng)| ≤ δ + 16 * ulp64 := by
  have hN : (nl : ℚ) + ng ≤ 2 ^ 26 := by exact_mod_cast hn
  obtain ⟨z, h1, h2⟩ := wavgR_errB hl hg (B := 1) (by linarith [show (2 : ℚ) ^ 26 ≤ 2 ^ 50 by norm_num])
    (by rw [mul_one]; exact tiny_le) hδ1 hX0 hX1 hY0 hY1 hx hy
  exact ⟨z, h1, by rwa [mul_one] at h2⟩

/-! ## The target is consistent -/

section
variable {K : Type} [Field K] [LinearOrder K] [IsStrictOrderedRing K]

theorem wavgR_comm (r : K → XF K) (nl ng : Nat) (x y : XF K) : wavgR r nl ng x y = wavgR r ng nl y x := by
  unfold wavgR
  rw [XF.add_comm' (XF.rounded r (XF.ofNat nl * x)), XF.add_comm' (XF.ofNat nl) (XF.ofNat ng)]

/-- A categorical target measures impurity consistently, rounded or not. -/
def giniLawsR (r : K → XF K) (f : CatFeature) (n : Nat) (cases : List Nat) (h : f.InRange n cases) :
    TargetLaws (giniTargetR r f) cases where
  I cs := giniFromCountsR r cs.length (f.counts n cs)
  S l g := wavgR r l.length g.length (giniFromCountsR r l.length (f.counts n l))
    (giniFromCountsR r g.length (f.counts n g))
  Ok := countOk n
  Tracks := countTracks f n
  tracks_ok := by
    rintro a l r ⟨h1, h2, h3⟩
    refine ⟨h1, ?_, ?_⟩
    · rw [h2, counts_length]
    · rw [h3, counts_length]
  I_perm l l' hp := by rw [hp.length_eq, counts_perm f n hp]
  S_perm l l' r r' hl hr := by
    rw [hl.length_eq, counts_perm f n hl, hr.length_eq, counts_perm f n hr]
  S_comm l r := wavgR_comm _ _ _ _ _
  impurity a cs h1 hcs := (countLaws f (giniFromCountsR r) n cases h).impurity a cs h1 hcs
  split := by
    rintro a l g ⟨h1, h2, h3⟩ hcs
    refine ⟨{ a with lcounter := f.counts n l, rcounter := f.counts n g }, ?_, h1, rfl, rfl⟩
    show f.splitImpurityR r a l g none = _
    unfold CatFeature.splitImpurityR
    rw [countPerCat_eq f l a.lcounter
        (by rw [h2]; exact fun c hc => h c (hcs c (List.mem_append_left _ hc))), h2,
      countPerCat_eq f g a.rcounter
        (by rw [h3]; exact fun c hc => h c (hcs c (List.mem_append_right _ hc))), h3]
    rfl
  update := by
    rintro a l g l' g' mv ⟨h1, h2, h3⟩ hcs hl hr
    refine ⟨{ a with lcounter := f.counts n l', rcounter := f.counts n g' }, ?_, h1, rfl, rfl⟩
    show f.updateSImpR r a l' g' none mv = _
    unfold CatFeature.updateSImpR
    have hm : f.InRange n mv := fun c hc => h c (hcs c (List.mem_append_right _
      (hr.mem_iff.2 (List.mem_append_left _ hc))))
    rw [h2, h3, moveCounts_eq f n mv l g g' hm hr, ← counts_perm f n hl]
    rfl

/-- So does one that returns decreases. -/
def TargetLaws.judged {T : Target K} {cases : List Nat} (L : TargetLaws T cases) (r : K → XF K) (p : XF K) :
    TargetLaws (T.judged r p) cases where
  I := L.I
  S l g := XF.rounded r (p - L.S l g)
  Ok := L.Ok
  Tracks := L.Tracks
  tracks_ok := L.tracks_ok
  I_perm := L.I_perm
  S_perm l l' g g' hl hg := by rw [L.S_perm l l' g g' hl hg]
  S_comm l g := by rw [L.S_comm]
  impurity := L.impurity
  split a l g hok hcs := by
    obtain ⟨a', e, h⟩ := L.split a l g hok hcs
    refine ⟨a', ?_, h⟩
    show (T.splitImpurity a l g none).map _ = _
    rw [e]; rfl
  update a l g l' g' mv ht hcs hl hg := by
    obtain ⟨a', e, h⟩ := L.update a l g l' g' mv ht hcs hl hg
    refine ⟨a', ?_, h⟩
    show (T.updateSImp a l' g' none mv).map _ = _
    rw [e]; rfl

end

end CloudForest
