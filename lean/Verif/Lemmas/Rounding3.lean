import Verif.Lemmas.Rounding2
import Verif.Spec.RoundedTarget

/-! # Lemmas about sums in rounded arithmetic -/

set_option linter.unusedSectionVars false

namespace CloudForest

/-- Half a unit in the last place of one. -/
def ulp64 : ℚ := 1 / 2 ^ 53
/-- Half of the least positive number. -/
def tiny64 : ℚ := 1 / 2 ^ 1075

theorem ulp64_pos : 0 < ulp64 := by unfold ulp64; positivity
theorem tiny64_pos : 0 < tiny64 := by unfold tiny64; positivity

theorem roundEven_half (y : ℚ) : |(roundEven y : ℚ) - y| ≤ 1 / 2 := by
  have h1 : ((⌊y⌋ : ℤ) : ℚ) ≤ y := Int.floor_le y
  have h2 : y < (⌊y⌋ : ℤ) + 1 := Int.lt_floor_add_one y
  by_cases h : y - (⌊y⌋ : ℤ) ≤ 1 / 2
  · refine (roundEven_near y ⌊y⌋).trans ?_
    rw [abs_of_nonpos (by linarith)]
    linarith
  · refine (roundEven_near y (⌊y⌋ + 1)).trans ?_
    push_cast
    rw [abs_of_nonneg (by linarith)]
    linarith

theorem round_fin {x y : ℚ} (h : F64.round x = .fin y) : y = F64.nearest x := by
  unfold F64.round at h
  simp only at h
  split_ifs at h
  cases h; rfl

/-- The error of rounding a normal number. -/
theorem nearest_err {x : ℚ} (hx : 1 / 2 ^ 1022 ≤ |x|) : |F64.nearest x - x| ≤ ulp64 * |x| := by
  have hpos : 0 < |x| := lt_of_lt_of_le (by positivity) hx
  have h0 : x ≠ 0 := abs_pos.1 hpos
  obtain ⟨he1, he2⟩ := exponent_spec hpos
  have he : -1022 ≤ F64.exponent |x| := by
    by_contra hlt
    have h3 : (2 : ℚ) ^ (F64.exponent |x| + 1) ≤ 2 ^ (-1022 : ℤ) := zpow_le_zpow_right₀ (by norm_num) (by omega)
    have h4 : (2 : ℚ) ^ (-1022 : ℤ) = 1 / 2 ^ 1022 := by
      rw [zpow_neg, one_div]
      norm_cast
    rw [h4] at h3
    linarith
  unfold F64.nearest
  rw [if_neg h0]
  simp only
  rw [max_eq_left (by omega)]
  set e := F64.exponent |x| - 52 with hed
  have hu : (0 : ℚ) < 2 ^ e := by positivity
  have h5 := roundEven_half (x / 2 ^ e)
  have h6 : (roundEven (x / 2 ^ e) : ℚ) * 2 ^ e - x = ((roundEven (x / 2 ^ e) : ℚ) - x / 2 ^ e) * 2 ^ e := by
    field_simp
  rw [h6, abs_mul, abs_of_pos hu]
  have h7 : (2 : ℚ) ^ F64.exponent |x| = 2 ^ 52 * 2 ^ e := by
    rw [show F64.exponent |x| = 52 + e by omega, zpow_add₀ (by norm_num)]
    norm_num
  rw [h7] at he1
  have h8 : |(roundEven (x / 2 ^ e) : ℚ) - x / 2 ^ e| * 2 ^ e ≤ 1 / 2 * 2 ^ e :=
    mul_le_mul_of_nonneg_right h5 hu.le
  have h9 : ulp64 * (2 ^ 52 * 2 ^ e) ≤ ulp64 * |x| := mul_le_mul_of_nonneg_left he1 ulp64_pos.le
  have h10 : ulp64 * (2 ^ 52 * 2 ^ e) = 1 / 2 * (2 : ℚ) ^ e := by unfold ulp64; ring
  linarith

/-- The error of rounding any number. -/
theorem nearest_err' (x : ℚ) : |F64.nearest x - x| ≤ ulp64 * |x| + tiny64 := by
  have hu := ulp64_pos
  have ht := tiny64_pos
  by_cases hx : 1 / 2 ^ 1022 ≤ |x|
  · have := nearest_err hx
    linarith
  have hnn : 0 ≤ ulp64 * |x| := mul_nonneg hu.le (abs_nonneg _)
  by_cases h0 : x = 0
  · subst h0
    unfold F64.nearest
    rw [if_pos rfl]
    simpa using ht.le
  have hpos : 0 < |x| := abs_pos.2 h0
  obtain ⟨he1, he2⟩ := exponent_spec hpos
  have he : F64.exponent |x| < -1022 := by
    by_contra hge
    apply hx
    have h3 : (2 : ℚ) ^ (-1022 : ℤ) ≤ 2 ^ F64.exponent |x| := zpow_le_zpow_right₀ (by norm_num) (by omega)
    have h4 : (2 : ℚ) ^ (-1022 : ℤ) = 1 / 2 ^ 1022 := by
      rw [zpow_neg, one_div]
      norm_cast
    rw [← h4]
    exact h3.trans he1
  unfold F64.nearest
  rw [if_neg h0]
  simp only
  rw [max_eq_right (by omega)]
  have h5 := roundEven_half (x / 2 ^ (-1074 : ℤ))
  have hp : (0 : ℚ) < 2 ^ (-1074 : ℤ) := by positivity
  have h6 : (roundEven (x / 2 ^ (-1074 : ℤ)) : ℚ) * 2 ^ (-1074 : ℤ) - x =
      ((roundEven (x / 2 ^ (-1074 : ℤ)) : ℚ) - x / 2 ^ (-1074 : ℤ)) * 2 ^ (-1074 : ℤ) := by
    rw [sub_mul, div_mul_cancel₀ _ hp.ne']
  rw [h6, abs_mul, abs_of_pos hp]
  have h8 := mul_le_mul_of_nonneg_right h5 hp.le
  have h10 : (1 : ℚ) / 2 * 2 ^ (-1074 : ℤ) = tiny64 := by
    unfold tiny64
    rw [show (2 : ℚ) ^ 1075 = 2 * 2 ^ 1074 by rw [pow_succ]; ring, zpow_neg, ← one_div_mul_one_div, one_div (2 ^ 1074)]
    norm_cast
  linarith

theorem Rep64.neg {a : ℚ} (h : Rep64 a) : Rep64 (-a) := by
  obtain ⟨n, e, h1, h2, h3, h4⟩ := h
  exact ⟨-n, e, by rwa [abs_neg], h2, by rw [h3]; push_cast; ring, by rwa [abs_neg]⟩

/-- Every number of double precision is a multiple of the least one. -/
theorem Rep64.multiple {a : ℚ} (h : Rep64 a) : ∃ m : ℤ, a = m * 2 ^ (-1074 : ℤ) := by
  obtain ⟨n, e, h1, h2, h3, h4⟩ := h
  refine ⟨n * 2 ^ (e + 1074).toNat, ?_⟩
  rw [h3]
  push_cast
  rw [mul_assoc, ← zpow_natCast (2 : ℚ), ← zpow_add₀ (by norm_num), Int.toNat_of_nonneg (by omega)]
  congr 2
  ring

/-- Sums have only a relative error. -/
theorem round_add_err {a b y : ℚ} (ha : Rep64 a) (hb : Rep64 b) (h : F64.round (a + b) = .fin y) :
    |y - (a + b)| ≤ ulp64 * |a + b| := by
  by_cases hx : 1 / 2 ^ 1022 ≤ |a + b|
  · rw [round_fin h]
    exact nearest_err hx
  obtain ⟨m, hm⟩ := ha.multiple
  obtain ⟨k, hk⟩ := hb.multiple
  have hs : a + b = ((m + k : ℤ) : ℚ) * 2 ^ (-1074 : ℤ) := by rw [hm, hk]; push_cast; ring
  have h4 : (2 : ℚ) ^ (-1074 : ℤ) = 1 / 2 ^ 1074 := by
    rw [zpow_neg, one_div]
    norm_cast
  have hmk : |m + k| ≤ 2 ^ 53 := by
    have h5 : |a + b| < 1 / 2 ^ 1022 := not_le.1 hx
    rw [hs, abs_mul, h4, abs_of_pos (show (0 : ℚ) < 1 / 2 ^ 1074 by positivity)] at h5
    have h6 : |((m + k : ℤ) : ℚ)| < 2 ^ 52 := by
      rw [show (1 : ℚ) / 2 ^ 1022 = 2 ^ 52 * (1 / 2 ^ 1074) by
        rw [show (2 : ℚ) ^ 1074 = 2 ^ 52 * 2 ^ 1022 by rw [← pow_add], mul_one_div, eq_comm]
        field_simp] at h5
      exact lt_of_mul_lt_mul_right h5 (by positivity)
    have h7 : ((|m + k| : ℤ) : ℚ) < ((2 ^ 53 : ℤ) : ℚ) := by
      rw [Int.cast_abs]
      refine h6.trans ?_
      norm_num
    exact_mod_cast h7.le
  have hrep : Rep64 (a + b) := by
    rw [hs, h4, mul_one_div]
    exact rep64_frac hmk (by norm_num)
  rw [F64.rounds.self hrep] at h
  cases h
  rw [sub_self, abs_zero]
  exact mul_nonneg ulp64_pos.le (abs_nonneg _)

theorem round_err {x y : ℚ} (h : F64.round x = .fin y) : |y - x| ≤ ulp64 * |x| + tiny64 := by
  rw [round_fin h]
  exact nearest_err' x

theorem round_rep {x y : ℚ} (h : F64.round x = .fin y) : Rep64 y := (F64.rounds.fin x y h).1

/-! ## Finite results come from finite operands -/

section
variable {r : ℚ → XF ℚ}

theorem rounded_fin {a : XF ℚ} {y : ℚ} (h : XF.rounded r a = .fin y) : ∃ x, a = .fin x ∧ r x = .fin y := by
  cases a with
  | fin x => exact ⟨x, rfl, h⟩
  | nan => cases h
  | pinf => cases h
  | ninf => cases h

theorem add_fin {a b : XF ℚ} {y : ℚ} (h : a + b = .fin y) : ∃ u v, a = .fin u ∧ b = .fin v ∧ u + v = y := by
  cases a <;> cases b <;> first | exact ⟨_, _, rfl, rfl, XF.fin.inj h⟩ | cases h

theorem sub_fin {a b : XF ℚ} {y : ℚ} (h : a - b = .fin y) : ∃ u v, a = .fin u ∧ b = .fin v ∧ u - v = y := by
  cases a <;> cases b <;> first | exact ⟨_, _, rfl, rfl, by rw [XF.fin_sub] at h; exact XF.fin.inj h⟩ | cases h

end

/-! ## Sums -/

theorem sumsR_snoc (r : ℚ → XF ℚ) (f : NumFeature ℚ) (cs : List Nat) (c : Nat) :
    f.sumsR r (cs ++ [c]) = (f.sumsR r cs).bind fun acc => (f.numData[c]?).bind fun x =>
      some (XF.rounded r (acc.1 + x), XF.rounded r (acc.2 + XF.rounded r (x * x))) := by
  unfold NumFeature.sumsR
  rw [List.foldlM_append]
  simp only [Option.bind_eq_bind]
  congr 1
  funext acc
  rw [List.foldlM_cons]
  cases f.numData[c]? <;> rfl

theorem NumFeature.Doubles.value {f : NumFeature ℚ} {cs : List Nat} (h : f.Doubles cs) {c : Nat} (hc : c ∈ cs) :
    f.numData[c]? = some (.fin (f.value c)) ∧ Rep64 (f.value c) := by
  obtain ⟨x, h1, h2⟩ := h c hc
  have : f.value c = x := by unfold NumFeature.value; rw [h1]
  rw [this]
  exact ⟨h1, h2⟩

theorem rep64_zero : Rep64 0 := by simpa using rep64_frac (m := 0) (k := 0) (by norm_num) (by norm_num)

theorem mulX_fin {x y : ℚ} : (XF.fin x * XF.fin y : XF ℚ) = .fin (x * y) := XF.fin_mul x y

theorem list_abs_sum (l : List ℚ) : |l.sum| ≤ (l.map fun x => |x|).sum := by
  induction l with
  | nil => simp
  | cons a l ih =>
    rw [List.sum_cons, List.map_cons, List.sum_cons]
    exact (abs_add_le _ _).trans (by linarith)

theorem err_add {u k A S s0 v y : ℚ} (hu : 0 < u) (hk : 0 ≤ k) (hn : 2 * (k + 1) * u ≤ 1) (hS : |S| ≤ A)
    (h0 : |s0 - S| ≤ 2 * k * u * A) (hy : |y - (s0 + v)| ≤ u * |s0 + v|) :
    |y - (S + v)| ≤ 2 * (k + 1) * u * (A + |v|) := by
  have hA : 0 ≤ A := (abs_nonneg _).trans hS
  have hv := abs_nonneg v
  have h1 : |s0 + v| ≤ |s0 - S| + |S| + |v| := by
    have : s0 + v = (s0 - S) + S + v := by ring
    rw [this]
    exact (abs_add_le _ _).trans (by linarith [abs_add_le (s0 - S) S])
  have h2 : |y - (S + v)| ≤ |y - (s0 + v)| + |s0 - S| := by
    have : y - (S + v) = (y - (s0 + v)) + (s0 - S) := by ring
    rw [this]
    exact abs_add_le _ _
  have h3 : 0 ≤ u * (A + |v|) := by positivity
  have h4 : 2 * k * u * A ≤ 2 * k * (u * (A + |v|)) := by nlinarith [mul_nonneg hk hu.le]
  have h5 : u * |s0 + v| ≤ u * (2 * k * (u * (A + |v|)) + (A + |v|)) :=
    mul_le_mul_of_nonneg_left (by linarith) hu.le
  have h6 : 2 * k * u * (u * (A + |v|)) ≤ 1 * (u * (A + |v|)) :=
    mul_le_mul_of_nonneg_right (by nlinarith) h3
  nlinarith

theorem err_sqr {u t k Q q0 w p y : ℚ} (hu : 0 < u) (ht : 0 < t) (hk : 0 ≤ k) (hn : 2 * (k + 1) * u ≤ 1) (hQ : 0 ≤ Q)
    (hw : 0 ≤ w) (h0 : |q0 - Q| ≤ 4 * k * (u * Q + t)) (hp : |p - w| ≤ u * w + t) (hy : |y - (q0 + p)| ≤ u * |q0 + p|) :
    |y - (Q + w)| ≤ 4 * (k + 1) * (u * (Q + w) + t) := by
  obtain ⟨X, hX⟩ : ∃ X, X = u * (Q + w) + t := ⟨_, rfl⟩
  have hX0 : 0 ≤ X := by rw [hX]; positivity
  have huw : 0 ≤ u * w := by positivity
  have huQ : 0 ≤ u * Q := by positivity
  have h1 : |q0 + p| ≤ |q0 - Q| + |p - w| + (Q + w) := by
    have : q0 + p = (q0 - Q) + (p - w) + (Q + w) := by ring
    rw [this]
    refine (abs_add_le _ _).trans ?_
    rw [abs_of_nonneg (add_nonneg hQ hw)]
    linarith [abs_add_le (q0 - Q) (p - w)]
  have h2 : |y - (Q + w)| ≤ |y - (q0 + p)| + |q0 - Q| + |p - w| := by
    have : y - (Q + w) = (y - (q0 + p)) + (q0 - Q) + (p - w) := by ring
    rw [this]
    exact (abs_add_le _ _).trans (by linarith [abs_add_le (y - (q0 + p)) (q0 - Q)])
  have h3 : |q0 - Q| ≤ 4 * k * X := h0.trans (mul_le_mul_of_nonneg_left (by rw [hX]; linarith) (by positivity))
  have h4 : |p - w| ≤ X := by rw [hX]; linarith
  have h5 : u * |q0 + p| ≤ u * (4 * k * X + X + (Q + w)) := mul_le_mul_of_nonneg_left (by linarith) hu.le
  have h6 : u * (4 * k * X + X + (Q + w)) = u * (4 * k + 1) * X + u * (Q + w) := by ring
  have h7 : u * (4 * k + 1) * X ≤ 2 * X := mul_le_mul_of_nonneg_right (by nlinarith) hX0
  rw [← hX]
  have h8 : u * (Q + w) ≤ X := by rw [hX]; linarith
  nlinarith

theorem list_sq_nonneg (l : List ℚ) : 0 ≤ (l.map fun x => x ^ 2).sum := by
  induction l with
  | nil => simp
  | cons a l ih => rw [List.map_cons, List.sum_cons]; positivity

theorem list_abs_nonneg (l : List ℚ) : 0 ≤ (l.map fun x => |x|).sum := (abs_nonneg _).trans (list_abs_sum l)

theorem list_cross (l : List ℚ) (a : ℚ) : 2 * a * (l.map fun x => |x|).sum ≤ l.length * a ^ 2 + (l.map fun x => x ^ 2).sum := by
  induction l with
  | nil => simp
  | cons b l ih =>
    simp only [List.map_cons, List.sum_cons, List.length_cons]
    push_cast
    have := sq_nonneg (a - |b|)
    rw [← sq_abs b]
    linarith [sq_nonneg (a - |b|), show (a - |b|) ^ 2 = a ^ 2 - 2 * a * |b| + |b| ^ 2 by ring]

/-- The square of a sum. -/
theorem list_cauchy (l : List ℚ) : (l.map fun x => |x|).sum ^ 2 ≤ l.length * (l.map fun x => x ^ 2).sum := by
  induction l with
  | nil => simp
  | cons b l ih =>
    simp only [List.map_cons, List.sum_cons, List.length_cons]
    push_cast
    have := list_cross l |b|
    rw [sq_abs] at this
    have h2 : (|b| + (l.map fun x => |x|).sum) ^ 2 = b ^ 2 + 2 * |b| * (l.map fun x => |x|).sum +
        (l.map fun x => |x|).sum ^ 2 := by rw [← sq_abs b]; ring
    rw [h2]
    nlinarith

/-- The errors of the sum and the sum of squares. -/
theorem sumsR_err (f : NumFeature ℚ) : ∀ (cs : List Nat), f.Doubles cs → 2 * (cs.length : ℚ) * ulp64 ≤ 1 →
    ∀ s q, f.sumsR F64.round cs = some (.fin s, .fin q) →
      Rep64 s ∧ Rep64 q ∧
      |s - (cs.map f.value).sum| ≤ 2 * cs.length * ulp64 * (cs.map fun c => |f.value c|).sum ∧
      |q - (cs.map fun c => f.value c ^ 2).sum| ≤
        4 * cs.length * (ulp64 * (cs.map fun c => f.value c ^ 2).sum + tiny64) := by
  intro cs
  induction cs using List.reverseRecOn with
  | nil =>
    intro _ _ s q h
    cases h
    exact ⟨rep64_zero, rep64_zero, by simp, by simp⟩
  | append_singleton cs c ih =>
    intro hd hn s q h
    have hu := ulp64_pos
    have ht := tiny64_pos
    rw [sumsR_snoc] at h
    obtain ⟨⟨sx, qx⟩, e1, h⟩ := Option.bind_eq_some_iff.1 h
    obtain ⟨hv, hvr⟩ := hd.value (c := c) (by simp)
    rw [hv] at h
    simp only [Option.bind_some, Option.some.injEq, Prod.mk.injEq] at h
    obtain ⟨h1, h2⟩ := h
    obtain ⟨x1, h3, h4⟩ := rounded_fin h1
    obtain ⟨s0, v0, rfl, hv0, rfl⟩ := add_fin h3
    cases hv0
    obtain ⟨x2, h5, h6⟩ := rounded_fin h2
    obtain ⟨q0, p, rfl, hp, rfl⟩ := add_fin h5
    rw [mulX_fin] at hp
    have hp' : F64.round (f.value c * f.value c) = .fin p := hp
    have hlen : ((cs ++ [c]).length : ℚ) = cs.length + 1 := by simp
    rw [hlen] at hn ⊢
    have hn0 : (0 : ℚ) ≤ cs.length := by positivity
    obtain ⟨r1, r2, b1, b2⟩ := ih (fun d hd' => hd d (by simp [hd'])) (by nlinarith) s0 q0 e1
    refine ⟨round_rep h4, round_rep h6, ?_, ?_⟩
    · simp only [List.map_append, List.map_cons, List.map_nil, List.sum_append, List.sum_singleton]
      refine err_add hu hn0 hn ?_ b1 (round_add_err r1 hvr h4)
      have := list_abs_sum (cs.map f.value)
      rwa [List.map_map] at this
    · simp only [List.map_append, List.map_cons, List.map_nil, List.sum_append, List.sum_singleton]
      have hQ := list_sq_nonneg (cs.map f.value)
      rw [List.map_map] at hQ
      have hperr := round_err hp'
      rw [← sq, abs_of_nonneg (sq_nonneg (f.value c))] at hperr
      exact err_sqr hu ht hn0 hn hQ (sq_nonneg _) b2 hperr (round_add_err r2 (round_rep hp') h6)

theorem err_dev {u t n A Q S s q w1 w2 e : ℚ} (hu : 0 < u) (ht : 0 < t) (hn1 : 1 ≤ n) (hn : 2 * n * u ≤ 1) (hA : 0 ≤ A)
    (hQ : 0 ≤ Q) (hAQ : A ^ 2 ≤ n * Q) (hS : |S| ≤ A) (h1 : |s - S| ≤ 2 * n * u * A) (h2 : |q - Q| ≤ 4 * n * (u * Q + t))
    (h3 : |w1 - s * s| ≤ u * |s * s| + t) (h4 : |w2 - w1 / n| ≤ u * |w1 / n| + t)
    (h5 : |e - (q - w2)| ≤ u * |q - w2|) :
    |e - (Q - S ^ 2 / n)| ≤ n * (32 * (u * Q) + 16 * t) := by
  have hn0 : 0 < n := by linarith
  have huQ : 0 ≤ u * Q := by positivity
  have hnt : t ≤ n * t := le_mul_of_one_le_left ht.le hn1
  have hnuQ : u * Q ≤ n * (u * Q) := le_mul_of_one_le_left huQ hn1
  have hnu : u ≤ n * u := le_mul_of_one_le_left hu.le hn1
  have hu1 : u ≤ 1 / 2 := by linarith
  have k1 : 2 * n * u * Q ≤ 1 * Q := mul_le_mul_of_nonneg_right hn hQ
  have k2 : 2 * n * u * t ≤ 1 * t := mul_le_mul_of_nonneg_right hn ht.le
  have k3 : u * t ≤ 1 / 2 * t := mul_le_mul_of_nonneg_right hu1 ht.le
  have k4 : 2 * n * u * A ≤ 1 * A := mul_le_mul_of_nonneg_right hn hA
  have k0 : 0 ≤ n * (u * Q) := by positivity
  have hA2 : 0 ≤ A ^ 2 := sq_nonneg A
  have hS2 : S ^ 2 ≤ A ^ 2 := by rw [← sq_abs S]; exact pow_le_pow_left₀ (abs_nonneg _) hS 2
  have hdA : A ^ 2 / n ≤ Q := by rw [div_le_iff₀ hn0]; linarith
  have hd : |s - S| ≤ A := h1.trans (by linarith)
  have hs : |s| ≤ 2 * A := by
    have : s = (s - S) + S := by ring
    rw [this]
    exact (abs_add_le _ _).trans (by linarith)
  have hss : |s * s| ≤ 4 * A ^ 2 := by
    rw [abs_mul]
    have h6 : |s| * |s| ≤ (2 * A) * (2 * A) := mul_le_mul hs hs (abs_nonneg _) (by positivity)
    linarith
  have hsS : |s * s - S ^ 2| ≤ 6 * (n * u) * A ^ 2 := by
    have : s * s - S ^ 2 = (s - S) * (s + S) := by ring
    rw [this, abs_mul]
    have h6 : |s + S| ≤ 3 * A := (abs_add_le _ _).trans (by linarith)
    have h7 : |s - S| * |s + S| ≤ (2 * n * u * A) * (3 * A) :=
      mul_le_mul h1 h6 (abs_nonneg _) (by positivity)
    linarith
  have huA : u * A ^ 2 ≤ n * u * A ^ 2 := by
    exact mul_le_mul_of_nonneg_right hnu hA2
  have hw1 : |w1 - S ^ 2| ≤ 10 * (n * u * A ^ 2) + t := by
    have : w1 - S ^ 2 = (w1 - s * s) + (s * s - S ^ 2) := by ring
    rw [this]
    have h6 : u * |s * s| ≤ u * (4 * A ^ 2) := mul_le_mul_of_nonneg_left hss hu.le
    refine (abs_add_le _ _).trans ?_
    linarith
  have hw1n : |w1 / n - S ^ 2 / n| ≤ 10 * (n * (u * Q)) + t := by
    rw [← sub_div, abs_div, abs_of_pos hn0, div_le_iff₀ hn0]
    have h6 : n * u * A ^ 2 ≤ n * u * (n * Q) := mul_le_mul_of_nonneg_left hAQ (by positivity)
    linarith
  have hVd : S ^ 2 / n ≤ Q := (div_le_div_of_nonneg_right hS2 hn0.le).trans hdA
  have hV0 : 0 ≤ S ^ 2 / n := by positivity
  have hw1a : |w1 / n| ≤ 6 * Q + t := by
    have : w1 / n = (w1 / n - S ^ 2 / n) + S ^ 2 / n := by ring
    rw [this]
    refine (abs_add_le _ _).trans ?_
    rw [abs_of_nonneg hV0]
    have h6 : 10 * (n * (u * Q)) ≤ 5 * Q := by linarith
    linarith
  have hw2 : |w2 - S ^ 2 / n| ≤ 16 * (n * (u * Q)) + 3 * t := by
    have : w2 - S ^ 2 / n = (w2 - w1 / n) + (w1 / n - S ^ 2 / n) := by ring
    rw [this]
    refine (abs_add_le _ _).trans ?_
    have h6 : u * |w1 / n| ≤ u * (6 * Q + t) := mul_le_mul_of_nonneg_left hw1a hu.le
    linarith
  have hg : |(q - w2) - (Q - S ^ 2 / n)| ≤ 20 * (n * (u * Q)) + 7 * (n * t) := by
    have : (q - w2) - (Q - S ^ 2 / n) = (q - Q) - (w2 - S ^ 2 / n) := by ring
    rw [this]
    refine (abs_sub _ _).trans ?_
    linarith
  have hqw : |q - w2| ≤ 11 * Q + 7 * (n * t) := by
    have : q - w2 = ((q - w2) - (Q - S ^ 2 / n)) + (Q - S ^ 2 / n) := by ring
    rw [this]
    refine (abs_add_le _ _).trans ?_
    rw [abs_of_nonneg (show 0 ≤ Q - S ^ 2 / n by linarith)]
    have h6 : 20 * (n * (u * Q)) ≤ 10 * Q := by linarith
    linarith
  have hfin : |e - (Q - S ^ 2 / n)| ≤ |e - (q - w2)| + |(q - w2) - (Q - S ^ 2 / n)| := by
    have : e - (Q - S ^ 2 / n) = (e - (q - w2)) + ((q - w2) - (Q - S ^ 2 / n)) := by ring
    rw [this]
    exact abs_add_le _ _
  have h6 : u * |q - w2| ≤ u * (11 * Q + 7 * (n * t)) := mul_le_mul_of_nonneg_left hqw hu.le
  have h7 : u * (7 * (n * t)) ≤ 4 * t := by linarith
  linarith

theorem divX_inf (n : Nat) (x : ℚ) : (XF.pinf / XF.ofNat n : XF ℚ) ≠ .fin x ∧ (XF.ninf / XF.ofNat n : XF ℚ) ≠ .fin x := by
  constructor
  · show (if (n : ℚ) < 0 then XF.ninf else XF.pinf) ≠ _
    split_ifs <;> exact fun h => nomatch h
  · show (if (n : ℚ) < 0 then XF.pinf else XF.ninf) ≠ _
    split_ifs <;> exact fun h => nomatch h

theorem sse_short (f : NumFeature ℚ) {cs : List Nat} (h : cs ≠ []) :
    f.sse cs = (cs.map fun c => f.value c ^ 2).sum - (cs.map f.value).sum ^ 2 / cs.length := by
  have h1 := sseX_eq f cs h
  have hN : (cs.length : ℚ) ≠ 0 := by
    have : cs.length ≠ 0 := by simpa using h
    exact_mod_cast this
  unfold sseX sseFrom XF.ofNat at h1
  rw [XF.fin_mul, XF.fin_div _ hN, XF.fin_sub] at h1
  rw [← XF.fin.inj h1, sq]

/-- The error of the impurity. -/
theorem impurityR_err (f : NumFeature ℚ) {cs : List Nat} (hd : f.Doubles cs) (hne : cs ≠ [])
    (hn : (cs.length : ℚ) ≤ 2 ^ 52) {a a' : Allocs ℚ} {e : ℚ} (h : f.impurityR F64.round a cs = some (.fin e, a')) :
    |e - f.sse cs| ≤ cs.length * (32 * (ulp64 * (cs.map fun c => f.value c ^ 2).sum) + 16 * tiny64) := by
  unfold NumFeature.impurityR at h
  simp only [Option.bind_eq_bind] at h
  obtain ⟨⟨sx, qx⟩, e1, h⟩ := Option.bind_eq_some_iff.1 h
  simp only [Option.some.injEq, Prod.mk.injEq] at h
  obtain ⟨h, -⟩ := h
  unfold sseFromR at h
  obtain ⟨x1, h1, h2⟩ := rounded_fin h
  obtain ⟨q, w2, rfl, h3, rfl⟩ := sub_fin h1
  obtain ⟨x2, h4, h5⟩ := rounded_fin h3
  have hn0 : (cs.length : ℚ) ≠ 0 := by
    have := List.length_pos_iff.2 hne
    positivity
  have hn1 : (1 : ℚ) ≤ cs.length := by
    have := List.length_pos_iff.2 hne
    exact_mod_cast this
  -- the product is finite, and so is the sum
  have h6 : ∃ s w1, sx = .fin s ∧ F64.round (s * s) = .fin w1 ∧ x2 = w1 / cs.length := by
    cases hsx : XF.rounded F64.round (sx * sx) with
    | fin w1 =>
      rw [hsx] at h4
      obtain ⟨x3, h7, h8⟩ := rounded_fin hsx
      rw [show (XF.ofNat cs.length : XF ℚ) = .fin (cs.length : ℚ) from rfl, XF.fin_div _ hn0] at h4
      cases h4
      cases sx with
      | fin s => cases h7; exact ⟨s, w1, rfl, h8, rfl⟩
      | nan => cases h7
      | pinf => cases h7
      | ninf => cases h7
    | nan => rw [hsx] at h4; cases h4
    | pinf => rw [hsx] at h4; exact absurd h4 (divX_inf _ _).1
    | ninf => rw [hsx] at h4; exact absurd h4 (divX_inf _ _).2
  obtain ⟨s, w1, rfl, h8, rfl⟩ := h6
  have hnu : 2 * (cs.length : ℚ) * ulp64 ≤ 1 := by unfold ulp64; linarith
  obtain ⟨r1, r2, b1, b2⟩ := sumsR_err f cs hd hnu s q e1
  have hS := list_abs_sum (cs.map f.value)
  have hA := list_abs_nonneg (cs.map f.value)
  have hQ := list_sq_nonneg (cs.map f.value)
  have hAQ := list_cauchy (cs.map f.value)
  rw [List.map_map] at hS hA hQ
  rw [List.map_map, List.map_map, List.length_map] at hAQ
  have hsub : |e - (q - w2)| ≤ ulp64 * |q - w2| := by
    rw [sub_eq_add_neg q w2] at h2 ⊢
    exact round_add_err r2 (round_rep h5).neg h2
  have := err_dev ulp64_pos tiny64_pos hn1 hnu hA hQ hAQ hS b1 b2 (round_err h8) (round_err h5) hsub
  rw [sse_short f hne]
  exact this

end CloudForest
