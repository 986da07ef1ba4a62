import Verif.Lemmas.Rounding5
import Verif.Lemmas.ClassBoost
import Verif.Spec.RoundedClassBoost
import Mathlib.Tactic.FieldSimp

/-!
# Boosting of two classes, rounded
-/

set_option linter.unusedSectionVars false

namespace CloudForest

theorem roundEven_neg (y : ℚ) : roundEven (-y) = -roundEven y := by
  have hle := Int.floor_le y
  have hlt := Int.lt_floor_add_one y
  by_cases hi : (⌊y⌋ : ℚ) = y
  · have h2 : ⌊-y⌋ = -⌊y⌋ := by
      rw [Int.floor_eq_iff]
      push_cast
      constructor <;> linarith
    unfold roundEven
    simp only [h2]
    push_cast
    rw [if_pos (by linarith), if_pos (by linarith)]
  · have hlt' : (⌊y⌋ : ℚ) < y := lt_of_le_of_ne hle hi
    have h2 : ⌊-y⌋ = -⌊y⌋ - 1 := by
      rw [Int.floor_eq_iff]
      push_cast
      constructor <;> linarith
    unfold roundEven
    simp only [h2]
    push_cast
    rcases lt_trichotomy (y - ⌊y⌋) (1 / 2) with h | h | h
    · rw [if_neg (by linarith), if_pos (by linarith), if_pos h]
      ring
    · by_cases he : ⌊y⌋ % 2 = 0
      · rw [if_neg (by linarith), if_neg (by linarith), if_neg (by omega), if_neg (by linarith), if_neg (by linarith), if_pos he]
        ring
      · rw [if_neg (by linarith), if_neg (by linarith), if_pos (by omega), if_neg (by linarith), if_neg (by linarith), if_neg he]
        ring
    · rw [if_pos (by linarith), if_neg (by linarith), if_pos h]
      ring

theorem nearest_neg (x : ℚ) : F64.nearest (-x) = -F64.nearest x := by
  unfold F64.nearest
  by_cases h : x = 0
  · simp [h]
  · rw [if_neg h, if_neg (neg_ne_zero.2 h), abs_neg]
    simp only
    rw [neg_div, roundEven_neg]
    push_cast
    ring

theorem round_neg {x y : ℚ} (h : F64.round x = .fin y) : F64.round (-x) = .fin (-y) := by
  obtain ⟨h1, h2⟩ := F64.rounds.fin x y h
  have e := round_fin h
  obtain ⟨n, e', -, -, -, hlt⟩ := h1
  obtain ⟨l1, l2⟩ := abs_lt.1 hlt
  unfold F64.round
  simp only [nearest_neg, ← e]
  rw [if_neg (by linarith), if_neg (by linarith)]

theorem rep64_pow (k : Nat) (hk : k ≤ 53) : Rep64 ((2 : ℚ) ^ k) := by
  have := rep64_int (m := 2 ^ k) (by rw [abs_of_nonneg (by positivity)]; exact pow_le_pow_right₀ (by norm_num) hk)
  exact_mod_cast this

theorem rep64_inv (k : Nat) (hk : k ≤ 1074) : Rep64 (1 / 2 ^ k) := by
  have := rep64_frac (m := 1) (k := k) (by norm_num) hk
  rwa [Int.cast_one] at this

theorem rep64_co (k : Nat) (hk : k ≤ 53) : Rep64 (1 - 1 / 2 ^ k) := by
  have h1 : (1 : ℤ) ≤ 2 ^ k := one_le_pow₀ (by norm_num)
  have h2 : (2 : ℤ) ^ k ≤ 2 ^ 53 := pow_le_pow_right₀ (by norm_num) hk
  have := rep64_frac (m := 2 ^ k - 1) (k := k) (by rw [abs_of_nonneg (by linarith)]; linarith) (by omega)
  have e : (((2 ^ k - 1 : ℤ) : ℚ)) / 2 ^ k = 1 - 1 / 2 ^ k := by
    push_cast
    rw [sub_div, div_self (by positivity)]
  rwa [e] at this

theorem rep64_one : Rep64 1 := by simpa using rep64_pow 0 (by norm_num)

theorem rep64_scale {q : ℚ} (h : Rep64 q) {k : Nat} (hk : k ≤ 53) (h1 : 1 / 2 ^ k ≤ |q|) (h2 : |q| ≤ 1) : Rep64 (q / 2 ^ k) := by
  obtain ⟨m, hm⟩ := h.coarse h1
  have hs : F64.nearest (q / 2 ^ k) = F64.nearest q / 2 ^ k := by
    apply nearest_scale
    have h2k : (0 : ℚ) < 2 ^ k := by positivity
    rw [le_div_iff₀ h2k]
    refine le_trans ?_ h1
    rw [one_div_mul_eq_div, div_le_div_iff₀ (by positivity) h2k, one_mul, ← pow_add]
    exact pow_le_pow_right₀ (by norm_num) (by omega)
  have hq := F64.rounds.self h
  rw [← round_fin hq] at hs
  have hb : |q / 2 ^ k| ≤ 2 ^ 53 := by
    rw [abs_div, abs_of_pos (by positivity : (0 : ℚ) < 2 ^ k)]
    refine (div_le_self (abs_nonneg _) (one_le_pow₀ (by norm_num))).trans (h2.trans ?_)
    exact one_le_pow₀ (by norm_num)
  obtain ⟨y, e, -⟩ := round_small hb
  have := round_fin e
  rw [hs] at this
  rw [← this]
  exact round_rep e

/-- What one case adds to the denominator. -/
theorem leaf_term {q : ℚ} (hr : Rep64 q) {k : Nat} (hk : k ≤ 53) (h1 : 1 / 2 ^ k ≤ q) (h2 : q ≤ 1 - 1 / 2 ^ k) :
    ∃ a d, F64.round (1 - q) = .fin a ∧ F64.round (a * q) = .fin d ∧ q / 2 ^ k ≤ d ∧ d ≤ q := by
  have hδ : (0 : ℚ) < 1 / 2 ^ k := by positivity
  obtain ⟨a, ea, a1, a2⟩ := F64.rounds.between (x := 1 - q) (rep64_inv k (by omega)) (rep64_co k hk) (by linarith) (by linarith)
  have hq0 : 0 < q := lt_of_lt_of_le hδ h1
  have hq1 : q ≤ 1 := by linarith
  obtain ⟨d, ed, d1, d2⟩ := F64.rounds.between (x := a * q)
    (rep64_scale hr hk (by rwa [abs_of_pos hq0]) (by rwa [abs_of_pos hq0])) hr
    (by
      have := mul_le_mul_of_nonneg_right a1 hq0.le
      rw [one_div_mul_eq_div] at this
      exact this)
    (by nlinarith)
  exact ⟨a, d, ea, ed, d1, d2⟩

/-- A residual `e` adds `d` to the denominator. -/
structure Term64 (k : Nat) (e d : ℚ) : Prop where
  rep : Rep64 d
  low : |e| / 2 ^ k ≤ d
  high : d ≤ |e|
  one : |e| ≤ 1
  mult : ∃ m : ℤ, e = m / 2 ^ (k + 53)

/-- One round of the sums. -/
theorem leaf_step {k m : Nat} (hk : k ≤ 53) (hm : m + 1 ≤ 2 ^ 53) {S D e d : ℚ} (ht : Term64 k e d) (hD : Rep64 D)
    (h1 : |S| ≤ m) (h2 : D ≤ m) (h3 : |S| / 2 ^ k ≤ D) (h4 : ∃ z : ℤ, S = z / 2 ^ (k + 53)) :
    ∃ S' D', F64.round (S + e) = .fin S' ∧ F64.round (D + d) = .fin D' ∧ |S'| ≤ m + 1 ∧ D' ≤ m + 1 ∧ |S'| / 2 ^ k ≤ D' ∧
      (∃ z : ℤ, S' = z / 2 ^ (k + 53)) ∧ D ≤ D' ∧ d ≤ D' ∧ (D ≤ S → 0 ≤ e → D' ≤ S') ∧ (S ≤ -D → e ≤ 0 → S' ≤ -D') := by
  have h2k : (0 : ℚ) < 2 ^ k := by positivity
  have hd0 : 0 ≤ d := le_trans (div_nonneg (abs_nonneg _) h2k.le) ht.low
  have hD0 : 0 ≤ D := le_trans (div_nonneg (abs_nonneg _) h2k.le) h3
  have hrep : Rep64 ((m : ℚ) + 1) := by
    have := rep64_int (m := (m : ℤ) + 1) (by rw [abs_of_nonneg (by positivity)]; exact_mod_cast hm)
    exact_mod_cast this
  have hx : |S + e| ≤ m + 1 := (abs_add_le S e).trans (by linarith [ht.one])
  obtain ⟨x1, x2⟩ := abs_le.1 hx
  obtain ⟨S', eS, s1, s2⟩ := F64.rounds.between (x := S + e) hrep.neg hrep x1 x2
  obtain ⟨D', eD, t1, t2⟩ := F64.rounds.between (x := D + d) hD hrep (by linarith) (by linarith [ht.high, ht.one])
  have t3 : d ≤ D' := F64.rounds.mono (by linarith) (F64.rounds.self ht.rep) eD
  obtain ⟨z1, hz1⟩ := h4
  obtain ⟨z2, hz2⟩ := ht.mult
  have hxz : S + e = ((z1 + z2 : ℤ) : ℚ) / 2 ^ (k + 53) := by rw [hz1, hz2]; push_cast; ring
  have hS' := round_fin eS
  have hscale : ∃ y, F64.round ((S + e) / 2 ^ k) = .fin y ∧ y = S' / 2 ^ k := by
    have hb : |(S + e) / 2 ^ k| ≤ 2 ^ 53 := by
      rw [abs_div, abs_of_pos h2k]
      refine (div_le_self (abs_nonneg _) (one_le_pow₀ (by norm_num))).trans (hx.trans ?_)
      exact_mod_cast hm
    obtain ⟨y, ey, -⟩ := round_small hb
    refine ⟨y, ey, ?_⟩
    rw [round_fin ey, hS']
    by_cases h0 : S + e = 0
    · rw [h0, zero_div]
      simp [F64.nearest]
    · apply nearest_scale
      have hz0 : z1 + z2 ≠ 0 := by
        intro h
        rw [h] at hxz
        simp at hxz
        exact h0 hxz
      have hz : (1 : ℚ) ≤ |((z1 + z2 : ℤ) : ℚ)| := by
        rw [← Int.cast_abs]
        exact_mod_cast Int.one_le_abs hz0
      rw [hxz, abs_div, abs_of_pos (by positivity : (0 : ℚ) < 2 ^ (k + 53)), div_div, ← pow_add]
      rw [div_le_div_iff₀ (by positivity) (by positivity), one_mul]
      calc (2 : ℚ) ^ (k + 53 + k) ≤ 2 ^ 1022 := pow_le_pow_right₀ (by norm_num) (by omega)
        _ ≤ |((z1 + z2 : ℤ) : ℚ)| * 2 ^ 1022 := le_mul_of_one_le_left (by positivity) hz
  obtain ⟨y, ey, hy⟩ := hscale
  have hsum : |S + e| / 2 ^ k ≤ D + d := by
    refine le_trans (div_le_div_of_nonneg_right (abs_add_le S e) h2k.le) ?_
    rw [add_div]
    exact add_le_add h3 ht.low
  refine ⟨S', D', eS, eD, abs_le.2 ⟨s1, s2⟩, t2, ?_, ?_, t1, t3, ?_, ?_⟩
  · have hup : S' / 2 ^ k ≤ D' := by
      rw [← hy]
      exact F64.rounds.mono ((div_le_div_of_nonneg_right (le_abs_self _) h2k.le).trans hsum) ey eD
    have hdn : -S' / 2 ^ k ≤ D' := by
      rw [neg_div, ← hy]
      refine F64.rounds.mono ?_ (round_neg ey) eD
      rw [← neg_div]
      exact (div_le_div_of_nonneg_right (neg_le_abs _) h2k.le).trans hsum
    rcases abs_cases S' with ⟨h, -⟩ | ⟨h, -⟩ <;> rw [h]
    · exact hup
    · exact hdn
  · rw [hS']
    exact nearest_multiple hxz
  · intro hh h0
    refine F64.rounds.mono ?_ eD eS
    have := ht.high
    rw [abs_of_nonneg h0] at this
    linarith
  · intro hh h0
    refine F64.rounds.mono ?_ eS (round_neg eD)
    have := ht.high
    rw [abs_of_nonpos h0] at this
    linarith

/-- The sums of a leaf. -/
theorem leaf_sums {k : Nat} (hk : k ≤ 53) (e d : Nat → ℚ) (F : XF ℚ × XF ℚ → Nat → Option (XF ℚ × XF ℚ)) :
    ∀ (cs : List Nat) (m : Nat), m + cs.length ≤ 2 ^ 53 → (∀ c ∈ cs, Term64 k (e c) (d c)) →
    (∀ c ∈ cs, ∀ S D : ℚ, F (.fin S, .fin D) c = some (F64.round (S + e c), F64.round (D + d c))) →
    ∀ S D : ℚ, Rep64 D → |S| ≤ m → D ≤ m → |S| / 2 ^ k ≤ D → (∃ z : ℤ, S = z / 2 ^ (k + 53)) →
    ∃ S' D', cs.foldlM F (.fin S, .fin D) = some (.fin S', .fin D') ∧ |S'| / 2 ^ k ≤ D' ∧ D ≤ D' ∧
      (∀ c ∈ cs, d c ≤ D') ∧ (D ≤ S → (∀ c ∈ cs, 0 ≤ e c) → D' ≤ S') ∧ (S ≤ -D → (∀ c ∈ cs, e c ≤ 0) → S' ≤ -D') := by
  intro cs
  induction cs with
  | nil =>
    intro m _ _ _ S D _ _ _ h3 _
    exact ⟨S, D, rfl, h3, le_rfl, by simp, fun h _ => h, fun h _ => h⟩
  | cons c cs ih =>
    intro m hm ht hF S D hD h1 h2 h3 h4
    rw [List.length_cons] at hm
    obtain ⟨S1, D1, e1, e2, b1, b2, b3, b4, b5, b6, b7, b8⟩ := leaf_step hk (by omega) (ht c (by simp)) hD h1 h2 h3 h4
    rw [List.foldlM_cons, hF c (by simp), e1, e2]
    obtain ⟨S', D', f1, f2, f3, f4, f5, f6⟩ := ih (m + 1) (by omega) (fun x hx => ht x (by simp [hx]))
      (fun x hx => hF x (by simp [hx])) S1 D1 (round_rep e2) (by push_cast; exact b1) (by push_cast; exact b2) b3 b4
    refine ⟨S', D', f1, f2, b5.trans f3, ?_, ?_, ?_⟩
    · intro x hx
      rcases List.mem_cons.1 hx with rfl | hx
      · exact b6.trans f3
      · exact f4 x hx
    · exact fun h hp => f5 (b7 h (hp c (by simp))) fun x hx => hp x (by simp [hx])
    · exact fun h hp => f6 (b8 h (hp c (by simp))) fun x hx => hp x (by simp [hx])

theorem rounded_mono {a b : XF ℚ} (h : a ≤ b) : XF.rounded F64.round a ≤ XF.rounded F64.round b := by
  cases a with
  | nan => exact absurd h id
  | ninf => cases b with
    | nan => exact absurd h id
    | fin y =>
      show XF.ninf ≤ F64.round y
      cases e : F64.round y with
      | nan => exact absurd e (F64.rounds.nan y)
      | _ => exact trivial
    | _ => exact trivial
  | pinf => cases b with
    | pinf => exact trivial
    | _ => exact absurd h id
  | fin x => cases b with
    | nan => exact absurd h id
    | ninf => exact absurd h id
    | pinf =>
      show F64.round x ≤ XF.pinf
      cases e : F64.round x with
      | nan => exact absurd e (F64.rounds.nan x)
      | _ => exact trivial
    | fin y =>
      show F64.round x ≤ F64.round y
      have hxy : x ≤ y := h
      cases e : F64.round x with
      | nan => exact absurd e (F64.rounds.nan x)
      | ninf => cases e' : F64.round y with
        | nan => exact absurd e' (F64.rounds.nan y)
        | _ => exact trivial
      | pinf => cases e' : F64.round y with
        | nan => exact absurd e' (F64.rounds.nan y)
        | pinf => exact trivial
        | ninf =>
          have := F64.rounds.pinf x e 0 rep64_zero
          have := F64.rounds.ninf y e' 0 rep64_zero
          linarith
        | fin z =>
          have h1 := F64.rounds.fin y z e'
          have h2 : z < x := F64.rounds.pinf x e z h1.1
          exfalso
          -- `z` is the greatest double below `y`
          have h3 := F64.rounds.ge (x := x) h1.1 h2.le
          unfold F64.round at e e'
          simp only at e e'
          obtain ⟨s1, s2⟩ := nearest_spec x
          obtain ⟨t1, t2⟩ := nearest_spec y
          split at e
          · rename_i hbig
            split at e'
            · cases e'
            · split at e'
              · cases e'
              · cases e'
                have a1 := s2 _ t1
                have a2 := t2 _ s1
                rcases hxy.eq_or_lt with rfl | hlt
                · linarith
                · rw [abs_of_nonpos (by linarith : F64.nearest y - y ≤ 0)] at a2
                  rw [abs_of_nonpos (by linarith : F64.nearest y - x ≤ 0)] at a1
                  rcases abs_cases (F64.nearest x - x) with ⟨q1, _⟩ | ⟨q1, _⟩ <;>
                    rcases abs_cases (F64.nearest x - y) with ⟨q2, _⟩ | ⟨q2, _⟩ <;> rw [q1] at a1 <;> rw [q2] at a2 <;>
                    linarith
          · split at e <;> cases e
      | fin z => cases e' : F64.round y with
        | nan => exact absurd e' (F64.rounds.nan y)
        | pinf => exact trivial
        | fin w => exact F64.rounds.mono hxy e e'
        | ninf =>
          exfalso
          have h1 := F64.rounds.fin x z e
          have h2 : y < z := F64.rounds.ninf y e' z h1.1
          unfold F64.round at e e'
          simp only at e e'
          obtain ⟨s1, s2⟩ := nearest_spec x
          obtain ⟨t1, t2⟩ := nearest_spec y
          split at e'
          · cases e'
          · split at e'
            · rename_i hbig
              split at e
              · cases e
              · split at e
                · cases e
                · cases e
                  have a1 := s2 _ t1
                  have a2 := t2 _ s1
                  rcases hxy.eq_or_lt with rfl | hlt
                  · linarith
                  · rw [abs_of_nonneg (by linarith : 0 ≤ F64.nearest x - x)] at a1
                    rw [abs_of_nonneg (by linarith : 0 ≤ F64.nearest x - y)] at a2
                    rcases abs_cases (F64.nearest y - x) with ⟨q1, _⟩ | ⟨q1, _⟩ <;>
                      rcases abs_cases (F64.nearest y - y) with ⟨q2, _⟩ | ⟨q2, _⟩ <;> rw [q1] at a1 <;> rw [q2] at a2 <;>
                      linarith
            · cases e'

theorem half_mono {a b : XF ℚ} (h : a ≤ b) : (XF.fin (1 / 2) * a : XF ℚ) ≤ .fin (1 / 2) * b := by
  have hp : ∀ x : ℚ, (XF.fin (1 / 2) * XF.fin x : XF ℚ) = .fin (1 / 2 * x) := fun x => mulX_fin
  have e1 : (XF.fin (1 / 2) * XF.pinf : XF ℚ) = .pinf := by decide +kernel
  have e2 : (XF.fin (1 / 2) * XF.ninf : XF ℚ) = .ninf := by decide +kernel
  cases a <;> cases b <;> (try simp only [hp, e1, e2]) <;> first | exact absurd h id | exact trivial | skip
  rename_i x y
  have : x ≤ y := h
  exact (by linarith : 1 / 2 * x ≤ 1 / 2 * y)

theorem half_nan {a : XF ℚ} (h : a ≠ .nan) : XF.rounded F64.round (XF.fin (1 / 2) * a) ≠ .nan := by
  cases a with
  | nan => exact absurd rfl h
  | pinf => decide +kernel
  | ninf => decide +kernel
  | fin x =>
    rw [mulX_fin]
    exact F64.rounds.nan _

/-- Between the sign of `math.Tanh` and the probability. -/
theorem expitR_of {tanh : XF ℚ → XF ℚ} (h : Tanh64 tanh) {x : XF ℚ} (hx : x ≠ .nan) :
    ∃ t u p, tanh (XF.rounded F64.round (.fin (1 / 2) * x)) = .fin t ∧ -1 ≤ t ∧ t ≤ 1 ∧ F64.round (t + 1) = .fin u ∧ 0 ≤ u ∧
      u ≤ 2 ∧ F64.round (1 / 2 * u) = .fin p ∧ 0 ≤ p ∧ p ≤ 1 ∧ expitR F64.round tanh x = .fin p := by
  obtain ⟨t, et, t1, t2⟩ := h.bounded _ (half_nan hx)
  obtain ⟨u, eu, u1, u2⟩ := F64.rounds.between (x := t + 1) (a := 0) (b := 2) rep64_zero
    (by simpa using rep64_pow 1 (by norm_num)) (by linarith) (by linarith)
  obtain ⟨p, ep, p1, p2⟩ := F64.rounds.between (x := 1 / 2 * u) (a := 0) (b := 1) rep64_zero rep64_one (by linarith) (by linarith)
  refine ⟨t, u, p, et, t1, t2, eu, u1, u2, ep, p1, p2, ?_⟩
  unfold expitR
  rw [et, XF.fin_add]
  show XF.rounded F64.round (.fin (1 / 2) * F64.round (t + 1)) = _
  rw [eu, mulX_fin]
  exact ep

end CloudForest
