import Verif.Lemmas.RoundedGrow
import Verif.Lemmas.Greedy2
import Verif.Props.RoundedGini

/-! # Lemmas about trees that are greedily optimal up to rounding -/

set_option linter.unusedSectionVars false

namespace CloudForest
variable {τ : Type}

/-- Impurities of at most `B` computed in double precision that are near the impurities `imp`, for up to `N` cases. -/
structure TargetLaws.Near {T : Target ℚ} {cases : List Nat} (L : TargetLaws T cases) (imp : List Nat → ℚ) (δ B : ℚ)
    (N : Nat) : Prop where
  tiny : 2 * tiny64 ≤ ulp64 * B
  size : N * B ≤ 2 ^ 50
  large : 24 * (ulp64 * B) ≤ δ
  small : δ ≤ B / 8
  perm : ∀ l l', l.Perm l' → imp l = imp l'
  nonneg : ∀ l, l ≠ [] → (∀ c ∈ l, c ∈ cases) → 0 ≤ imp l
  le : ∀ l, l ≠ [] → (∀ c ∈ l, c ∈ cases) → l.length ≤ N → imp l ≤ B
  impurity : ∀ l, l ≠ [] → (∀ c ∈ l, c ∈ cases) → l.length ≤ N → ∃ e, L.I l = .fin e ∧ |e - imp l| ≤ δ / 2 ∧ 0 ≤ e
  judged : ∀ ks l g, (l ++ g).Perm ks → l ≠ [] → g ≠ [] → (∀ c ∈ ks, c ∈ cases) → ks.length ≤ N →
    ∃ y, (L.judged F64.round (L.I ks)).S l g = .fin y ∧
      |y - (imp ks - (l.length * imp l + g.length * imp g) / ks.length)| ≤ δ

/-- The Gini impurity in double precision. -/
theorem giniLawsR_near (f : CatFeature) {k : Nat} (hk : k ≤ 2 ^ 24) (cases : List Nat) (hr : f.InRange k cases) :
    (giniLawsR F64.round f k cases hr).Near (f.gini ℚ k) ((k + 3) / 2 ^ 50) 1 (2 ^ 26) where
  tiny := by
    rw [mul_one]
    exact tiny_le
  size := by norm_num
  large := by
    unfold ulp64
    rw [show (24 : ℚ) * (1 / 2 ^ 53 * 1) = 3 / 2 ^ 50 by norm_num]
    have : (0 : ℚ) ≤ k := by positivity
    gcongr
    linarith
  small := by
    rw [div_le_div_iff₀ (by positivity) (by norm_num)]
    have : (k : ℚ) ≤ 2 ^ 24 := by exact_mod_cast hk
    linarith [show ((2 : ℚ) ^ 24 + 3) * 8 ≤ 1 * 2 ^ 50 by norm_num]
  perm l l' h := gini_perm f k h
  nonneg l hl hc := gini_nonneg f k l (fun c h => hr c (hc c h)) hl
  le l hl hc _ := (gini_lt_one f k l (fun c h => hr c (hc c h)) hl).le
  impurity l hl hc hn := by
    have hrl : f.InRange k l := fun c h => hr c (hc c h)
    obtain ⟨e, h1, h2⟩ := giniR_err f hl hn (hk.trans (by norm_num)) hrl
    refine ⟨e, h1, ?_, ?_⟩
    · rw [k_ulp] at h2
      refine h2.trans ?_
      rw [show ((k : ℚ) + 3) / 2 ^ 50 / 2 = (k + 3) / 2 ^ 51 by field_simp]
      gcongr
      linarith
    · obtain ⟨e', a', h3, -, h4, -⟩ := c134_gini f hl hn hk hrl (a := ⟨List.replicate k 0, List.replicate k 0, List.replicate k 0, .fin 0, .fin 0, .fin 0, .fin 0, .fin 0, .fin 0⟩)
        ⟨by simp, by simp, by simp⟩
      obtain ⟨a2, h5, -⟩ := (giniLawsR F64.round f k l hrl).impurity ⟨List.replicate k 0, List.replicate k 0, List.replicate k 0, .fin 0, .fin 0, .fin 0, .fin 0, .fin 0, .fin 0⟩
        l ⟨by simp, by simp, by simp⟩ fun _ h => h
      rw [h3] at h5
      have : XF.fin e' = giniFromCountsR F64.round l.length (f.counts k l) := (Prod.mk.inj (Option.some.inj h5)).1
      rw [h1] at this
      rw [← XF.fin.inj this]
      exact h4
  judged ks l g hp hl hg hc hn := by
    obtain ⟨y, h1, h2⟩ := judged_err f hn hk (fun c h => hr c (hc c h)) hp hl hg
    refine ⟨y, h1, ?_⟩
    unfold CatFeature.giniDecrease at h2
    rw [gini_perm f k hp] at h2
    rw [← hp.length_eq, List.length_append]
    push_cast
    exact h2

set_option maxHeartbeats 1000000 in
/-- The rounded penalty for missing values. -/
theorem penaltyR_err {P X ki mi iC iK iM kg δ B : ℚ} {nk nm n : Nat} (hn : n = nk + nm) (hn0 : n ≠ 0) (hN : n * B ≤ 2 ^ 50)
    (hBt : 2 * tiny64 ≤ ulp64 * B) (hδ : 24 * (ulp64 * B) ≤ δ) (hδ1 : δ ≤ B / 8) (hP : |P - iC| ≤ δ / 2) (hX : |X - kg| ≤ δ) (hki : |ki - iK| ≤ δ / 2)
    (hmi : |mi - iM| ≤ δ / 2) (hC0 : 0 ≤ iC) (hC1 : iC ≤ B) (hM0 : 0 ≤ iM) (hM1 : iM ≤ B) (ha0 : -B ≤ kg - iK)
    (ha1 : kg - iK ≤ 0) :
    ∃ y, penaltyR F64.round (.fin P) (.fin X) (.fin ki) (.fin mi) nk nm n = .fin y ∧
      |y - (iC + (nk * (kg - iK) - nm * iM) / n)| ≤ 3 * δ := by
  have hu := ulp64_pos
  have hB0' : 0 ≤ B := hC0.trans hC1
  obtain ⟨v, hv⟩ : ∃ v, v = ulp64 * B := ⟨_, rfl⟩
  rw [← hv] at hBt hδ
  have hv0 : 0 < v := by have := tiny64_pos; linarith
  have hu1 : v ≤ B / 64 := by
    have : ulp64 ≤ 1 / 64 := by unfold ulp64; norm_num
    have := mul_le_mul_of_nonneg_right this hB0'
    linarith
  obtain ⟨a, ha⟩ : ∃ a, a = kg - iK := ⟨_, rfl⟩
  rw [← ha] at ha0 ha1 ⊢
  have hnq : (n : ℚ) = nk + nm := by rw [hn]; push_cast; rfl
  have hn1 : (1 : ℚ) ≤ n := by
    have : 1 ≤ n := by omega
    exact_mod_cast this
  have hnk : (0 : ℚ) ≤ nk := by positivity
  have hnm : (0 : ℚ) ≤ nm := by positivity
  have hkB : 0 ≤ (nk : ℚ) * B := by positivity
  have hmB : 0 ≤ (nm : ℚ) * B := by positivity
  have hsB : (nk : ℚ) * B + nm * B = n * B := by rw [hnq]; ring
  have big : (2 : ℚ) ^ 50 * 8 = 2 ^ 53 := by norm_num
  have hBn : B ≤ n * B := by
    have := mul_le_mul_of_nonneg_right hn1 hB0'
    linarith
  obtain ⟨p1, p2⟩ := abs_le.1 hP
  obtain ⟨x1, x2⟩ := abs_le.1 hX
  obtain ⟨k1, k2⟩ := abs_le.1 hki
  obtain ⟨m1, m2⟩ := abs_le.1 hmi
  have step : ∀ {x c : ℚ}, |x| ≤ c * B → c * B ≤ 2 ^ 53 → ∃ y, F64.round x = .fin y ∧ |y - x| ≤ v * c + v / 2 := by
    intro x c h1 h2
    obtain ⟨y, h3, h4⟩ := round_small (h1.trans h2)
    refine ⟨y, h3, h4.trans ?_⟩
    have := mul_le_mul_of_nonneg_left h1 hu.le
    rw [show ulp64 * (c * B) = v * c by rw [hv]; ring] at this
    linarith
  -- the difference
  obtain ⟨d1, e1, r1⟩ := step (x := X - ki) (c := 2) (abs_le.2 ⟨by linarith, by linarith⟩) (by linarith)
  obtain ⟨r1a, r1b⟩ := abs_le.1 r1
  have q1a : -(3 / 2 * δ + 5 / 2 * v) ≤ d1 - a := by linarith
  have q1b : d1 - a ≤ 3 / 2 * δ + 5 / 2 * v := by linarith
  -- times the known cases
  have b2 : |(nk : ℚ) * d1| ≤ 2 * nk * B := by
    rw [abs_mul, abs_of_nonneg hnk, mul_comm, mul_right_comm]
    exact mul_le_mul_of_nonneg_right (abs_le.2 ⟨by linarith, by linarith⟩) hnk
  obtain ⟨d2, e2, r2⟩ := step b2 (by linarith)
  obtain ⟨r2a, r2b⟩ := abs_le.1 r2
  have q2a : -(nk * (3 / 2 * δ + 9 / 2 * v) + v / 2) ≤ d2 - nk * a := by
    have := mul_le_mul_of_nonneg_left q1a hnk
    have e : (nk : ℚ) * (d1 - a) = nk * d1 - nk * a := by ring
    linarith
  have q2b : d2 - nk * a ≤ nk * (3 / 2 * δ + 9 / 2 * v) + v / 2 := by
    have := mul_le_mul_of_nonneg_left q1b hnk
    have e : (nk : ℚ) * (d1 - a) = nk * d1 - nk * a := by ring
    linarith
  -- the missing cases
  have b3 : |(nm : ℚ) * mi| ≤ 2 * nm * B := by
    rw [abs_mul, abs_of_nonneg hnm, mul_comm, mul_right_comm]
    exact mul_le_mul_of_nonneg_right (abs_le.2 ⟨by linarith, by linarith⟩) hnm
  obtain ⟨d3, e3, r3⟩ := step b3 (by linarith)
  obtain ⟨r3a, r3b⟩ := abs_le.1 r3
  have q3a : -(nm * (1 / 2 * δ + 2 * v) + v / 2) ≤ d3 - nm * iM := by
    have := mul_le_mul_of_nonneg_left m1 hnm
    have e : (nm : ℚ) * (mi - iM) = nm * mi - nm * iM := by ring
    linarith
  have q3b : d3 - nm * iM ≤ nm * (1 / 2 * δ + 2 * v) + v / 2 := by
    have := mul_le_mul_of_nonneg_left m2 hnm
    have e : (nm : ℚ) * (mi - iM) = nm * mi - nm * iM := by ring
    linarith
  -- their difference
  obtain ⟨E, hE⟩ : ∃ E, E = (nk : ℚ) * a - nm * iM := ⟨_, rfl⟩
  have hE0 : -(n * B) ≤ E := by
    have h1 := mul_le_mul_of_nonneg_left ha0 hnk
    have h2 := mul_le_mul_of_nonneg_left hM1 hnm
    linarith
  have hE1 : E ≤ 0 := by
    have h1 := mul_nonneg hnm hM0
    have h2 := mul_nonneg hnk (neg_nonneg.2 ha1)
    linarith
  have hw : (nk : ℚ) * (3 / 2 * δ + 9 / 2 * v) + v / 2 + (nm * (1 / 2 * δ + 2 * v) + v / 2) ≤
      n * (3 / 2 * δ + 11 / 2 * v) := by
    have h1 : (nm : ℚ) * (1 / 2 * δ + 2 * v) ≤ nm * (3 / 2 * δ + 9 / 2 * v) :=
      mul_le_mul_of_nonneg_left (by linarith) hnm
    have h2 : v ≤ n * v := by
      have := mul_le_mul_of_nonneg_right hn1 hv0.le
      linarith
    have h3 : (n : ℚ) * (3 / 2 * δ + 11 / 2 * v) = nk * (3 / 2 * δ + 9 / 2 * v) +
        nm * (3 / 2 * δ + 9 / 2 * v) + n * v := by rw [hnq]; ring
    linarith
  have q4a : -(n * (3 / 2 * δ + 11 / 2 * v)) ≤ d2 - d3 - E := by rw [hE]; linarith
  have q4b : d2 - d3 - E ≤ n * (3 / 2 * δ + 11 / 2 * v) := by rw [hE]; linarith
  have hnw : (n : ℚ) * (3 / 2 * δ + 11 / 2 * v) ≤ n * B := by
    have := mul_le_mul_of_nonneg_left (show 3 / 2 * δ + 11 / 2 * v ≤ B by linarith) (by linarith : (0 : ℚ) ≤ n)
    linarith
  obtain ⟨d4, e4, r4⟩ := step (x := d2 - d3) (c := 2 * n) (abs_le.2 ⟨by linarith, by linarith⟩)
    (by linarith)
  obtain ⟨r4a, r4b⟩ := abs_le.1 r4
  have h4 : (n : ℚ) * (3 / 2 * δ + 11 / 2 * v) + (v * (2 * n) + v / 2) ≤ n * (3 / 2 * δ + 8 * v) := by
    have := mul_le_mul_of_nonneg_right hn1 (show 0 ≤ v / 2 by linarith)
    have e : (n : ℚ) * (3 / 2 * δ + 8 * v) = n * (3 / 2 * δ + 11 / 2 * v) + v * (2 * n) + n * (v / 2) := by
      ring
    linarith
  -- the mean
  have hnz : (n : ℚ) ≠ 0 := by linarith
  have q5 : |d4 / n - E / n| ≤ 3 / 2 * δ + 8 * v := by
    rw [← sub_div, abs_div, abs_of_pos (show (0 : ℚ) < n by linarith), div_le_iff₀ (by linarith), mul_comm]
    exact abs_le.2 ⟨by linarith, by linarith⟩
  obtain ⟨q5a, q5b⟩ := abs_le.1 q5
  have hEn0 : -B ≤ E / n := by rw [le_div_iff₀ (by linarith)]; linarith
  have hEn1 : E / n ≤ 0 := by rw [div_le_iff₀ (by linarith)]; linarith
  obtain ⟨d5, e5, r5⟩ := step (x := d4 / n) (c := 2) (abs_le.2 ⟨by linarith, by linarith⟩) (by linarith)
  obtain ⟨r5a, r5b⟩ := abs_le.1 r5
  -- and the sum
  obtain ⟨d6, e6, r6⟩ := step (x := P + d5) (c := 3) (abs_le.2 ⟨by linarith, by linarith⟩) (by linarith)
  obtain ⟨r6a, r6b⟩ := abs_le.1 r6
  refine ⟨d6, ?_, ?_⟩
  · unfold penaltyR XF.ofNat
    rw [XF.fin_sub, show XF.rounded F64.round (.fin (X - ki)) = .fin d1 from e1, XF.fin_mul,
      show XF.rounded F64.round (.fin ((nk : ℚ) * d1)) = .fin d2 from e2, XF.fin_mul,
      show XF.rounded F64.round (.fin ((nm : ℚ) * mi)) = .fin d3 from e3, XF.fin_sub,
      show XF.rounded F64.round (.fin (d2 - d3)) = .fin d4 from e4, XF.fin_div _ hnz,
      show XF.rounded F64.round (.fin (d4 / n)) = .fin d5 from e5, XF.fin_add]
    exact e6
  · rw [← hE]
    exact abs_le.2 ⟨by linarith, by linarith⟩

/-! ## One feature -/

theorem cut_le_of_not {a : XF ℚ} {x : ℚ} (ha : a ≠ .nan) (h : ¬ a < .fin x) : .fin x ≤ a :=
  XF.le_of_not_lt' ha (by nofun) h

section
variable {T : Target ℚ} {cases : List Nat} {L : TargetLaws T cases} {imp : List Nat → ℚ} {δ B cut : ℚ} {N : Nat}

theorem TargetLaws.Near.pos (h : L.Near imp δ B N) : 0 < δ := by
  have := h.large
  have := h.tiny
  have := tiny64_pos
  linarith

theorem TargetLaws.Near.bound_nonneg (h : L.Near imp δ B N) : 0 ≤ B := by
  have := h.small
  have := h.pos
  linarith

theorem TargetLaws.Near.sized (h : L.Near imp δ B N) {n : Nat} (hn : n ≤ N) : (n : ℚ) * B ≤ 2 ^ 50 :=
  (mul_le_mul_of_nonneg_right (by exact_mod_cast hn) h.bound_nonneg).trans h.size

/-- What a complete search of a feature in double precision finds among known cases. -/
theorem searchR_near (hw : L.Near imp δ B N) (hcut : 0 ≤ cut) (F : Feature ℚ) (hex : F.Exhaustive) {leafSize : Nat}
    (hls : 1 ≤ leafSize) (w : Work ℚ) (hcs : ∀ c ∈ w.cases, c ∈ cases) (hne : w.cases ≠ [])
    (hlen : w.cases.length ≤ N) (hF : F.Searchable w.cases)
    (hap : F.Apart Rep64 F64.round (.fin cut) w.cases) (hok : L.Ok w.allocs) {r : Found ℚ} {w' : Work ℚ}
    (he : F.searchR F64.round (.fin cut) T (L.I w.cases) leafSize false w = some (r, w'))
    (room : (Nat → Bool) → Prop) (hroom : ∀ p, room p ↔ F.RoomIn leafSize p w.cases)
    (val : (Nat → Bool) → ℚ)
    (hval : ∀ p, val p = imp w.cases - ((w.cases.filter p).length * imp (w.cases.filter p) +
      (w.cases.filter fun c => !p c).length * imp (w.cases.filter fun c => !p c)) / w.cases.length) :
    (minImp < r.imp → ∃ code p x, r.code = some code ∧ F.Divides p ∧ room p ∧
      (∀ c ∈ w.cases, F.codedLeft code c = some (p c)) ∧ r.imp = .fin x ∧ |x - val p| ≤ δ) ∧
    (∀ p, F.Divides p → room p → .fin (val p - δ) ≤ r.imp) ∧
    (r.constant = true → ∀ p, F.Divides p → ¬ room p) := by
  obtain ⟨e0, hI, -, he0⟩ := hw.impurity w.cases hne hcs hlen
  have hneg : ¬ L.I w.cases < .fin 0 := by
    rw [hI]
    exact fun h => absurd h (not_lt.2 he0)
  unfold Feature.searchR at he
  rw [if_neg hneg] at he
  have hgain : ∀ s : XF ℚ, gain (.fin (-1)) s = s := fun s => if_pos (by rw [XF.fin_lt]; norm_num)
  have hdec : ∀ s : XF ℚ, decrease (.fin (-1)) s = s := hgain
  have hj : ∀ q : Nat → Bool, leafSize ≤ (w.cases.filter q).length → leafSize ≤ (w.cases.filter fun c => !q c).length →
      ∃ y, (L.judged F64.round (L.I w.cases)).S (w.cases.filter q) (w.cases.filter fun c => !q c) = .fin y ∧
        |y - val q| ≤ δ := by
    intro q h1 h2
    rw [hval]
    exact hw.judged w.cases _ _ (List.filter_append_perm _ _) (List.ne_nil_of_length_pos (by omega))
      (List.ne_nil_of_length_pos (by omega)) hcs hlen
  cases F with
  | num f =>
    have hfin : f.Finite w.cases := hF
    obtain ⟨r1, w1, e1, -, -, -, h1, h2, h3⟩ := bestNumSplitR_divides (L.judged F64.round (L.I w.cases)) F64.rounds hcut f
      (.fin (-1)) hls false hcs hfin hap hok
    have : some (r, w') = some (r1, w1) := he.symm.trans e1
    cases this
    have hnn : r.imp ≠ .nan := by
      rcases h1 with h1 | ⟨-, t, -, h4, h5, h6⟩
      · rw [h1]; unfold minImp; nofun
      · obtain ⟨y, hy, -⟩ := hj (fun c => decide (f.value c ≤ t)) h4 h5.le
        rw [h6, hgain, hy]
        nofun
    refine ⟨fun hlt => ?_, fun p hd hr => ?_, fun hc p hd hr => ?_⟩
    · rcases h1 with h1 | ⟨-, t, h3, h4, h5, h6⟩
      · exact absurd hlt (by rw [h1]; exact XF.lt_irrefl' _)
      · obtain ⟨y, hy, hye⟩ := hj (fun c => decide (f.value c ≤ t)) h4 h5.le
        rw [hgain, hy] at h6
        refine ⟨_, fun c => decide (f.value c ≤ t), y, h3, ⟨t, fun _ => rfl⟩, (hroom _).2 ⟨h4, h5⟩, ?_, h6, hye⟩
        intro c hc
        obtain ⟨x, hx⟩ := hfin c hc
        exact codedLeft_num hx t
    · obtain ⟨t, ht⟩ := hd
      obtain ⟨h4, h5⟩ := (hroom p).1 hr
      have hpt : p = fun c => decide (f.value c ≤ t) := funext ht
      subst hpt
      simp only at h5
      obtain ⟨y, hy, hye⟩ := hj (fun c => decide (f.value c ≤ t)) h4 h5.le
      have := h3 rfl t h4 h5
      rw [hgain, hy] at this
      have h6 := cut_le_of_not hnn this
      refine XF.le_trans' ?_ h6
      rw [XF.fin_le]
      have := (abs_le.1 hye).1
      linarith
    · obtain ⟨t, ht⟩ := hd
      obtain ⟨h4, h5⟩ := (hroom p).1 hr
      simp only at h5
      obtain ⟨a, ha⟩ := List.exists_mem_of_length_pos (l := w.cases.filter p) (by omega)
      obtain ⟨b, hb⟩ := List.exists_mem_of_length_pos (l := w.cases.filter fun c => !p c) (by omega)
      obtain ⟨ha1, ha2⟩ := List.mem_filter.1 ha
      obtain ⟨hb1, hb2⟩ := List.mem_filter.1 hb
      simp only [ht, decide_eq_true_eq, Bool.not_eq_true', decide_eq_false_iff_not, not_le] at ha2 hb2
      have := (h2 hc).2 b hb1 a ha1
      linarith
  | cat f =>
    have hr : f.InRange f.cm.nCats w.cases := hF
    have hv : f.HasVals w.cases := fun c hc => (hr c hc).imp fun k hk => hk.1
    obtain ⟨r1, w1, b, e1, -, hb, h1, h2⟩ := c11_exhaustive f ((L.judged F64.round (L.I w.cases)).mono hcs) hr hex
      (.fin (-1)) hls false w (fun c h => h) hok
    have hS : ((L.judged F64.round (L.I w.cases)).mono hcs).S = (L.judged F64.round (L.I w.cases)).S := rfl
    have : some (r, w') = some (r1, w1) := he.symm.trans e1
    cases this
    have hnn : r.imp ≠ .nan := by
      refine search_not_nan ((L.judged F64.round (L.I w.cases)).mono hcs) (.fin (-1)) f hr hex false w (fun c h => h) hok ?_ e1
      intro q h4 h5
      obtain ⟨y, hy, -⟩ := hj q h4 h5
      rw [hgain, hS, hy]
      nofun
    refine ⟨fun hlt => ?_, fun p hd hr' => ?_, fun hc p hd hr' => ?_⟩
    · obtain ⟨h4, h5, h6⟩ := h1 hlt
      rw [lefts_cat hv] at h4 h6
      rw [rights_cat hv] at h5 h6
      obtain ⟨y, hy, hye⟩ := hj (fun c => b.testBit (f.cat c)) h4 h5
      rw [hdec, hS, hy] at h6
      refine ⟨_, fun c => b.testBit (f.cat c), y, hb, ⟨fun k => b.testBit k, fun _ => rfl⟩, (hroom _).2 ⟨h4, h5⟩, ?_, h6, hye⟩
      intro c hc
      simp only [Feature.codedLeft, hv.eq hc, Option.bind_eq_bind, Option.bind_some]
    · obtain ⟨g, hg⟩ := hd
      obtain ⟨h4, h5⟩ := (hroom p).1 hr'
      have hpt : p = fun c => g (f.cat c) := funext hg
      subst hpt
      simp only at h5
      obtain ⟨y, hy, hye⟩ := hj (fun c => g (f.cat c)) h4 h5
      have := h2 g h4 h5
      rw [hdec, hS, hy] at this
      refine XF.le_trans' ?_ (cut_le_of_not hnn this)
      rw [XF.fin_le]
      have := (abs_le.1 hye).1
      linarith
    · obtain ⟨g, hg⟩ := hd
      obtain ⟨h4, h5⟩ := (hroom p).1 hr'
      simp only at h5
      have hflat := search_constant (L.judged F64.round (L.I w.cases)) (.fin (-1)) leafSize (.cat f) hex hls false w hcs hF
        hok e1 hc
      have hn : ∀ c ∈ w.cases, f.cat c < f.cm.nCats := by
        intro c hc
        obtain ⟨k, hk, hlt⟩ := hF c hc
        rw [hv.eq hc] at hk; cases hk; exact hlt
      refine hflat (Nat.ofBits (n := f.cm.nCats) fun i => g i) ⟨?_, ?_⟩
      · rw [lefts_cat hv]
        refine h4.trans (le_of_eq (congrArg _ (List.filter_congr fun c hc => ?_)))
        rw [Nat.testBit_ofBits_lt _ _ (hn c hc), hg]
      · rw [rights_cat hv]
        refine h5.trans (le_of_eq (congrArg _ (List.filter_congr fun c hc => ?_)))
        rw [Nat.testBit_ofBits_lt _ _ (hn c hc), hg]

/-- No division has room. -/
def Feature.NoRoom (F : Feature ℚ) (leafSize : Nat) (cs : List Nat) : Prop := ∀ p, F.Divides p → ¬ F.Room leafSize p cs

theorem Feature.NoRoom.sub {F : Feature ℚ} {leafSize : Nat} {cs cs' : List Nat} (h : F.NoRoom leafSize cs)
    (hs : cs'.Subperm cs) : F.NoRoom leafSize cs' := by
  intro p hd hr
  refine h p hd ?_
  have h1 : (F.toLeft p cs').Subperm (F.toLeft p cs) := (hs.filter _).filter _
  have h2 : (F.toRight p cs').Subperm (F.toRight p cs) := (hs.filter _).filter _
  refine ⟨hr.1.trans h1.length_le, ?_⟩
  have := hr.2
  cases F with
  | num f => exact lt_of_lt_of_le this h2.length_le
  | cat f => exact le_trans this h2.length_le

/-- What evaluating one feature in double precision says. -/
structure FeatNear (imp : List Nat → ℚ) (δ : ℚ) (F : Feature ℚ) (leafSize : Nat) (cs : List Nat) (r : Found ℚ) : Prop where
  found : minImp < r.imp → ∃ code p x, r.code = some code ∧ (∀ c ∈ F.knowns cs, F.codedLeft code c = some (p c)) ∧
    F.Divides p ∧ F.Room leafSize p cs ∧ r.imp = .fin x ∧ |x - F.gain3 imp p cs| ≤ 3 * δ
  best : ∀ p, F.Divides p → F.Room leafSize p cs → 1 / 10000000 + 8 * δ < F.knownGain imp p cs →
    .fin (F.gain3 imp p cs - 5 * δ) ≤ r.imp
  constant : r.constant = true → F.NoRoom leafSize cs

theorem gain3_perm' (hp : ∀ l l', l.Perm l' → imp l = imp l') (F : Feature ℚ) (p : Nat → Bool) {cs cs' : List Nat}
    (h : cs.Perm cs') : F.gain3 imp p cs = F.gain3 imp p cs' := by
  unfold Feature.gain3
  rw [hp _ _ h, hp _ _ (F.toLeft_perm p h), hp _ _ (F.toRight_perm p h), hp _ _ (F.missings_perm h), h.length_eq,
    (F.toLeft_perm p h).length_eq, (F.toRight_perm p h).length_eq, (F.missings_perm h).length_eq]

theorem knownGain_perm' (hp : ∀ l l', l.Perm l' → imp l = imp l') (F : Feature ℚ) (p : Nat → Bool) {cs cs' : List Nat}
    (h : cs.Perm cs') : F.knownGain imp p cs = F.knownGain imp p cs' := by
  unfold Feature.knownGain
  rw [hp _ _ (F.knowns_perm h), hp _ _ (F.toLeft_perm p h), hp _ _ (F.toRight_perm p h), (F.knowns_perm h).length_eq,
    (F.toLeft_perm p h).length_eq, (F.toRight_perm p h).length_eq]

theorem FeatNear.perm (hp : ∀ l l', l.Perm l' → imp l = imp l') {F : Feature ℚ} {leafSize : Nat} {cs cs' : List Nat}
    {r : Found ℚ} (h : FeatNear imp δ F leafSize cs r) (hc : cs.Perm cs') : FeatNear imp δ F leafSize cs' r where
  found hlt := by
    obtain ⟨code, p, x, h1, h2, h3, h4, h5, h6⟩ := h.found hlt
    refine ⟨code, p, x, h1, fun c hcm => h2 c ((F.knowns_perm hc).mem_iff.2 hcm), h3, room_perm F leafSize p hc h4, h5, ?_⟩
    rw [← gain3_perm' hp F p hc]
    exact h6
  best p hd hr hk := by
    rw [gain3_perm' hp F p hc.symm]
    exact h.best p hd (room_perm F leafSize p hc.symm hr) (by rw [← knownGain_perm' hp F p hc.symm]; exact hk)
  constant hr := (h.constant hr).sub hc.symm.subperm

theorem knowns_missings_length {F : Feature ℚ} {cs : List Nat} (hmiss : ∀ c ∈ cs, F.isMissing c ≠ none) :
    cs.length = (F.knowns cs).length + (F.missings cs).length := by
  have h := filter_lengths cs fun c => F.isMissing c == some false
  have e : (cs.filter fun c => !(F.isMissing c == some false)) = F.missings cs := by
    unfold Feature.missings
    refine List.filter_congr fun c hc => ?_
    rcases hm : F.isMissing c with _ | b
    · exact absurd hm (hmiss c hc)
    · cases b <;> rfl
  rw [e] at h
  exact h

/-- Evaluating one feature at a node. -/
theorem bestSplitR_near (hw : L.Near imp δ B N) (hcut : 0 ≤ cut) (F : Feature ℚ) (hex : F.Exhaustive) {leafSize : Nat}
    (hls : 1 ≤ leafSize) (w : Work ℚ) (hcs : ∀ c ∈ w.cases, c ∈ cases) (hne : w.cases ≠ [])
    (hlen : w.cases.length ≤ N) (hF : F.Searchable (F.knowns w.cases))
    (hap : F.Apart Rep64 F64.round (.fin cut) (F.knowns w.cases)) (hmiss : ∀ c ∈ w.cases, F.isMissing c ≠ none)
    (hsound : F.MissingSound) (hok : L.Ok w.allocs) :
    ∃ r w', F.bestSplitR F64.round (.fin cut) T (L.I w.cases) leafSize false w = some (r, w') ∧
      w'.cases.Perm w.cases ∧ L.Ok w'.allocs ∧ FeatNear imp δ F leafSize w.cases r := by
  obtain ⟨r, w', e, hp, hok', h⟩ := bestSplitR_ok L F64.rounds hcut F (L.I w.cases) hls false w hcs hF hap hmiss hsound hok
  refine ⟨r, w', e, hp, hok', ?_⟩
  have hδ := hw.pos
  have hkm : ∀ c ∈ F.knowns w.cases, c ∈ cases := fun c h => hcs c (F.mem_knowns h)
  have hsum := knowns_missings_length hmiss
  have hnoroom : F.knowns w.cases = [] → F.NoRoom leafSize w.cases := by
    intro hk p _ hr
    have h1 := hr.1
    unfold Feature.toLeft at h1
    rw [hk] at h1
    simp at h1
    omega
  rcases h with ⟨hk, -, rfl⟩ | ⟨r0, w0, w1, hw0, hok0, hs, hfit, hadm, hcode, hcon, himp⟩
  · refine ⟨fun h => ?_, fun p hd hr => absurd hr (hnoroom hk p hd), fun h => by cases h⟩
    exact absurd h (by
        show ¬ ((1 / 10000000 : ℚ) < 0)
        norm_num)
  · by_cases hk : F.knowns w.cases = []
    · refine ⟨fun h => ?_, fun p hd hr => absurd hr (hnoroom hk p hd), fun _ => hnoroom hk⟩
      exfalso
      have hlt : minImp < r0.imp := by
        by_contra hno
        rw [himp, if_neg (fun h => hno h.2)] at h
        exact hno h
      obtain ⟨code, -, ha⟩ := hadm hlt
      have := ha.1
      rw [hk] at this
      simp [Feature.lefts] at this
      omega
    have hklen : (F.knowns w.cases).length ≤ N := by omega
    have hpar : (if F.missingVals then L.I (F.knowns w.cases) else L.I w.cases) = L.I (F.knowns w.cases) := by
      split
      · rfl
      · rename_i hmv
        have : F.knowns w.cases = w.cases := by
          apply List.filter_eq_self.2
          intro c hc
          rcases h : F.isMissing c with _ | b
          · exact absurd h (hmiss c hc)
          · cases b
            · rfl
            · exact absurd (hsound c h) hmv
        rw [this]
    rw [hpar, ← hw0] at hs
    obtain ⟨h1, h2, h3⟩ := searchR_near hw hcut F hex hls w0 (by rw [hw0]; exact hkm) (by rw [hw0]; exact hk)
      (by rw [hw0]; exact hklen) (by rw [hw0]; exact hF) (by rw [hw0]; exact hap) hok0 hs
      (fun p => F.Room leafSize p w.cases)
      (fun p => by unfold Feature.Room Feature.RoomIn Feature.toLeft Feature.toRight; rw [hw0]; cases F <;> exact Iff.rfl)
      (fun p => F.knownGain imp p w.cases)
      (fun p => by unfold Feature.knownGain Feature.toLeft Feature.toRight; rw [hw0])
    have hnpos : (0 : ℚ) < w.cases.length := by exact_mod_cast List.length_pos_of_ne_nil hne
    have hkpos : (0 : ℚ) < (F.knowns w.cases).length := by exact_mod_cast List.length_pos_of_ne_nil hk
    -- what is reported
    have hrep : ∀ p x, F.Divides p → F.Room leafSize p w.cases → minImp < r0.imp → r0.imp = .fin x →
        |x - F.knownGain imp p w.cases| ≤ δ → ∃ y, r.imp = .fin y ∧ |y - F.gain3 imp p w.cases| ≤ 3 * δ := by
      intro p x hd hr hlt hx hxe
      by_cases hm : F.missings w.cases = []
      · rw [himp, if_neg (fun h => h.1 hm)]
        refine ⟨x, hx, ?_⟩
        have hg : F.gain3 imp p w.cases = F.knownGain imp p w.cases := by
          have hall : F.knowns w.cases = w.cases := by
            apply List.filter_eq_self.2
            intro c hc
            rcases h : F.isMissing c with _ | b
            · exact absurd h (hmiss c hc)
            · cases b
              · rfl
              · have : c ∈ F.missings w.cases := List.mem_filter.2 ⟨hc, by simp [h]⟩
                rw [hm] at this
                simp at this
          unfold Feature.gain3 Feature.knownGain
          rw [hm, hall]
          simp
        rw [hg]
        linarith
      · rw [himp, if_pos ⟨hm, hlt⟩]
        have hmm : ∀ c ∈ F.missings w.cases, c ∈ cases := fun c h => hcs c (F.mem_missings h)
        obtain ⟨P, eP, hP, -⟩ := hw.impurity _ hne hcs hlen
        obtain ⟨ki, ek, hki, -⟩ := hw.impurity _ hk hkm hklen
        obtain ⟨mi, em, hmi, -⟩ := hw.impurity _ hm hmm (by omega)
        have hlp : F.toLeft p w.cases ≠ [] := List.ne_nil_of_length_pos (by have := hr.1; omega)
        have hrp : F.toRight p w.cases ≠ [] := by
          have := hr.2
          cases F with
          | num f => exact List.ne_nil_of_length_pos (by simp only at this; omega)
          | cat f => exact List.ne_nil_of_length_pos (by simp only at this; omega)
        have hll := filter_lengths (F.knowns w.cases) p
        have hlen2 : ((F.knowns w.cases).length : ℚ) = (F.toLeft p w.cases).length + (F.toRight p w.cases).length := by
          unfold Feature.toLeft Feature.toRight
          rw [hll]
          push_cast
          rfl
        have ha : -B ≤ F.knownGain imp p w.cases - imp (F.knowns w.cases) ∧
            F.knownGain imp p w.cases - imp (F.knowns w.cases) ≤ 0 := by
          unfold Feature.knownGain
          have l0 := hw.nonneg _ hlp fun c h => hcs c (F.mem_toLeft h)
          have l1 := hw.le _ hlp (fun c h => hcs c (F.mem_toLeft h)) (by unfold Feature.toLeft; omega)
          have r0' := hw.nonneg _ hrp fun c h => hcs c (F.mem_toRight h)
          have r1' := hw.le _ hrp (fun c h => hcs c (F.mem_toRight h)) (by unfold Feature.toRight; omega)
          have a1 := mul_le_mul_of_nonneg_left l1 (show (0 : ℚ) ≤ (F.toLeft p w.cases).length by positivity)
          have a2 := mul_le_mul_of_nonneg_left r1' (show (0 : ℚ) ≤ (F.toRight p w.cases).length by positivity)
          have b1 : ((F.toLeft p w.cases).length * imp (F.toLeft p w.cases) +
              (F.toRight p w.cases).length * imp (F.toRight p w.cases)) / (F.knowns w.cases).length ≤ B := by
            rw [div_le_iff₀ hkpos, hlen2]
            linarith
          have b2 : 0 ≤ ((F.toLeft p w.cases).length * imp (F.toLeft p w.cases) +
              (F.toRight p w.cases).length * imp (F.toRight p w.cases)) / (F.knowns w.cases).length := by
            positivity
          constructor <;> linarith
        obtain ⟨y, hy, hye⟩ := penaltyR_err (nk := (F.knowns w.cases).length) (nm := (F.missings w.cases).length)
          (n := w.cases.length) hsum (by have := List.length_pos_of_ne_nil hne; omega)
          (hw.sized hlen) hw.tiny hw.large hw.small hP hxe hki hmi
          (hw.nonneg _ hne hcs) (hw.le _ hne hcs hlen) (hw.nonneg _ hm hmm) (hw.le _ hm hmm (by omega)) ha.1 ha.2
        rw [eP, hx, ek, em]
        refine ⟨y, hy, ?_⟩
        rw [gain3_eq F p hk]
        exact hye
    refine ⟨fun h => ?_, fun p hd hr hkg => ?_, fun h => ?_⟩
    · have hlt : minImp < r0.imp := by
        by_contra hno
        rw [himp, if_neg (fun h => hno h.2)] at h
        exact hno h
      obtain ⟨code, p, x, e1, e2, e3, e4, e5, e6⟩ := h1 hlt
      obtain ⟨y, hy, hye⟩ := hrep p x e2 e3 hlt e5 e6
      rw [hw0] at e4
      exact ⟨code, p, y, hcode.trans e1, e4, e2, e3, hy, hye⟩
    · have hle := h2 p hd hr
      have hlt : minImp < r0.imp := by
        refine XF.lt_of_lt_of_le' ?_ hle
        show (1 / 10000000 : ℚ) < _
        linarith
      obtain ⟨code, q, x, -, e2, e3, -, e5, e6⟩ := h1 hlt
      obtain ⟨y, hy, hye⟩ := hrep q x e2 e3 hlt e5 e6
      rw [e5, XF.fin_le] at hle
      rw [hy, XF.fin_le]
      have hkk : F.knownGain imp p w.cases ≤ F.knownGain imp q w.cases + 2 * δ := by
        have := (abs_le.1 e6).2
        linarith
      have hg : F.gain3 imp p w.cases ≤ F.gain3 imp q w.cases + 2 * δ := by
        rw [gain3_eq F p hk, gain3_eq F q hk]
        have hkn : ((F.knowns w.cases).length : ℚ) ≤ w.cases.length := by
          have : (F.knowns w.cases).length ≤ w.cases.length := by omega
          exact_mod_cast this
        have h5 : ((F.knowns w.cases).length : ℚ) * (F.knownGain imp p w.cases - imp (F.knowns w.cases)) ≤
            (F.knowns w.cases).length * (F.knownGain imp q w.cases - imp (F.knowns w.cases)) + w.cases.length * (2 * δ) := by
          have h6 := mul_le_mul_of_nonneg_left hkk hkpos.le
          have h7 := mul_le_mul_of_nonneg_right hkn (show 0 ≤ 2 * δ by linarith)
          linarith
        have h8 := div_le_div_of_nonneg_right (sub_le_sub_right h5 ((F.missings w.cases).length * imp (F.missings w.cases)))
          hnpos.le
        have h9 : ((F.knowns w.cases).length * (F.knownGain imp q w.cases - imp (F.knowns w.cases)) +
            w.cases.length * (2 * δ) - (F.missings w.cases).length * imp (F.missings w.cases)) / (w.cases.length : ℚ) =
            ((F.knowns w.cases).length * (F.knownGain imp q w.cases - imp (F.knowns w.cases)) -
              (F.missings w.cases).length * imp (F.missings w.cases)) / w.cases.length + 2 * δ := by
          field_simp
          ring
        rw [h9] at h8
        linarith
      have := (abs_le.1 hye).1
      linarith
    · exact h3 (by rwa [hcon] at h)

end
end CloudForest
