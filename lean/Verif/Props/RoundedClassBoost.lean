import Verif.Lemmas.RoundedClassBoost
import Verif.Props.ClassBoost
import Verif.Props.Splitter

/-!
# C158: gradient boosting of two classes in double precision
-/

set_option linter.unusedSectionVars false

namespace CloudForest

/-- **C158**: the probability of any log odds but NaN is a number between 0 and 1. -/
theorem c158_probability {tanh : XF ℚ → XF ℚ} (h : Tanh64 tanh) {x : XF ℚ} (hx : x ≠ .nan) :
    ∃ p, expitR F64.round tanh x = .fin p ∧ 0 ≤ p ∧ p ≤ 1 := by
  obtain ⟨t, u, p, -, -, -, -, -, -, -, h1, h2, e⟩ := expitR_of h hx
  exact ⟨p, e, h1, h2⟩

theorem le_not_nan {x y : XF ℚ} (h : x ≤ y) : x ≠ .nan ∧ y ≠ .nan := by
  cases x <;> cases y <;> first | exact absurd h id | exact ⟨by simp, by simp⟩

/-- **C158**: and it does not decrease when the log odds grow. -/
theorem c158_monotone {tanh : XF ℚ → XF ℚ} (h : Tanh64 tanh) {x y : XF ℚ} (hxy : x ≤ y) {p q : ℚ}
    (hp : expitR F64.round tanh x = .fin p) (hq : expitR F64.round tanh y = .fin q) : p ≤ q := by
  obtain ⟨nx, ny⟩ := le_not_nan hxy
  obtain ⟨t, u, p', a1, -, -, a2, -, -, a3, -, -, a4⟩ := expitR_of h nx
  obtain ⟨t', u', q', b1, -, -, b2, -, -, b3, -, -, b4⟩ := expitR_of h ny
  rw [hp] at a4
  rw [hq] at b4
  cases a4
  cases b4
  have ht := h.mono _ _ (rounded_mono (half_mono hxy))
  rw [a1, b1, XF.fin_le] at ht
  have hu := F64.rounds.mono (by linarith) a2 b2
  exact F64.rounds.mono (by linarith) a3 b3

theorem put_data {f f' : NumFeature ℚ} {i : Nat} {v : XF ℚ} (h : f.put i v = some f') :
    i < f.numData.length ∧ f'.numData = f.numData.set i v := by
  unfold NumFeature.put wr at h
  by_cases h1 : i < f.numData.length
  · rw [if_pos h1] at h
    by_cases h2 : i < f.missing.length
    · rw [if_pos h2] at h
      simp only [Option.bind_eq_bind, Option.bind_some, Option.some.injEq] at h
      subst h
      exact ⟨h1, rfl⟩
    · rw [if_neg h2] at h
      simp at h
  · rw [if_neg h1] at h
    simp at h

/-- One case of an update. -/
theorem kept_put {tanh : XF ℚ → XF ℚ} {g : ClassBoost ℚ} {n : Nat} {y : Nat → ℚ} (h : g.Kept tanh n y) {i : Nat} {p a : XF ℚ}
    {pred res : NumFeature ℚ} (h1 : g.pred.put i p = some pred) (ha : g.actual.numData[i]? = some a)
    (h2 : g.res.put i (XF.rounded F64.round (a - expitR F64.round tanh p)) = some res) :
    ({ g with pred := pred, res := res } : ClassBoost ℚ).Kept tanh n y := by
  obtain ⟨l1, d1⟩ := put_data h1
  obtain ⟨l2, d2⟩ := put_data h2
  intro j hj
  obtain ⟨k1, v, k2, k3⟩ := h j hj
  refine ⟨k1, ?_⟩
  simp only [d1, d2]
  by_cases hij : i = j
  · subst hij
    rw [k1] at ha
    cases ha
    exact ⟨p, by rw [List.getElem?_set_self l1], by rw [List.getElem?_set_self l2]⟩
  · exact ⟨v, by rw [List.getElem?_set_ne hij, k2], by rw [List.getElem?_set_ne hij, k3]⟩

theorem kept_update {tanh : XF ℚ → XF ℚ} {n : Nat} {y : Nat → ℚ} (s : XF ℚ) : ∀ (cs : List Nat) (g g' : ClassBoost ℚ),
    g.Kept tanh n y → g.updateR F64.round tanh cs s = some g' → g'.Kept tanh n y := by
  intro cs
  induction cs with
  | nil =>
    intro g g' h e
    cases e
    exact h
  | cons c cs ih =>
    intro g g' h e
    unfold ClassBoost.updateR at e
    rw [List.foldlM_cons] at e
    simp only [Option.bind_eq_bind, Option.bind_eq_some_iff] at e
    obtain ⟨g1, ⟨p, -, pred, h1, a, ha, res, h2, e1⟩, e2⟩ := e
    cases e1
    exact ih _ _ (kept_put h h1 ha h2) e2

theorem kept_boost {tanh : XF ℚ → XF ℚ} {n : Nat} {y : Nat → ℚ} {parse : String → Option (XF ℚ)} {g g' : ClassBoost ℚ}
    {leaves : List (List Nat)} {preds : List String} {w : XF ℚ} (h : g.Kept tanh n y)
    (e : g.boostR F64.round tanh parse leaves preds = some (g', w)) : g'.Kept tanh n y := by
  unfold ClassBoost.boostR at e
  simp only [Option.bind_eq_bind, Option.bind_eq_some_iff] at e
  obtain ⟨g1, e1, e2⟩ := e
  cases e2
  have key : ∀ (ls : List (List Nat × Nat)) (g g' : ClassBoost ℚ), g.Kept tanh n y →
      ls.foldlM (fun (g : ClassBoost ℚ) ci => (preds[ci.2]?).bind fun p =>
        g.updateR F64.round tanh ci.1 ((parse p).getD (.fin 0))) g = some g' → g'.Kept tanh n y := by
    intro ls
    induction ls with
    | nil =>
      intro g g' h e
      cases e
      exact h
    | cons c ls ih =>
      intro g g' h e
      rw [List.foldlM_cons] at e
      simp only [Option.bind_eq_bind, Option.bind_eq_some_iff] at e
      obtain ⟨g1, ⟨p, -, e1⟩, e2⟩ := e
      exact ih g1 g' (kept_update _ _ _ _ h e1) e2
  exact key _ _ _ h e1

theorem kept_rounds {tanh : XF ℚ → XF ℚ} {n : Nat} {y : Nat → ℚ} {parse : String → Option (XF ℚ)} {fm : FeatureMatrix ℚ} :
    ∀ (trees : List (Tree ℚ)) (g g' : ClassBoost ℚ) (ts : List (Tree ℚ)), g.Kept tanh n y →
      g.roundsR F64.round tanh parse fm trees = some (g', ts) → g'.Kept tanh n y := by
  intro trees
  induction trees with
  | nil =>
    intro g g' ts h e
    cases e
    exact h
  | cons t trees ih =>
    intro g g' ts h e
    unfold ClassBoost.roundsR at e
    simp only [Option.bind_eq_bind, Option.bind_eq_some_iff] at e
    obtain ⟨⟨ls, ps⟩, -, ⟨g1, w⟩, e1, ⟨g2, ts'⟩, e2, e3⟩ := e
    cases e3
    exact ih _ _ _ (kept_boost h e1) e2

/-- The target as it is made. -/
theorem kept_new {tanh log : XF ℚ → XF ℚ} {f f' : CatFeature} {lr : XF ℚ} {pos : String} {n : Nat}
    (hm : f.missing.length = n) (hd : f.catData.length = n) {lab : Nat → String} (hf : f.Labels n lab) {g : ClassBoost ℚ}
    (e : newClassBoostR F64.round tanh log f lr pos = some (g, f')) :
    g.Kept tanh n (hot pos lab) ∧ g.learnRate = lr ∧ ∀ i < n, g.pred.numData[i]? = some g.prior := by
  obtain ⟨x, hx, hmx⟩ := encodeFirst_values (K := ℚ) f hd
  unfold newClassBoostR at e
  simp only [hm] at e
  rw [markPositive_eq pos f hm lab hf f.encodeFirst x hx hmx] at e
  simp only [Option.bind_eq_bind, Option.bind_some, Option.bind_eq_some_iff] at e
  obtain ⟨sum, -, ⟨pred, res⟩, e1, e2⟩ := e
  cases e2
  have hget : ∀ i < n, (withValues (f.encodeFirst : NumFeature ℚ) n (hot pos lab)).numData[i]? = some (.fin (hot pos lab i)) :=
    fun i hi => finList_get _ hi
  generalize log (XF.rounded F64.round (sum / XF.rounded F64.round (XF.rounded F64.round (XF.ofNat n) - sum))) = prior at e1 ⊢
  have key : ∀ (k : Nat) (p0 r0 p1 r1 : NumFeature ℚ), k ≤ n →
      (List.range k).foldlM (fun (pr : NumFeature ℚ × NumFeature ℚ) i => (pr.1.put i prior).bind fun p =>
        ((withValues (f.encodeFirst : NumFeature ℚ) n (hot pos lab)).numData[i]?).bind fun a =>
          (pr.2.put i (XF.rounded F64.round (a - expitR F64.round tanh prior))).bind fun r => some (p, r)) (p0, r0) =
        some (p1, r1) →
      ∀ i < k, p1.numData[i]? = some prior ∧
        r1.numData[i]? = some (XF.rounded F64.round (.fin (hot pos lab i) - expitR F64.round tanh prior)) := by
    intro k
    induction k with
    | zero => intro _ _ _ _ _ _ i hi; omega
    | succ k ih =>
      intro p0 r0 p1 r1 hk e i hi
      rw [List.range_succ, List.foldlM_append] at e
      simp only [Option.bind_eq_bind, Option.bind_eq_some_iff, List.foldlM_cons, List.foldlM_nil] at e
      obtain ⟨⟨p2, r2⟩, e1, ⟨p3, r3⟩, ⟨p, h1, a, ha, r, h2, h3⟩, h4⟩ := e
      cases h4
      cases h3
      obtain ⟨l1, d1⟩ := put_data h1
      obtain ⟨l2, d2⟩ := put_data h2
      rw [hget k (by omega)] at ha
      cases ha
      by_cases hik : k = i
      · subst hik
        rw [d1, d2]
        exact ⟨List.getElem?_set_self l1, List.getElem?_set_self l2⟩
      · rw [d1, d2, List.getElem?_set_ne hik, List.getElem?_set_ne hik]
        exact ih p0 r0 p2 r2 (by omega) e1 i (by omega)
  have hk := key n _ _ _ _ le_rfl e1
  exact ⟨fun i hi => ⟨hget i hi, prior, hk i hi⟩, rfl, fun i hi => (hk i hi).1⟩

/-- **C158**: after any trees, every residual whose log odds are not NaN lies between 0 and 1 for the positive class and between
−1 and 0 for the other. -/
theorem c158_residuals {tanh log : XF ℚ → XF ℚ} (hT : Tanh64 tanh) {f f' : CatFeature} {lr : XF ℚ} {pos : String} {n : Nat}
    (hm : f.missing.length = n) (hd : f.catData.length = n) {lab : Nat → String} (hf : f.Labels n lab) {g0 g : ClassBoost ℚ}
    (h0 : newClassBoostR F64.round tanh log f lr pos = some (g0, f')) {parse : String → Option (XF ℚ)} {fm : FeatureMatrix ℚ}
    {trees ts : List (Tree ℚ)} (h : g0.roundsR F64.round tanh parse fm trees = some (g, ts)) {i : Nat} (hi : i < n) :
    ∃ v, g.pred.numData[i]? = some v ∧ (v ≠ .nan → ∃ r, g.res.numData[i]? = some (.fin r) ∧
      (lab i = pos → 0 ≤ r ∧ r ≤ 1) ∧ (lab i ≠ pos → -1 ≤ r ∧ r ≤ 0)) := by
  obtain ⟨-, v, h1, h2⟩ := kept_rounds trees g0 g ts (kept_new hm hd hf h0).1 h i hi
  refine ⟨v, h1, fun hv => ?_⟩
  obtain ⟨p, ep, p0, p1⟩ := c158_probability hT hv
  rw [ep, XF.fin_sub] at h2
  by_cases hl : lab i = pos
  · have hh : (hot pos lab i : ℚ) = 1 := if_pos hl
    rw [hh] at h2
    obtain ⟨r, er, r0, r1⟩ := F64.rounds.between (x := 1 - p) rep64_zero rep64_one (by linarith) (by linarith)
    exact ⟨r, by rw [h2]; exact congrArg some er, fun _ => ⟨r0, r1⟩, fun h => absurd hl h⟩
  · have hh : (hot pos lab i : ℚ) = 0 := if_neg hl
    rw [hh] at h2
    obtain ⟨r, er, r0, r1⟩ := F64.rounds.between (x := 0 - p) rep64_one.neg rep64_zero (by linarith) (by linarith)
    exact ⟨r, by rw [h2]; exact congrArg some er, fun h => absurd h hl, fun _ => ⟨r0, r1⟩⟩

/-- The residual of a case with a probability, and its term of the denominator. -/
theorem leaf_case {tanh : XF ℚ → XF ℚ} {g : ClassBoost ℚ} {n : Nat} {y : Nat → ℚ} (hg : g.Kept tanh n y) {c : Nat} (hc : c < n)
    (hy : y c = 1 ∨ y c = 0) {k : Nat} (hk : k ≤ 53) {p : ℚ} (hp : g.Prob tanh c p)
    (hr : p = y c ∨ (1 / 2 ^ k ≤ p ∧ p ≤ 1 - 1 / 2 ^ k)) :
    ∃ e d, Term64 k e d ∧ g.res.numData[c]? = some (.fin e) ∧ g.actual.numData[c]? = some (.fin (y c)) ∧
      (∀ S D : ℚ, (XF.rounded F64.round (.fin S + .fin e), XF.rounded F64.round (.fin D + XF.rounded F64.round
        (XF.rounded F64.round (.fin (y c) - .fin e) * XF.rounded F64.round (XF.rounded F64.round (.fin 1 - .fin (y c)) + .fin e)))) =
          (F64.round (S + e), F64.round (D + d))) ∧
      (y c = 1 → 0 ≤ e) ∧ (y c = 0 → e ≤ 0) ∧ (p = y c → d = 0 ∧ e = 0) ∧ (p ≠ y c → 0 < d) := by
  obtain ⟨k1, v, k2, k3⟩ := hg c hc
  obtain ⟨v', w1, w2⟩ := hp
  rw [k2] at w1
  cases w1
  rw [w2, XF.fin_sub] at k3
  have r0 : F64.round 0 = .fin 0 := F64.rounds.self rep64_zero
  have r1 : F64.round 1 = .fin 1 := F64.rounds.self rep64_one
  have hδ : (0 : ℚ) < 1 / 2 ^ k := by positivity
  have h2k : (0 : ℚ) < 2 ^ k := by positivity
  rcases hr with hr | ⟨b1, b2⟩
  · -- settled
    rw [hr, sub_self] at k3
    simp only [XF.rounded, r0] at k3
    refine ⟨0, 0, ⟨rep64_zero, by simp, by simp, by simp, 0, by simp⟩, k3, k1, ?_, fun _ => le_rfl, fun _ => le_rfl,
      fun _ => ⟨rfl, rfl⟩, fun h => absurd hr h⟩
    intro S D
    have : XF.rounded F64.round (XF.rounded F64.round (XF.fin (y c) - .fin 0) *
        XF.rounded F64.round (XF.rounded F64.round (.fin 1 - .fin (y c)) + .fin 0)) = .fin 0 := by
      rcases hy with hy | hy <;> rw [hy] <;> decide +kernel
    rw [this]
    simp only [XF.fin_add]
    rfl
  · have hrp : Rep64 p := by
      unfold expitR at w2
      obtain ⟨x, -, e⟩ := rounded_fin w2
      exact round_rep e
    have hp0 : 0 < p := lt_of_lt_of_le hδ b1
    have hp1 : p < 1 := by linarith
    rcases hy with hy | hy
    · -- the positive class
      rw [hy] at k3 k1 ⊢
      obtain ⟨e, ee, e1, e2⟩ := F64.rounds.between (x := 1 - p) (rep64_inv k (by omega)) (rep64_co k hk) (by linarith) (by linarith)
      change g.res.numData[c]? = some (F64.round (1 - p)) at k3
      rw [ee] at k3
      have hre := round_rep ee
      obtain ⟨a, d, ea, ed, d1, d2⟩ := leaf_term hre hk e1 e2
      have he0 : 0 < e := lt_of_lt_of_le hδ e1
      refine ⟨e, d, ⟨round_rep ed, by rwa [abs_of_pos he0], by rwa [abs_of_pos he0], by rw [abs_of_pos he0]; linarith,
        hre.coarse (by rwa [abs_of_pos he0])⟩, k3, k1, ?_, fun _ => he0.le, fun h => absurd h (by norm_num),
        fun h => absurd h hp1.ne, fun _ => lt_of_lt_of_le (div_pos he0 h2k) d1⟩
      intro S D
      have : XF.rounded F64.round (XF.rounded F64.round (XF.fin 1 - .fin e) *
          XF.rounded F64.round (XF.rounded F64.round (XF.fin (1 : ℚ) - .fin 1) + .fin e)) = .fin d := by
        simp only [XF.fin_sub, XF.rounded, sub_self, r0, XF.fin_add, zero_add, ea, F64.rounds.self hre, mulX_fin, ed]
      rw [this]
      simp only [XF.fin_add]
      rfl
    · -- the other class
      rw [hy] at k3 k1 ⊢
      rw [zero_sub] at k3
      change g.res.numData[c]? = some (F64.round (-p)) at k3
      rw [round_neg (F64.rounds.self hrp)] at k3
      obtain ⟨a, d, ea, ed, d1, d2⟩ := leaf_term hrp hk b1 b2
      have habs : |-p| = p := by rw [abs_neg, abs_of_pos hp0]
      refine ⟨-p, d, ⟨round_rep ed, by rwa [habs], by rwa [habs], by rw [habs]; exact hp1.le, hrp.neg.coarse (by rwa [habs])⟩,
        k3, k1, ?_, fun h => absurd h (by norm_num), fun _ => by linarith, fun h => absurd h hp0.ne',
        fun _ => lt_of_lt_of_le (div_pos hp0 h2k) d1⟩
      intro S D
      have : XF.rounded F64.round (XF.rounded F64.round (XF.fin 0 - .fin (-p)) *
          XF.rounded F64.round (XF.rounded F64.round (XF.fin (1 : ℚ) - .fin 0) + .fin (-p))) = .fin d := by
        simp only [XF.fin_sub, XF.rounded, sub_zero, zero_sub, neg_neg, r1, XF.fin_add, ← sub_eq_add_neg, F64.rounds.self hrp, ea,
          mulX_fin, mul_comm p a, ed]
      rw [this]
      simp only [XF.fin_add]
      rfl

/-- What a leaf predicts, if some of its cases is not settled. -/
theorem leaf_predicts {tanh : XF ℚ → XF ℚ} {g : ClassBoost ℚ} {n : Nat} {y : Nat → ℚ} (hg : g.Kept tanh n y)
    (hy : ∀ c < n, y c = 1 ∨ y c = 0) {k : Nat} (hk : k ≤ 53) {cs : List Nat} (hcs : ∀ c ∈ cs, c < n) (hlen : cs.length ≤ 2 ^ 53)
    {p : Nat → ℚ} (hp : ∀ c ∈ cs, g.Prob tanh c (p c)) (hr : ∀ c ∈ cs, p c = y c ∨ (1 / 2 ^ k ≤ p c ∧ p c ≤ 1 - 1 / 2 ^ k))
    (hopen : ∃ c ∈ cs, p c ≠ y c) :
    ∃ s, g.predictedR F64.round cs = some (.fin s) ∧ |s| ≤ 2 ^ k ∧ ((∀ c ∈ cs, y c = 1) → 1 ≤ s) ∧
      ((∀ c ∈ cs, y c = 0) → s ≤ -1) := by
  have hex : ∀ c, ∃ ed : ℚ × ℚ, c ∈ cs → Term64 k ed.1 ed.2 ∧ g.res.numData[c]? = some (.fin ed.1) ∧
      g.actual.numData[c]? = some (.fin (y c)) ∧
      (∀ S D : ℚ, (XF.rounded F64.round (.fin S + .fin ed.1), XF.rounded F64.round (.fin D + XF.rounded F64.round
        (XF.rounded F64.round (.fin (y c) - .fin ed.1) *
          XF.rounded F64.round (XF.rounded F64.round (.fin 1 - .fin (y c)) + .fin ed.1)))) =
          (F64.round (S + ed.1), F64.round (D + ed.2))) ∧
      (y c = 1 → 0 ≤ ed.1) ∧ (y c = 0 → ed.1 ≤ 0) ∧ (p c = y c → ed.2 = 0 ∧ ed.1 = 0) ∧ (p c ≠ y c → 0 < ed.2) := by
    intro c
    by_cases hc : c ∈ cs
    · obtain ⟨e, d, h⟩ := leaf_case hg (hcs c hc) (hy c (hcs c hc)) hk (hp c hc) (hr c hc)
      exact ⟨(e, d), fun _ => h⟩
    · exact ⟨(0, 0), fun h => absurd h hc⟩
  choose ed hed using hex
  obtain ⟨S, D, e1, h1, h2, h3, h4, h5⟩ := leaf_sums hk (fun c => (ed c).1) (fun c => (ed c).2)
    (fun (nd : XF ℚ × XF ℚ) c => (g.res.numData[c]?).bind fun e => (g.actual.numData[c]?).bind fun y =>
      some (XF.rounded F64.round (nd.1 + e), XF.rounded F64.round (nd.2 + XF.rounded F64.round (XF.rounded F64.round (y - e) *
        XF.rounded F64.round (XF.rounded F64.round (.fin 1 - y) + e))))) cs 0 (by omega)
    (fun c hc => (hed c hc).1)
    (fun c hc S D => by
      obtain ⟨-, q1, q2, q3, -⟩ := hed c hc
      simp only [q1, q2, Option.bind_some]
      exact congrArg some (q3 S D))
    0 0 rep64_zero (by simp) (by simp) (by simp) ⟨0, by simp⟩
  obtain ⟨c0, hc0, hne⟩ := hopen
  have hD : 0 < D := lt_of_lt_of_le ((hed c0 hc0).2.2.2.2.2.2.2 hne) (h3 c0 hc0)
  have h2k : (0 : ℚ) < 2 ^ k := by positivity
  have hq : |S / D| ≤ 2 ^ k := by
    rw [abs_div, abs_of_pos hD, div_le_iff₀ hD]
    rw [div_le_iff₀ h2k] at h1
    linarith
  obtain ⟨q1, q2⟩ := abs_le.1 hq
  have hrep := rep64_pow k hk
  obtain ⟨s, es, s1, s2⟩ := F64.rounds.between (x := S / D) hrep.neg hrep q1 q2
  refine ⟨s, ?_, abs_le.2 ⟨s1, s2⟩, ?_, ?_⟩
  · unfold ClassBoost.predictedR
    simp only [Option.bind_eq_bind]
    rw [e1]
    simp only [Option.bind_some, XF.fin_div _ hD.ne']
    exact congrArg some es
  · intro hpos
    have := h4 (by simp) fun c hc => (hed c hc).2.2.2.2.1 (hpos c hc)
    refine F64.rounds.mono ?_ (F64.rounds.self rep64_one) es
    rw [le_div_iff₀ hD]
    linarith
  · intro hneg
    have := h5 (by simp) fun c hc => (hed c hc).2.2.2.2.2.1 (hneg c hc)
    refine F64.rounds.mono ?_ es (F64.rounds.self rep64_one.neg)
    rw [div_le_iff₀ hD]
    linarith

/-- A leaf of cases that are all settled divides zero by zero. -/
theorem leaf_settled {tanh : XF ℚ → XF ℚ} {g : ClassBoost ℚ} {n : Nat} {y : Nat → ℚ} (hg : g.Kept tanh n y)
    (hy : ∀ c < n, y c = 1 ∨ y c = 0) {cs : List Nat} (hcs : ∀ c ∈ cs, c < n) (hp : ∀ c ∈ cs, g.Prob tanh c (y c)) :
    g.predictedR F64.round cs = some .nan := by
  have key : ∀ cs : List Nat, (∀ c ∈ cs, c < n) → (∀ c ∈ cs, g.Prob tanh c (y c)) →
      cs.foldlM (fun (nd : XF ℚ × XF ℚ) c => (g.res.numData[c]?).bind fun e => (g.actual.numData[c]?).bind fun y =>
        some (XF.rounded F64.round (nd.1 + e), XF.rounded F64.round (nd.2 + XF.rounded F64.round (XF.rounded F64.round (y - e) *
          XF.rounded F64.round (XF.rounded F64.round (.fin 1 - y) + e))))) (.fin 0, .fin 0) = some (.fin 0, .fin 0) := by
    intro cs
    induction cs with
    | nil => exact fun _ _ => rfl
    | cons c cs ih =>
      intro h1 h2
      obtain ⟨e, d, -, q1, q2, q3, -, -, q4, -⟩ := leaf_case hg (h1 c (by simp)) (hy c (h1 c (by simp))) (k := 0) (by omega)
        (h2 c (by simp)) (.inl rfl)
      obtain ⟨rfl, rfl⟩ := q4 rfl
      rw [List.foldlM_cons, q1, q2]
      simp only [Option.bind_some, q3]
      simp only [add_zero, F64.rounds.self rep64_zero, Option.bind_eq_bind, Option.bind_some]
      exact ih (fun x hx => h1 x (by simp [hx])) fun x hx => h2 x (by simp [hx])
  unfold ClassBoost.predictedR
  simp only [Option.bind_eq_bind]
  rw [key cs hcs hp]
  decide +kernel

theorem hot_cases (pos : String) (lab : Nat → String) (c : Nat) : (hot pos lab c : ℚ) = 1 ∨ (hot pos lab c : ℚ) = 0 := by
  unfold hot
  split <;> simp

/-- **C158** (partial): a leaf whose probabilities keep a distance of `2⁻ᵏ` from 0 and 1 predicts a number of at most `2ᵏ` in
size; at least one if all its cases are of the positive class, at most minus one if none is. Missing: leaves with probabilities
nearer to 0 or 1, for which see `c158_settled`. -/
theorem c158_leaf_partial {tanh log : XF ℚ → XF ℚ} {f f' : CatFeature} {lr : XF ℚ} {pos : String} {n : Nat}
    (hm : f.missing.length = n) (hd : f.catData.length = n) {lab : Nat → String} (hf : f.Labels n lab) {g0 g : ClassBoost ℚ}
    (h0 : newClassBoostR F64.round tanh log f lr pos = some (g0, f')) {parse : String → Option (XF ℚ)} {fm : FeatureMatrix ℚ}
    {trees ts : List (Tree ℚ)} (h : g0.roundsR F64.round tanh parse fm trees = some (g, ts)) {k : Nat} (hk : k ≤ 53)
    {cs : List Nat} (hne : cs ≠ []) (hcs : ∀ c ∈ cs, c < n) (hlen : cs.length ≤ 2 ^ 53)
    (hp : ∀ c ∈ cs, ∃ p, g.Prob tanh c p ∧ 1 / 2 ^ k ≤ p ∧ p ≤ 1 - 1 / 2 ^ k) :
    ∃ s, g.predictedR F64.round cs = some (.fin s) ∧ |s| ≤ 2 ^ k ∧ ((∀ c ∈ cs, lab c = pos) → 1 ≤ s) ∧
      ((∀ c ∈ cs, lab c ≠ pos) → s ≤ -1) := by
  have hg := kept_rounds trees g0 g ts (kept_new hm hd hf h0).1 h
  have hex : ∀ c, ∃ p, c ∈ cs → g.Prob tanh c p ∧ 1 / 2 ^ k ≤ p ∧ p ≤ 1 - 1 / 2 ^ k := by
    intro c
    by_cases hc : c ∈ cs
    · obtain ⟨p, h⟩ := hp c hc
      exact ⟨p, fun _ => h⟩
    · exact ⟨0, fun h => absurd h hc⟩
  choose p hp using hex
  have hδ : (0 : ℚ) < 1 / 2 ^ k := by positivity
  obtain ⟨s, e, h1, h2, h3⟩ := leaf_predicts hg (fun c _ => hot_cases pos lab c) hk hcs hlen (fun c hc => (hp c hc).1)
    (fun c hc => .inr (hp c hc).2) (by
      obtain ⟨c, hc⟩ := List.exists_mem_of_ne_nil _ hne
      refine ⟨c, hc, ?_⟩
      obtain ⟨-, a, b⟩ := hp c hc
      rcases hot_cases pos lab c with e | e <;> rw [e] <;> intro hh <;> linarith)
  exact ⟨s, e, h1, fun hh => h2 fun c hc => if_pos (hh c hc), fun hh => h3 fun c hc => if_neg (hh c hc)⟩

/-- **C158** is false of the code: when the probability of every case of a leaf is that of its class, the leaf predicts NaN. -/
theorem c158_settled {tanh log : XF ℚ → XF ℚ} {f f' : CatFeature} {lr : XF ℚ} {pos : String} {n : Nat}
    (hm : f.missing.length = n) (hd : f.catData.length = n) {lab : Nat → String} (hf : f.Labels n lab) {g0 g : ClassBoost ℚ}
    (h0 : newClassBoostR F64.round tanh log f lr pos = some (g0, f')) {parse : String → Option (XF ℚ)} {fm : FeatureMatrix ℚ}
    {trees ts : List (Tree ℚ)} (h : g0.roundsR F64.round tanh parse fm trees = some (g, ts))
    {cs : List Nat} (hcs : ∀ c ∈ cs, c < n) (hp : ∀ c ∈ cs, g.Prob tanh c (if lab c = pos then 1 else 0)) :
    g.predictedR F64.round cs = some .nan :=
  leaf_settled (kept_rounds trees g0 g ts (kept_new hm hd hf h0).1 h) (fun c _ => hot_cases pos lab c) hcs hp

theorem rep64_below_one {p : ℚ} (h : Rep64 p) (h1 : 1 / 2 ≤ p) (h2 : p < 1) : p ≤ 1 - 1 / 2 ^ 53 := by
  obtain ⟨n, e, hn, -, rfl, -⟩ := h
  by_cases he : -53 ≤ e
  · obtain ⟨j, rfl⟩ : ∃ j : Nat, e = j - (53 : Nat) := ⟨(e + 53).toNat, by push_cast; omega⟩
    rw [zpow_sub₀ (by norm_num), zpow_natCast, zpow_natCast] at h2 ⊢
    have h3 : (n : ℚ) * 2 ^ j < 2 ^ 53 := by
      rw [← mul_div_assoc, div_lt_one (by positivity)] at h2
      exact h2
    have h4 : n * 2 ^ j < 2 ^ 53 := by exact_mod_cast h3
    have h5 : ((n * 2 ^ j : ℤ) : ℚ) ≤ ((2 ^ 53 - 1 : ℤ) : ℚ) := by exact_mod_cast Int.le_sub_one_of_lt h4
    push_cast at h5
    rw [← mul_div_assoc, div_le_iff₀ (by positivity), sub_mul, one_mul, div_mul_cancel₀ _ (by positivity)]
    norm_num at h5 ⊢
    exact h5
  · have h3 : (2 : ℚ) ^ e ≤ 2 ^ (-54 : ℤ) := zpow_le_zpow_right₀ (by norm_num) (by omega)
    have h4 : (n : ℚ) ≤ 2 ^ 53 := by exact_mod_cast (le_abs_self n).trans hn
    have h5 : (n : ℚ) * 2 ^ e ≤ 2 ^ 53 * 2 ^ (-54 : ℤ) :=
      (mul_le_mul_of_nonneg_right h4 (zpow_pos (by norm_num) _).le).trans (mul_le_mul_of_nonneg_left h3 (by positivity))
    have h6 : (2 : ℚ) ^ 53 * 2 ^ (-54 : ℤ) = 1 / 2 := by norm_num [zpow_neg]
    have h7 : (1 : ℚ) / 2 ≤ 1 - 1 / 2 ^ 53 := by norm_num
    exact (h5.trans_eq h6).trans h7

theorem finAdd_le {a b : ℚ} {v u : XF ℚ} (h1 : XF.fin a ≤ v) (h2 : XF.fin b ≤ u) : XF.fin (a + b) ≤ v + u := by
  cases v <;> cases u <;> first | exact absurd h1 id | exact absurd h2 id | exact trivial | skip
  rw [XF.fin_add, XF.fin_le]
  rw [XF.fin_le] at h1 h2
  linarith

/-- An update leaves the learning rate, and the log odds of other cases; the others are added to. -/
theorem updateR_pred {tanh : XF ℚ → XF ℚ} {s : XF ℚ} : ∀ (cs : List Nat) (g g' : ClassBoost ℚ),
    g.updateR F64.round tanh cs s = some g' → g'.learnRate = g.learnRate ∧
      (∀ d, d ∉ cs → g'.pred.numData[d]? = g.pred.numData[d]?) ∧
      (cs.Nodup → ∀ d ∈ cs, ∀ v, g.pred.numData[d]? = some v →
        g'.pred.numData[d]? = some (XF.rounded F64.round (v + XF.rounded F64.round (g.learnRate * s)))) := by
  intro cs
  induction cs with
  | nil =>
    intro g g' e
    cases e
    exact ⟨rfl, fun _ _ => rfl, fun _ d hd => by simp at hd⟩
  | cons c cs ih =>
    intro g g' e
    unfold ClassBoost.updateR at e
    rw [List.foldlM_cons] at e
    simp only [Option.bind_eq_bind, Option.bind_eq_some_iff] at e
    obtain ⟨g1, ⟨p, hp, pred, h1, a, ha, res, h2, e1⟩, e2⟩ := e
    cases e1
    obtain ⟨l1, d1⟩ := put_data h1
    obtain ⟨q1, q2, q3⟩ := ih _ _ e2
    refine ⟨q1, ?_, ?_⟩
    · intro d hd
      rw [q2 d fun h => hd (by simp [h])]
      simp only [d1]
      rw [List.getElem?_set_ne fun h => hd (by simp [h])]
    · intro hnd d hd v hv
      obtain ⟨n1, n2⟩ := List.nodup_cons.1 hnd
      rcases List.mem_cons.1 hd with rfl | hd
      · rw [q2 d n1]
        simp only [d1]
        rw [List.getElem?_set_self l1]
        rw [hv] at hp
        cases hp
        rfl
      · refine q3 n2 d hd v ?_
        simp only [d1]
        rw [List.getElem?_set_ne (by rintro rfl; exact n1 hd)]
        exact hv

/-- What one tree does to the cases of one of its leaves. -/
theorem boostR_pred {tanh : XF ℚ → XF ℚ} {parse : String → Option (XF ℚ)} {g g' : ClassBoost ℚ} {leaves : List (List Nat)}
    {preds : List String} {w : XF ℚ} (e : g.boostR F64.round tanh parse leaves preds = some (g', w)) (hnd : leaves.flatten.Nodup)
    {q : Nat} {ds : List Nat} {str : String} (hq : leaves[q]? = some ds) (hs : preds[q]? = some str) :
    g'.learnRate = g.learnRate ∧ ∀ d ∈ ds, ∀ v, g.pred.numData[d]? = some v →
      g'.pred.numData[d]? = some (XF.rounded F64.round (v + XF.rounded F64.round (g.learnRate * (parse str).getD (.fin 0)))) := by
  unfold ClassBoost.boostR at e
  simp only [Option.bind_eq_bind, Option.bind_eq_some_iff] at e
  obtain ⟨g1, e1, e2⟩ := e
  cases e2
  have other : ∀ (ls : List (List Nat × Nat)) (g g' : ClassBoost ℚ),
      ls.foldlM (fun (g : ClassBoost ℚ) ci => (preds[ci.2]?).bind fun p =>
        g.updateR F64.round tanh ci.1 ((parse p).getD (.fin 0))) g = some g' →
      g'.learnRate = g.learnRate ∧ ∀ d, (∀ l ∈ ls, d ∉ l.1) → g'.pred.numData[d]? = g.pred.numData[d]? := by
    intro ls
    induction ls with
    | nil =>
      intro g g' e
      cases e
      exact ⟨rfl, fun _ _ => rfl⟩
    | cons c ls ih =>
      intro g g' e
      rw [List.foldlM_cons] at e
      simp only [Option.bind_eq_bind, Option.bind_eq_some_iff] at e
      obtain ⟨g1, ⟨p, -, e1⟩, e2⟩ := e
      obtain ⟨a1, a2⟩ := ih g1 g' e2
      obtain ⟨b1, b2, -⟩ := updateR_pred _ _ _ e1
      exact ⟨a1.trans b1, fun d hd => (a2 d fun l hl => hd l (by simp [hl])).trans (b2 d (hd c (by simp)))⟩
  obtain ⟨hql, hqe⟩ := List.getElem?_eq_some_iff.1 hq
  have hsplit : leaves = leaves.take q ++ ds :: leaves.drop (q + 1) := by
    conv_lhs => rw [← List.take_append_drop q leaves]
    rw [List.drop_eq_getElem_cons hql, hqe]
  have hlen : (leaves.take q).length = q := by simp; omega
  rw [hsplit, List.flatten_append, List.flatten_cons] at hnd
  obtain ⟨-, n2, n3⟩ := List.nodup_append.1 hnd
  obtain ⟨n4, -, n5⟩ := List.nodup_append.1 n2
  rw [hsplit, List.zipIdx_append, List.foldlM_append] at e1
  simp only [Option.bind_eq_bind, Option.bind_eq_some_iff, List.zipIdx_cons, List.foldlM_cons, hlen, Nat.zero_add] at e1
  obtain ⟨g1, e1, g2, ⟨p, hp, e2⟩, e3⟩ := e1
  rw [hs] at hp
  cases hp
  obtain ⟨a1, a2⟩ := other _ _ _ e1
  obtain ⟨b1, -, b3⟩ := updateR_pred _ _ _ e2
  obtain ⟨c1, c2⟩ := other _ _ _ e3
  refine ⟨c1.trans (b1.trans a1), fun d hd v hv => ?_⟩
  rw [c2 d ?_, b3 n4 d hd v ?_, a1]
  · rw [a2 d ?_, hv]
    intro l hl hdl
    have hl' : l.1 ∈ leaves.take q := by
      have := List.mem_map_of_mem (f := Prod.fst) hl
      rwa [List.zipIdx_map_fst] at this
    exact n3 d (List.mem_flatten.2 ⟨_, hl', hdl⟩) d (List.mem_append_left _ hd) rfl
  · intro l hl hdl
    have hl' : l.1 ∈ leaves.drop (q + 1) := by
      have := List.mem_map_of_mem (f := Prod.fst) hl
      rwa [List.zipIdx_map_fst] at this
    exact n5 d hd d (List.mem_flatten.2 ⟨_, hl', hdl⟩) rfl

/-- **C158** is false of the code: as long as tree after tree keeps the same cases of the positive class in a leaf by themselves,
whatever the bags, one of the first `40 · 2ʲ + 1` of those leaves predicts NaN, for a learning rate of `2⁻ʲ` or more. Asked of
`math.Tanh` is that it is 0 at 0 and 1 from 20 on. -/
theorem c158_diverges {tanh log : XF ℚ → XF ℚ} (hT : Tanh64 tanh) (hz : tanh (.fin 0) = .fin 0)
    (hone : ∀ x, XF.fin 20 ≤ x → tanh x = .fin 1) {f f' : CatFeature} {l : ℚ} {pos : String} {n : Nat}
    (hm : f.missing.length = n) (hd : f.catData.length = n) {lab : Nat → String} (hf : f.Labels n lab)
    {j : Nat} (hj : j ≤ 40) (hl : 1 / 2 ^ j ≤ l) {parse : String → Option (XF ℚ)}
    {g : Nat → ClassBoost ℚ} (h0 : newClassBoostR F64.round tanh log f (.fin l) pos = some (g 0, f'))
    (hprior : XF.fin 0 ≤ (g 0).prior)
    {ds : List Nat} (hds : ∀ d ∈ ds, d < n ∧ lab d = pos)
    {bag : Nat → List Nat} (hbag : ∀ m, bag m ≠ [] ∧ (∀ c ∈ bag m, c ∈ ds) ∧ (bag m).length ≤ 2 ^ 53)
    {s w : Nat → XF ℚ} (hs : ∀ m, (g m).predictedR F64.round (bag m) = some (s m))
    {leaves : Nat → List (List Nat)} {preds : Nat → List String} {q : Nat → Nat} {str : Nat → String}
    (hstep : ∀ m, (g m).boostR F64.round tanh parse (leaves m) (preds m) = some (g (m + 1), w m))
    (hleaf : ∀ m, (leaves m).flatten.Nodup ∧ (leaves m)[q m]? = some ds ∧ (preds m)[q m]? = some (str m) ∧
      parse (str m) = some (s m)) :
    ∃ m ≤ 40 * 2 ^ j, s m = .nan := by
  by_contra hcon
  push Not at hcon
  obtain ⟨k0, klr, kpred⟩ := kept_new hm hd hf h0
  have h2j : (0 : ℚ) < 2 ^ j := by positivity
  have hyc : ∀ c < n, (hot pos lab c : ℚ) = 1 ∨ (hot pos lab c : ℚ) = 0 := fun c _ => hot_cases pos lab c
  have hhalf : expitR F64.round tanh (.fin 0) = .fin (1 / 2) := by
    unfold expitR
    have e1 : XF.rounded F64.round (XF.fin (1 / 2) * XF.fin 0) = .fin 0 := by decide +kernel
    rw [e1, hz]
    decide +kernel
  -- the probabilities of the leaf
  have probs : ∀ (m : Nat) (a : ℚ), 0 ≤ a → (∀ d ∈ ds, ∃ v, (g m).pred.numData[d]? = some v ∧ XF.fin a ≤ v) →
      ∀ d ∈ ds, ∃ p, (g m).Prob tanh d p ∧ 1 / 2 ≤ p ∧ (p = 1 ∨ p ≤ 1 - 1 / 2 ^ 53) ∧ (40 ≤ a → p = 1) := by
    intro m a ha hv d hd
    obtain ⟨v, hv, hav⟩ := hv d hd
    have hv0 : XF.fin 0 ≤ v := by
      cases v with
      | fin x => rw [XF.fin_le] at hav ⊢; linarith
      | pinf => exact trivial
      | _ => exact absurd hav id
    obtain ⟨t, u, p, e1, -, t2, e2, -, -, e3, p0, p1, ep⟩ := expitR_of hT (le_not_nan hav).2
    have hp : 1 / 2 ≤ p := c158_monotone hT hv0 hhalf ep
    refine ⟨p, ⟨v, hv, ep⟩, hp, ?_, ?_⟩
    · rcases p1.eq_or_lt with h | h
      · exact .inl h
      · exact .inr (rep64_below_one (round_rep e3) hp h)
    · intro h40
      have hv40 : XF.fin 40 ≤ v := by
        cases v with
        | fin x => rw [XF.fin_le] at hav ⊢; linarith
        | pinf => exact trivial
        | _ => exact absurd hav id
      have e20 : XF.rounded F64.round (XF.fin (1 / 2) * XF.fin 40) = .fin 20 := by decide +kernel
      have := rounded_mono (half_mono hv40)
      rw [e20] at this
      rw [hone _ this] at e1
      cases e1
      have e4 : F64.round (1 + 1) = .fin 2 := by decide +kernel
      rw [e4] at e2
      cases e2
      have e5 : F64.round (1 / 2 * 2) = .fin 1 := by decide +kernel
      rw [e5] at e3
      cases e3
      rfl
  have inv : ∀ m ≤ 40 * 2 ^ j, (g m).Kept tanh n (hot pos lab) ∧ (g m).learnRate = .fin l ∧
      ∀ d ∈ ds, ∃ v, (g m).pred.numData[d]? = some v ∧ XF.fin ((m : ℚ) / 2 ^ j) ≤ v := by
    intro m
    induction m with
    | zero =>
      intro _
      refine ⟨k0, klr, fun d hd => ⟨_, kpred d (hds d hd).1, ?_⟩⟩
      simpa using hprior
    | succ m ih =>
      intro hm'
      obtain ⟨i1, i2, i3⟩ := ih (by omega)
      obtain ⟨l1, l2, l3, l4⟩ := hleaf m
      obtain ⟨b1, b2⟩ := boostR_pred (hstep m) l1 l2 l3
      have hpr := probs m _ (div_nonneg (Nat.cast_nonneg m) h2j.le) i3
      have hex : ∀ c, ∃ p, c ∈ bag m → (g m).Prob tanh c p ∧ 1 / 2 ≤ p ∧ (p = 1 ∨ p ≤ 1 - 1 / 2 ^ 53) := by
        intro c
        by_cases hc : c ∈ bag m
        · obtain ⟨p, h1, h2, h3, -⟩ := hpr c ((hbag m).2.1 c hc)
          exact ⟨p, fun _ => ⟨h1, h2, h3⟩⟩
        · exact ⟨0, fun h => absurd h hc⟩
      choose p hp using hex
      have hhot : ∀ c ∈ bag m, (hot pos lab c : ℚ) = 1 := fun c hc => if_pos (hds c ((hbag m).2.1 c hc)).2
      have hcn : ∀ c ∈ bag m, c < n := fun c hc => (hds c ((hbag m).2.1 c hc)).1
      by_cases hset : ∀ c ∈ bag m, p c = 1
      · exfalso
        refine hcon m (by omega) ?_
        have := leaf_settled i1 hyc hcn fun c hc => by
          have h1 := (hp c hc).1
          rw [hset c hc] at h1
          rw [hhot c hc]
          exact h1
        rw [hs m] at this
        exact Option.some.inj this
      · push Not at hset
        obtain ⟨c0, hc0, hne⟩ := hset
        obtain ⟨x, ex, -, hx1, -⟩ := leaf_predicts i1 hyc (k := 53) le_rfl hcn (hbag m).2.2 (fun c hc => (hp c hc).1)
          (fun c hc => by
            obtain ⟨-, h2, h3⟩ := hp c hc
            rw [hhot c hc]
            exact h3.imp id fun h => ⟨by have : (1 : ℚ) / 2 ^ 53 ≤ 1 / 2 := by norm_num
                                         linarith, h⟩)
          ⟨c0, hc0, by rw [hhot c0 hc0]; exact hne⟩
        rw [hs m] at ex
        have hsx : s m = .fin x := Option.some.inj ex
        refine ⟨kept_boost i1 (hstep m), b1.trans i2, fun d hd => ?_⟩
        obtain ⟨v, hv, hav⟩ := i3 d hd
        refine ⟨_, b2 d hd v hv, ?_⟩
        rw [l4, Option.getD_some, hsx, i2, mulX_fin]
        have hx := hx1 hhot
        have g1 : XF.fin (1 / 2 ^ j) ≤ XF.rounded F64.round (.fin (l * x)) := by
          refine F64.rounds.ge (rep64_inv j (by omega)) ?_
          have : 0 < l := lt_of_lt_of_le (by positivity) hl
          nlinarith
        have g2 := rounded_mono (finAdd_le hav g1)
        have hrep : Rep64 ((m : ℚ) / 2 ^ j + 1 / 2 ^ j) := by
          have h53 : ((m : ℤ) + 1) ≤ 2 ^ 53 := by
            have : 40 * 2 ^ j ≤ 40 * 2 ^ 40 := Nat.mul_le_mul_left _ (Nat.pow_le_pow_right (by norm_num) hj)
            have h3 : m + 1 ≤ 40 * 2 ^ 40 := hm'.trans this
            omega
          have := rep64_frac (m := (m : ℤ) + 1) (k := j) (by rw [abs_of_nonneg (by positivity)]; exact h53) (by omega)
          push_cast at this
          rwa [add_div] at this
        have g3 : XF.rounded F64.round (.fin ((m : ℚ) / 2 ^ j + 1 / 2 ^ j)) = .fin ((m : ℚ) / 2 ^ j + 1 / 2 ^ j) :=
          F64.rounds.self hrep
        rw [g3] at g2
        push_cast
        rw [add_div]
        exact g2
  obtain ⟨i1, -, i3⟩ := inv (40 * 2 ^ j) le_rfl
  have e40 : ((40 * 2 ^ j : Nat) : ℚ) / 2 ^ j = 40 := by
    push_cast
    rw [mul_div_assoc, div_self h2j.ne', mul_one]
  rw [e40] at i3
  have hpr := probs _ 40 (by norm_num) i3
  refine hcon _ le_rfl ?_
  have := leaf_settled i1 hyc (cs := bag (40 * 2 ^ j)) (fun c hc => (hds c ((hbag _).2.1 c hc)).1) fun c hc => by
    obtain ⟨p, h1, -, -, h2⟩ := hpr c ((hbag _).2.1 c hc)
    rw [h2 le_rfl] at h1
    have : (hot pos lab c : ℚ) = 1 := if_pos (hds c ((hbag _).2.1 c hc)).2
    rw [this]
    exact h1
  rw [hs] at this
  exact Option.some.inj this

/-- A function with the properties asked of `math.Tanh`. -/
def exClamp : XF ℚ → XF ℚ
  | .nan => .nan
  | .pinf => .fin 1
  | .ninf => .fin (-1)
  | .fin x => .fin (max (-1) (min 1 x))

theorem exClamp_tanh : Tanh64 exClamp where
  bounded := by
    intro x hx
    cases x with
    | nan => exact absurd rfl hx
    | pinf => exact ⟨1, rfl, by norm_num, le_rfl⟩
    | ninf => exact ⟨-1, rfl, le_rfl, by norm_num⟩
    | fin x => exact ⟨_, rfl, le_max_left _ _, max_le (by norm_num) (min_le_left _ _)⟩
  mono := by
    intro x y h
    cases x <;> cases y <;> first | exact absurd h id | skip
    · exact (by norm_num : (1 : ℚ) ≤ 1)
    · exact (by norm_num : (-1 : ℚ) ≤ 1)
    · exact (by norm_num : (-1 : ℚ) ≤ -1)
    · exact (le_max_left _ _ : (-1 : ℚ) ≤ _)
    · rename_i a
      exact (max_le (by norm_num) (min_le_left _ _) : max (-1) (min 1 a) ≤ (1 : ℚ))
    · rename_i a b
      have hab : a ≤ b := h
      exact (max_le_max le_rfl (min_le_min le_rfl hab) : max (-1) (min 1 a) ≤ max (-1) (min 1 b))

/-- The target of `exYes` with these log odds and residuals, for a learning rate of 1. -/
def exOddsOf (v r : XF ℚ) : ClassBoost ℚ where
  res := ⟨[r, .fin (-1 / 2), r, .fin (-1 / 2), r], List.replicate 5 false, "C:y", false⟩
  actual := ⟨[.fin 1, .fin 0, .fin 1, .fin 0, .fin 1], List.replicate 5 false, "C:y", false⟩
  pred := ⟨[v, .fin 0, v, .fin 0, v], List.replicate 5 false, "C:y", false⟩
  learnRate := .fin 1
  prior := .fin 0
  pos := "yes"

/-- Three numbers. -/
def exThree (s : String) : Option (XF ℚ) := if s = "2" then some (.fin 2) else if s = "0" then some (.fin 0) else some .nan

theorem exOdds_new : newClassBoostR F64.round exClamp (fun _ => .fin 0) exYes (.fin 1) "yes" =
    some (exOddsOf (.fin 0) (.fin (1 / 2)), exYes) := by kernel_refl

example : expitR F64.round exClamp (.fin (1 / 2)) = .fin (5 / 8) ∧ expitR F64.round exClamp .pinf = .fin 1 ∧
    expitR F64.round exClamp .nan = .nan := by decide +kernel

/-- Before any tree the residuals are one half and minus one half. -/
example : ∃ r : ℚ, (exOddsOf (.fin 0) (.fin (1 / 2))).res.numData[1]? = some (.fin r) ∧ -1 ≤ r ∧ r ≤ 0 := by
  obtain ⟨v, h1, h2⟩ := c158_residuals exClamp_tanh rfl rfl exYes_labels.1 exOdds_new (parse := exThree)
    (fm := ⟨[], fun _ => none, []⟩) (trees := []) rfl (i := 1) (by decide)
  cases h1
  obtain ⟨r, e, -, h3⟩ := h2 (by simp)
  exact ⟨r, e, h3 (by decide)⟩

/-- Before any tree the probabilities are one half. -/
example : ∃ s, (exOddsOf (.fin 0) (.fin (1 / 2))).predictedR F64.round [0, 2, 2] = some (.fin s) ∧ |s| ≤ 2 ^ 1 ∧ 1 ≤ s := by
  obtain ⟨s, e, h1, h2, -⟩ := c158_leaf_partial (cs := [0, 2, 2]) (k := 1) (tanh := exClamp) (parse := exThree)
    (fm := ⟨[], fun _ => none, []⟩) (trees := []) rfl rfl exYes_labels.1 exOdds_new rfl (by norm_num) (by simp)
    (by decide) (by decide) (by
      intro c hc
      refine ⟨1 / 2, ⟨.fin 0, ?_, by decide +kernel⟩, by norm_num, by norm_num⟩
      simp only [List.mem_cons, List.not_mem_nil, or_false] at hc
      rcases hc with rfl | rfl | rfl <;> rfl)
  exact ⟨s, e, h1, h2 (by decide)⟩

/-- One tree tells the classes apart, and the leaf of the next predicts NaN. -/
example : ∃ m ≤ 40, (fun m : Nat => if m = 0 then XF.fin 2 else (.nan : XF ℚ)) m = .nan :=
  c158_diverges (tanh := exClamp) (log := fun _ => .fin 0) (f := exYes) (f' := exYes) (n := 5) (lab := exYesLab) (pos := "yes")
    (j := 0) (l := 1) (parse := exThree)
    (g := fun m => if m = 0 then exOddsOf (.fin 0) (.fin (1 / 2)) else if m = 1 then exOddsOf (.fin 2) (.fin 0)
      else exOddsOf .nan .nan)
    (ds := [0, 2, 4]) (bag := fun _ => [0, 4, 4]) (w := fun _ => .fin 1)
    (s := fun m => if m = 0 then .fin 2 else .nan) (leaves := fun _ => [[1, 3], [0, 2, 4]])
    (preds := fun m => ["0", if m = 0 then "2" else "NaN"]) (q := fun _ => 1) (str := fun m => if m = 0 then "2" else "NaN")
    exClamp_tanh (by decide +kernel)
    (by
      intro x hx
      cases x with
      | nan => exact absurd hx id
      | ninf => exact absurd hx id
      | pinf => rfl
      | fin x =>
        rw [XF.fin_le] at hx
        show XF.fin (max (-1) (min 1 x)) = .fin 1
        rw [min_eq_left (by linarith), max_eq_right (by norm_num)])
    rfl rfl exYes_labels.1 (by norm_num) (by norm_num) exOdds_new (by decide +kernel) (by decide)
    (fun _ => ⟨by simp, by decide, by decide⟩)
    (by
      intro m
      rcases m with - | - | m
      · decide +kernel
      · decide +kernel
      · simp only [if_neg (show ¬ (m + 1 + 1 = 0) by omega), if_neg (show ¬ (m + 1 + 1 = 1) by omega)]
        decide +kernel)
    (by
      intro m
      rcases m with - | - | m
      · kernel_refl
      · kernel_refl
      · simp only [if_neg (show ¬ (m + 1 + 1 = 0) by omega), if_neg (show ¬ (m + 1 + 1 = 1) by omega),
          if_neg (show ¬ (m + 1 + 1 + 1 = 0) by omega), if_neg (show ¬ (m + 1 + 1 + 1 = 1) by omega)]
        kernel_refl)
    (by
      intro m
      refine ⟨by decide, rfl, rfl, ?_⟩
      by_cases h : m = 0 <;> simp [h, exThree])

end CloudForest
