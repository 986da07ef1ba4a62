import Verif.Lemmas.Rounding3
import Verif.Lemmas.Impurity2
import Verif.Spec.RoundedTarget

/-! # Lemmas about rounded sums of whole numbers, and the rounded mean -/

set_option linter.unusedSectionVars false

namespace CloudForest

/-! ## Small whole numbers -/

theorem list_sq_sum_nonneg (l : List ℤ) : 0 ≤ (l.map fun x => x ^ 2).sum := by
  induction l with
  | nil => simp
  | cons a l ih => rw [List.map_cons, List.sum_cons]; positivity

theorem list_int_abs (l : List ℤ) : |l.sum| ≤ (l.map fun x => x ^ 2).sum := by
  induction l with
  | nil => simp
  | cons a l ih =>
    rw [List.sum_cons, List.map_cons, List.sum_cons]
    refine (abs_add_le _ _).trans ?_
    have : |a| ≤ a ^ 2 := by
      rw [← sq_abs]
      rcases eq_or_lt_of_le (abs_nonneg a) with h | h
      · rw [← h]; norm_num
      · nlinarith
    linarith

/-- The numerators and the bound. -/
structure SmallWith (f : NumFeature ℚ) (k : Nat) (n : Nat → ℤ) (cs : List Nat) : Prop where
  data : ∀ c ∈ cs, f.numData[c]? = some (.fin (n c / 2 ^ k))
  small : (cs.map fun c => n c ^ 2).sum ≤ 2 ^ 53

theorem SmallWith.sub {f : NumFeature ℚ} {k : Nat} {n : Nat → ℤ} {l g cs : List Nat} (h : SmallWith f k n cs)
    (hp : (l ++ g).Perm cs) : SmallWith f k n l := by
  refine ⟨fun c hc => h.data c (hp.mem_iff.1 (List.mem_append_left _ hc)), ?_⟩
  have h1 := (hp.map fun c => n c ^ 2).sum_eq
  rw [List.map_append, List.sum_append] at h1
  have h2 := list_sq_sum_nonneg (g.map n)
  rw [List.map_map] at h2
  have h3 : (g.map ((fun x => x ^ 2) ∘ n)).sum = (g.map fun c => n c ^ 2).sum := rfl
  have := h.small
  omega

theorem SmallWith.value {f : NumFeature ℚ} {k : Nat} {n : Nat → ℤ} {cs : List Nat} (h : SmallWith f k n cs) {c : Nat}
    (hc : c ∈ cs) : f.value c = n c / 2 ^ k := by
  unfold NumFeature.value
  rw [h.data c hc]

theorem SmallWith.sum {f : NumFeature ℚ} {k : Nat} {n : Nat → ℤ} {cs : List Nat} (h : SmallWith f k n cs) :
    (cs.map f.value).sum = ((cs.map n).sum : ℤ) / 2 ^ k := by
  have : cs.map f.value = cs.map fun c => (n c : ℚ) / 2 ^ k := List.map_congr_left fun c hc => h.value hc
  rw [this]
  clear this h
  induction cs with
  | nil => simp
  | cons c cs ih => simp only [List.map_cons, List.sum_cons, ih]; push_cast; ring

theorem SmallWith.sumSqr {f : NumFeature ℚ} {k : Nat} {n : Nat → ℤ} {cs : List Nat} (h : SmallWith f k n cs) :
    (cs.map fun c => f.value c ^ 2).sum = ((cs.map fun c => n c ^ 2).sum : ℤ) / 2 ^ (2 * k) := by
  have : (cs.map fun c => f.value c ^ 2) = cs.map fun c => ((n c ^ 2 : ℤ) : ℚ) / 2 ^ (2 * k) :=
    List.map_congr_left fun c hc => by rw [h.value hc, div_pow, ← pow_mul, mul_comm k 2]; push_cast; rfl
  rw [this]
  clear this h
  induction cs with
  | nil => simp
  | cons c cs ih => simp only [List.map_cons, List.sum_cons, ih]; push_cast; ring

theorem SmallWith.rep {f : NumFeature ℚ} {k : Nat} {n : Nat → ℤ} {cs : List Nat} (h : SmallWith f k n cs) (hk : k ≤ 500) :
    Rep64 (cs.map f.value).sum ∧ Rep64 (cs.map fun c => f.value c ^ 2).sum := by
  rw [h.sum, h.sumSqr]
  have h1 := list_int_abs (cs.map n)
  rw [List.map_map] at h1
  have h2 := list_sq_sum_nonneg (cs.map n)
  rw [List.map_map] at h2
  refine ⟨rep64_frac (h1.trans h.small) (by omega), rep64_frac ?_ (by omega)⟩
  exact (abs_of_nonneg h2).le.trans h.small

/-- The sums of small whole numbers are exact. -/
theorem sumsR_exact {f : NumFeature ℚ} {k : Nat} {n : Nat → ℤ} (hk : k ≤ 500) : ∀ cs, SmallWith f k n cs →
    f.sumsR F64.round cs = some (.fin (cs.map f.value).sum, .fin (cs.map fun c => f.value c ^ 2).sum) := by
  intro cs
  induction cs using List.reverseRecOn with
  | nil => intro _; rfl
  | append_singleton cs c ih =>
    intro h
    rw [sumsR_snoc, ih (h.sub (l := cs) (g := [c]) (List.Perm.refl _))]
    have hc : SmallWith f k n [c] := h.sub (l := [c]) (g := cs) List.perm_append_comm
    have hv : f.numData[c]? = some (.fin (f.value c)) := by
      rw [hc.value (by simp)]; exact hc.data c (by simp)
    rw [hv]
    simp only [Option.bind_some, XF.fin_add, mulX_fin]
    have h1 := (hc.rep hk).2
    have h2 := h.rep hk
    simp only [List.map_cons, List.map_nil, List.sum_singleton] at h1
    simp only [List.map_append, List.map_cons, List.map_nil, List.sum_append, List.sum_singleton] at h2 ⊢
    have e1 : XF.rounded F64.round (.fin (f.value c * f.value c)) = .fin (f.value c ^ 2) := by
      rw [← sq]; exact F64.rounds.self h1
    rw [e1, XF.fin_add]
    have e2 := F64.rounds.self h2.1
    have e3 := F64.rounds.self h2.2
    show some (F64.round _, F64.round _) = _
    rw [e2, e3]

theorem updateSImpR_eq {f : NumFeature ℚ} {k : Nat} {n : Nat → ℤ} (hk : k ≤ 500) {l g l' g' mv : List Nat}
    (h : SmallWith f k n (l ++ g)) (hl : l'.Perm (l ++ mv)) (hg : g.Perm (mv ++ g')) {a a1 b : Allocs ℚ} {x : XF ℚ}
    (h1 : f.splitImpurityR F64.round a l g none = some (x, a1)) :
    (f.updateSImpR F64.round a1 l' g' none mv).map Prod.fst =
      (f.splitImpurityR F64.round b l' g' none).map Prod.fst ∧
    ∀ y a2, f.updateSImpR F64.round a1 l' g' none mv = some (y, a2) →
      ∃ y' b2, f.splitImpurityR F64.round b l' g' none = some (y', b2) ∧ a2.lsum = b2.lsum ∧ a2.rsum = b2.rsum ∧
        a2.lsumSqr = b2.lsumSqr ∧ a2.rsumSqr = b2.rsumSqr := by
  have hpm : (l' ++ g').Perm (l ++ g) := by
    refine (hl.append_right g').trans ?_
    rw [List.append_assoc]
    exact hg.symm.append_left l
  have sl : SmallWith f k n l := h.sub (List.Perm.refl _)
  have sg : SmallWith f k n g := h.sub (g := l) List.perm_append_comm
  have sl' : SmallWith f k n l' := h.sub hpm
  have sg' : SmallWith f k n g' := h.sub (g := l') (List.perm_append_comm.trans hpm)
  have smv : SmallWith f k n mv := sg.sub hg.symm
  unfold NumFeature.splitImpurityR at h1 ⊢
  rw [sumsR_exact hk l sl, sumsR_exact hk g sg] at h1
  simp only [Option.bind_eq_bind, Option.bind_some, Option.some.injEq, Prod.mk.injEq] at h1
  obtain ⟨-, rfl⟩ := h1
  unfold NumFeature.updateSImpR
  rw [sumsR_exact hk l' sl', sumsR_exact hk g' sg', sumsR_exact hk mv smv]
  simp only [Option.bind_eq_bind, Option.bind_some, XF.fin_add, XF.fin_sub]
  have e1 := (hl.map f.value).sum_eq
  have e2 := (hl.map fun c => f.value c ^ 2).sum_eq
  have e3 := (hg.map f.value).sum_eq
  have e4 := (hg.map fun c => f.value c ^ 2).sum_eq
  rw [List.map_append, List.sum_append] at e1 e2 e3 e4
  have r1 := sl'.rep hk
  have r2 := sg'.rep hk
  have f1 : XF.rounded F64.round (.fin ((l.map f.value).sum + (mv.map f.value).sum)) = .fin (l'.map f.value).sum := by
    rw [← e1]; exact F64.rounds.self r1.1
  have f2 : XF.rounded F64.round (.fin ((l.map fun c => f.value c ^ 2).sum + (mv.map fun c => f.value c ^ 2).sum)) =
      .fin (l'.map fun c => f.value c ^ 2).sum := by
    rw [← e2]; exact F64.rounds.self r1.2
  have f3 : XF.rounded F64.round (.fin ((g.map f.value).sum - (mv.map f.value).sum)) = .fin (g'.map f.value).sum := by
    rw [e3, add_sub_cancel_left]; exact F64.rounds.self r2.1
  have f4 : XF.rounded F64.round (.fin ((g.map fun c => f.value c ^ 2).sum - (mv.map fun c => f.value c ^ 2).sum)) =
      .fin (g'.map fun c => f.value c ^ 2).sum := by
    rw [e4, add_sub_cancel_left]; exact F64.rounds.self r2.2
  rw [f1, f2, f3, f4]
  refine ⟨rfl, ?_⟩
  intro y a2 e
  cases e
  exact ⟨_, _, rfl, rfl, rfl, rfl, rfl⟩

/-! ## The sign of the impurity -/

theorem list_int_cross (l : List ℤ) (a : ℤ) : 2 * a * l.sum ≤ l.length * a ^ 2 + (l.map fun x => x ^ 2).sum := by
  induction l with
  | nil => simp
  | cons b l ih =>
    simp only [List.map_cons, List.sum_cons, List.length_cons]
    push_cast
    linarith [sq_nonneg (a - b), show (a - b) ^ 2 = a ^ 2 - 2 * a * b + b ^ 2 by ring]

theorem list_int_cauchy (l : List ℤ) : l.sum ^ 2 ≤ l.length * (l.map fun x => x ^ 2).sum := by
  induction l with
  | nil => simp
  | cons b l ih =>
    simp only [List.map_cons, List.sum_cons, List.length_cons]
    push_cast
    have := list_int_cross l b
    linarith [show (b + l.sum) ^ 2 = b ^ 2 + 2 * b * l.sum + l.sum ^ 2 by ring]

/-- The impurity of small whole numbers has the right sign. -/
theorem impurityR_small {f : NumFeature ℚ} {k : Nat} (hk : k ≤ 400) {cs : List Nat} (hne : cs ≠ [])
    (h : f.SmallNumbers k cs) (a : Allocs ℚ) :
    ∃ e, f.impurityR F64.round a cs = some (.fin e, a) ∧ 0 ≤ e ∧ (e = 0 ↔ f.sse cs = 0) := by
  obtain ⟨n, hdata, hbound⟩ := h
  have hpos : 0 < cs.length := List.length_pos_iff.2 hne
  have hlen1 : (1 : ℤ) ≤ cs.length := by exact_mod_cast hpos
  have hq0 : 0 ≤ (cs.map fun c => n c ^ 2).sum := by
    have := list_sq_sum_nonneg (cs.map n)
    rwa [List.map_map] at this
  have hsm : SmallWith f k n cs := ⟨hdata, by nlinarith⟩
  have hcs := list_int_cauchy (cs.map n)
  rw [List.length_map, List.map_map] at hcs
  have hcs' : (cs.map n).sum ^ 2 ≤ cs.length * (cs.map fun c => n c ^ 2).sum := hcs
  obtain ⟨N, hN⟩ : ∃ N, N = (cs.map n).sum := ⟨_, rfl⟩
  obtain ⟨M, hM⟩ : ∃ M, M = (cs.map fun c => n c ^ 2).sum := ⟨_, rfl⟩
  obtain ⟨L, hL⟩ : ∃ L : ℤ, L = cs.length := ⟨_, rfl⟩
  have hLq : (cs.length : ℚ) = L := by rw [hL]; push_cast; rfl
  have hS := hsm.sum
  have hQ := hsm.sumSqr
  rw [← hN] at hS hcs'
  rw [← hM] at hQ hcs' hbound hq0
  rw [← hL] at hcs' hbound hlen1
  have hrepQ := (hsm.rep (by omega)).2
  have hL0 : (0 : ℚ) < L := by exact_mod_cast (by omega : 0 < L)
  have h4k : (0 : ℚ) < 2 ^ (2 * k) := by positivity
  unfold NumFeature.impurityR
  rw [sumsR_exact (by omega) cs hsm]
  simp only [Option.bind_eq_bind, Option.bind_some]
  have hsse := sse_short f hne
  have hsse0 := sse_nonneg f cs
  obtain ⟨S, hS'⟩ : ∃ S, S = (cs.map f.value).sum := ⟨_, rfl⟩
  obtain ⟨Q, hQ'⟩ : ∃ Q, Q = (cs.map fun c => f.value c ^ 2).sum := ⟨_, rfl⟩
  rw [← hS'] at hS hsse ⊢
  rw [← hQ'] at hQ hsse hrepQ ⊢
  have hSS : S * S = ((N ^ 2 : ℤ) : ℚ) / 2 ^ (2 * k) := by
    rw [hS, div_mul_div_comm, ← pow_add, ← two_mul]; push_cast; ring
  have hN53 : |N ^ 2| ≤ 2 ^ 53 := by rw [abs_of_nonneg (sq_nonneg N)]; omega
  have hrS : F64.round (S * S) = .fin (S * S) := by
    rw [hSS]; exact F64.rounds.self (rep64_frac hN53 (by omega))
  have hy0 : 0 ≤ S * S / L := div_nonneg (mul_self_nonneg S) hL0.le
  have hyQ : Q - S * S / L = f.sse cs := by rw [hsse, hLq, sq]
  obtain ⟨w, hw, hw0, hwQ⟩ := F64.rounds.between rep64_zero hrepQ hy0 (by linarith)
  obtain ⟨e, he, he0, heQ⟩ := F64.rounds.between rep64_zero hrepQ (x := Q - w) (by linarith) (by linarith)
  have hval : sseFromR F64.round cs.length (.fin S) (.fin Q) = .fin e := by
    unfold sseFromR
    rw [mulX_fin, show (XF.ofNat cs.length : XF ℚ) = .fin (cs.length : ℚ) from rfl, hLq]
    show XF.rounded _ (_ - XF.rounded _ (F64.round _ / _)) = _
    rw [hrS, XF.fin_div _ hL0.ne']
    show XF.rounded _ (_ - F64.round _) = _
    rw [hw, XF.fin_sub]
    exact he
  rw [hval]
  refine ⟨e, rfl, he0, ?_, ?_⟩
  · intro hez
    by_contra hne0
    have hsp : 0 < f.sse cs := lt_of_le_of_ne hsse0 (Ne.symm hne0)
    -- the gap between the two terms
    have hgap : 1 / (L * 2 ^ (2 * k)) ≤ f.sse cs := by
      have h1 : f.sse cs = ((L * M - N ^ 2 : ℤ) : ℚ) / (L * 2 ^ (2 * k)) := by
        rw [← hyQ, hSS, hQ]; push_cast; field_simp
      rw [h1] at hsp ⊢
      have h2 : (0 : ℚ) < ((L * M - N ^ 2 : ℤ) : ℚ) := by
        by_contra hc
        exact absurd hsp (not_lt.2 (div_nonpos_of_nonpos_of_nonneg (not_lt.1 hc) (by positivity)))
      have h3 : (1 : ℚ) ≤ ((L * M - N ^ 2 : ℤ) : ℚ) := by
        have : 0 < L * M - N ^ 2 := by exact_mod_cast h2
        exact_mod_cast this
      exact div_le_div_of_nonneg_right h3 (by positivity)
    have huQ : ulp64 * Q ≤ 1 / (L * 2 ^ (2 * k)) := by
      rw [hQ, le_div_iff₀ (by positivity)]
      have h1 : (L : ℚ) * M ≤ 2 ^ 53 := by exact_mod_cast hbound
      have h2 : ulp64 * ((M : ℚ) / 2 ^ (2 * k)) * (L * 2 ^ (2 * k)) = ulp64 * (L * M) := by field_simp
      rw [h2]
      unfold ulp64
      rw [div_mul_eq_mul_div, one_mul, div_le_one (by positivity)]
      exact h1
    have hwlt : w < Q := by
      by_cases hN0 : N = 0
      · have : S * S / L = 0 := by rw [hSS, hN0]; simp
        rw [this, F64.rounds.self rep64_zero] at hw
        cases hw
        rw [this] at hyQ
        linarith
      · have hnorm : 1 / 2 ^ 1022 ≤ |S * S / L| := by
          rw [abs_of_nonneg hy0, hSS, div_div]
          have h1 : (1 : ℚ) ≤ ((N ^ 2 : ℤ) : ℚ) := by
            have : 0 < N ^ 2 := by positivity
            exact_mod_cast this
          have h2 : (L : ℚ) ≤ 2 ^ 53 := by
            have h5 : 1 ≤ M := by
              by_contra hc
              have hM0 : M = 0 := by omega
              have : N ^ 2 ≤ 0 := by rw [hM0] at hcs'; simpa using hcs'
              exact hN0 (by nlinarith [sq_nonneg N] |> fun h : N = 0 => h)
            have : L ≤ 2 ^ 53 := by nlinarith
            exact_mod_cast this
          have h3 : (2 : ℚ) ^ (2 * k) * L ≤ 2 ^ 1022 := by
            calc (2 : ℚ) ^ (2 * k) * L ≤ 2 ^ 800 * 2 ^ 53 :=
                  mul_le_mul (pow_le_pow_right₀ (by norm_num) (by omega)) h2 hL0.le (by positivity)
              _ = 2 ^ 853 := by rw [← pow_add]
              _ ≤ 2 ^ 1022 := pow_le_pow_right₀ (by norm_num) (by norm_num)
          calc (1 : ℚ) / 2 ^ 1022 ≤ 1 / (2 ^ (2 * k) * L) := one_div_le_one_div_of_le (by positivity) h3
            _ ≤ _ := div_le_div_of_nonneg_right h1 (by positivity)
        have h1 := nearest_err hnorm
        rw [← round_fin hw, abs_of_nonneg hy0] at h1
        have h2 := (abs_le.1 h1).2
        have h3 : ulp64 * (S * S / L) < ulp64 * Q := mul_lt_mul_of_pos_left (by linarith) ulp64_pos
        linarith
    have herr := round_add_err hrepQ (round_rep hw).neg (y := e) (by rw [← sub_eq_add_neg]; exact he)
    rw [hez, ← sub_eq_add_neg, zero_sub, abs_neg, abs_of_pos (by linarith)] at herr
    have hu1 : ulp64 < 1 := by unfold ulp64; norm_num
    nlinarith
  · intro hz
    have hyq : S * S / L = Q := by linarith
    rw [hyq, F64.rounds.self hrepQ] at hw
    cases hw
    rw [sub_self, F64.rounds.self rep64_zero] at he
    cases he
    rfl

/-! ## The mean -/

theorem meanR_fold (f : NumFeature ℚ) (r : ℚ → XF ℚ) : ∀ (cs : List Nat) (s : XF ℚ) (m : Nat),
    cs.foldlM (fun (acc : XF ℚ × Nat) i => do
      let m ← f.missing[i]?
      if m then some acc else do
        let x ← f.numData[i]?
        some (XF.rounded r (acc.1 + x), acc.2 + 1)) (.fin 0, 0) = some (s, m) →
    m = ((Feature.num f).knowns cs).length ∧ ∃ q, f.sumsR r ((Feature.num f).knowns cs) = some (s, q) := by
  intro cs
  induction cs using List.reverseRecOn with
  | nil => intro s m h; cases h; exact ⟨rfl, _, rfl⟩
  | append_singleton cs c ih =>
    intro s m h
    rw [List.foldlM_append] at h
    simp only [Option.bind_eq_bind] at h
    obtain ⟨⟨s0, m0⟩, e1, h⟩ := Option.bind_eq_some_iff.1 h
    obtain ⟨h1, q, h2⟩ := ih s0 m0 e1
    rw [List.foldlM_cons] at h
    simp only [Option.bind_eq_bind] at h
    obtain ⟨⟨s1, m1⟩, e2, h⟩ := Option.bind_eq_some_iff.1 h
    cases h
    obtain ⟨b, hb, e2⟩ := Option.bind_eq_some_iff.1 e2
    have hk : (Feature.num f).knowns (cs ++ [c]) = (Feature.num f).knowns cs ++ if b then [] else [c] := by
      unfold Feature.knowns
      rw [List.filter_append]
      congr 1
      cases b <;> simp [Feature.isMissing, hb]
    rw [hk]
    cases b with
    | true =>
      simp only [if_true] at e2
      cases e2
      simp only [if_true, List.append_nil]
      exact ⟨h1, q, h2⟩
    | false =>
      simp only [Bool.false_eq_true, if_false] at e2 ⊢
      obtain ⟨x, hx, e2⟩ := Option.bind_eq_some_iff.1 e2
      cases e2
      rw [sumsR_snoc, h2, hx, List.length_append, h1]
      exact ⟨rfl, _, rfl⟩

/-- The error of the sum alone. -/
theorem sumsR_sum_err (f : NumFeature ℚ) : ∀ (cs : List Nat), f.Doubles cs → 2 * (cs.length : ℚ) * ulp64 ≤ 1 →
    ∀ s q, f.sumsR F64.round cs = some (.fin s, q) →
      Rep64 s ∧ |s - (cs.map f.value).sum| ≤ 2 * cs.length * ulp64 * (cs.map fun c => |f.value c|).sum := by
  intro cs
  induction cs using List.reverseRecOn with
  | nil =>
    intro _ _ s q h
    cases h
    exact ⟨rep64_zero, by simp⟩
  | append_singleton cs c ih =>
    intro hd hn s q h
    have hu := ulp64_pos
    rw [sumsR_snoc] at h
    obtain ⟨⟨sx, qx⟩, e1, h⟩ := Option.bind_eq_some_iff.1 h
    obtain ⟨hv, hvr⟩ := hd.value (c := c) (by simp)
    rw [hv] at h
    simp only [Option.bind_some, Option.some.injEq, Prod.mk.injEq] at h
    obtain ⟨h1, -⟩ := h
    obtain ⟨x1, h3, h4⟩ := rounded_fin h1
    obtain ⟨s0, v0, rfl, hv0, rfl⟩ := add_fin h3
    cases hv0
    have hlen : ((cs ++ [c]).length : ℚ) = cs.length + 1 := by simp
    rw [hlen] at hn ⊢
    have hn0 : (0 : ℚ) ≤ cs.length := by positivity
    obtain ⟨r1, b1⟩ := ih (fun d hd' => hd d (by simp [hd'])) (by nlinarith) s0 qx e1
    refine ⟨round_rep h4, ?_⟩
    simp only [List.map_append, List.map_cons, List.map_nil, List.sum_append, List.sum_singleton]
    refine err_add hu hn0 hn ?_ b1 (round_add_err r1 hvr h4)
    have := list_abs_sum (cs.map f.value)
    rwa [List.map_map] at this

/-- The error of the mean. -/
theorem meanR_err (f : NumFeature ℚ) {cs : List Nat} (hd : f.Doubles ((Feature.num f).knowns cs))
    (hn : ((Feature.num f).knowns cs).length ≤ 2 ^ 52) {m : ℚ} (h : f.meanR F64.round cs = some (.fin m)) :
    |m - f.meanOf ((Feature.num f).knowns cs)| ≤
      4 * ulp64 * (((Feature.num f).knowns cs).map fun c => |f.value c|).sum + tiny64 := by
  unfold NumFeature.meanR at h
  simp only [Option.bind_eq_bind] at h
  obtain ⟨⟨sx, k⟩, e1, h⟩ := Option.bind_eq_some_iff.1 h
  obtain ⟨rfl, q, hq⟩ := meanR_fold f F64.round cs sx k e1
  simp only [Option.some.injEq] at h
  obtain ⟨x, h1, h2⟩ := rounded_fin h
  generalize (Feature.num f).knowns cs = ks at *
  have hne : ks.length ≠ 0 := by
    intro h0
    rw [List.length_eq_zero_iff] at h0
    subst h0
    cases hq
    rw [show (XF.fin 0 / XF.ofNat ([] : List Nat).length : XF ℚ) = .nan by decide +kernel] at h1
    cases h1
  have hn1 : (1 : ℚ) ≤ ks.length := by exact_mod_cast Nat.one_le_iff_ne_zero.2 hne
  have hn0 : (0 : ℚ) < ks.length := by linarith
  have hu := ulp64_pos
  have hnu : 2 * (ks.length : ℚ) * ulp64 ≤ 1 := by
    have : (ks.length : ℚ) ≤ 2 ^ 52 := by exact_mod_cast hn
    unfold ulp64
    rw [mul_one_div, div_le_one (by positivity)]
    linarith
  cases sx with
  | nan => cases h1
  | pinf => exact absurd h1 (divX_inf _ _).1
  | ninf => exact absurd h1 (divX_inf _ _).2
  | fin s =>
    rw [show (XF.ofNat ks.length : XF ℚ) = .fin (ks.length : ℚ) from rfl, XF.fin_div _ hn0.ne'] at h1
    cases h1
    obtain ⟨-, hs⟩ := sumsR_sum_err f ks hd hnu s q hq
    have hA := list_abs_sum (ks.map f.value)
    rw [List.map_map] at hA
    have hA' : |(ks.map f.value).sum| ≤ (ks.map fun c => |f.value c|).sum := hA
    have hr := round_err h2
    unfold NumFeature.meanOf
    obtain ⟨A, hAe⟩ : ∃ A, A = (ks.map fun c => |f.value c|).sum := ⟨_, rfl⟩
    obtain ⟨S, hSe⟩ : ∃ S, S = (ks.map f.value).sum := ⟨_, rfl⟩
    rw [← hAe] at hs hA' ⊢
    rw [← hSe] at hs hA' ⊢
    generalize (ks.length : ℚ) = n at *
    have hA0 : 0 ≤ A := (abs_nonneg _).trans hA'
    have h3 : 2 * n * ulp64 * A ≤ 1 * A := mul_le_mul_of_nonneg_right hnu hA0
    have h4 : |s| ≤ 2 * A := by
      have : s = (s - S) + S := by ring
      rw [this]
      exact (abs_add_le _ _).trans (by linarith)
    have h5 : |s / n| ≤ 2 * A := by
      rw [abs_div, abs_of_pos hn0, div_le_iff₀ hn0]
      nlinarith
    have h6 : |s / n - S / n| ≤ 2 * ulp64 * A := by
      rw [← sub_div, abs_div, abs_of_pos hn0, div_le_iff₀ hn0]
      linarith
    have h7 : m - S / n = (m - s / n) + (s / n - S / n) := by ring
    rw [h7]
    refine (abs_add_le _ _).trans ?_
    have h8 : ulp64 * |s / n| ≤ ulp64 * (2 * A) := mul_le_mul_of_nonneg_left h5 hu.le
    linarith

/-! ## A whole search -/

theorem sumsR_isSome (f : NumFeature ℚ) {r : ℚ → XF ℚ} {cs : List Nat}
    (h : ∀ c ∈ cs, ∃ x, f.numData[c]? = some x) : ∃ p, f.sumsR r cs = some p := by
  induction cs using List.reverseRecOn with
  | nil => exact ⟨_, rfl⟩
  | append_singleton cs c ih =>
    obtain ⟨p, hp⟩ := ih fun d hd => h d (by simp [hd])
    obtain ⟨x, hx⟩ := h c (by simp)
    rw [sumsR_snoc, hp, hx]
    exact ⟨_, rfl⟩

theorem updateSImpR_allocs {f : NumFeature ℚ} {r : ℚ → XF ℚ} {l g mv : List Nat} {a b : Allocs ℚ}
    (h1 : a.lsum = b.lsum) (h2 : a.rsum = b.rsum) (h3 : a.lsumSqr = b.lsumSqr) (h4 : a.rsumSqr = b.rsumSqr)
    {y : XF ℚ} {a' : Allocs ℚ} (h : f.updateSImpR r a l g none mv = some (y, a')) :
    ∃ b', f.updateSImpR r b l g none mv = some (y, b') ∧ a'.lsum = b'.lsum ∧ a'.rsum = b'.rsum ∧
      a'.lsumSqr = b'.lsumSqr ∧ a'.rsumSqr = b'.rsumSqr := by
  unfold NumFeature.updateSImpR at h ⊢
  simp only [Option.bind_eq_bind] at h ⊢
  obtain ⟨⟨s, q⟩, e, h⟩ := Option.bind_eq_some_iff.1 h
  rw [e]
  simp only [Option.some.injEq, Prod.mk.injEq] at h
  obtain ⟨rfl, rfl⟩ := h
  simp only [Option.bind_some, ← h1, ← h2, ← h3, ← h4]
  exact ⟨_, rfl, rfl, rfl, rfl, rfl⟩

theorem scan_eq {f : NumFeature ℚ} {k : Nat} {n : Nat → ℤ} (hk : k ≤ 500) {cs : List Nat} (h : SmallWith f k n cs)
    (b : Allocs ℚ) : ∀ (js : List Nat) (i : Nat), (i :: js).Pairwise (· ≤ ·) → ∀ (x : XF ℚ) (a0 a1 : Allocs ℚ),
    f.splitImpurityR F64.round b (cs.take i) (cs.drop i) none = some (x, a0) →
    a1.lsum = a0.lsum → a1.rsum = a0.rsum → a1.lsumSqr = a0.lsumSqr → a1.rsumSqr = a0.rsumSqr →
    ∃ y a2 a3, f.scan F64.round cs i js (x, a1) = some (y, a2) ∧
      f.splitImpurityR F64.round b (cs.take ((i :: js).getLast (by simp))) (cs.drop ((i :: js).getLast (by simp))) none =
        some (y, a3) := by
  intro js
  induction js with
  | nil => intro i _ x a0 a1 h0 _ _ _ _; exact ⟨x, a1, a0, rfl, h0⟩
  | cons j js ih =>
    intro i hs x a0 a1 h0 h1 h2 h3 h4
    have hij : i ≤ j := List.rel_of_pairwise_cons hs (by simp)
    have hcs : cs.take i ++ cs.drop i = cs := List.take_append_drop i cs
    have hl : (cs.take j).Perm (cs.take i ++ (cs.take j).drop i) := by
      have : cs.take j = (cs.take j).take i ++ (cs.take j).drop i := (List.take_append_drop i _).symm
      rw [List.take_take, min_eq_left hij] at this
      exact this ▸ List.Perm.refl _
    have hg : (cs.drop i).Perm ((cs.take j).drop i ++ cs.drop j) := by
      have e2 : cs.drop i = ((cs.take j) ++ cs.drop j).drop i := by rw [List.take_append_drop]
      by_cases hlen : i ≤ (cs.take j).length
      · rw [e2, List.drop_append_of_le_length hlen]
      · have : cs.length < i := by
          rw [List.length_take] at hlen
          omega
        rw [List.drop_eq_nil_of_le (by omega), List.drop_eq_nil_of_le (by rw [List.length_take]; omega),
          List.drop_eq_nil_of_le (by omega)]
        exact List.Perm.refl _
    have hsm : SmallWith f k n (cs.take i ++ cs.drop i) := hcs.symm ▸ h
    obtain ⟨-, e⟩ := updateSImpR_eq hk hsm hl hg (b := b) h0
    obtain ⟨p, hp⟩ : ∃ p, f.sumsR F64.round ((cs.take j).drop i) = some p :=
      sumsR_isSome f fun c hc => ⟨_, h.data c (List.mem_of_mem_take (List.mem_of_mem_drop hc))⟩
    obtain ⟨y1, b1, hu⟩ : ∃ y1 b1, f.updateSImpR F64.round a0 (cs.take j) (cs.drop j) none ((cs.take j).drop i) =
        some (y1, b1) := by
      unfold NumFeature.updateSImpR
      simp only [Option.bind_eq_bind, hp, Option.bind_some]
      exact ⟨_, _, rfl⟩
    obtain ⟨y', b2, k0, k1, k2, k3, k4⟩ := e y1 b1 hu
    have hyy : y' = y1 := by
      have := (updateSImpR_eq hk hsm hl hg (b := b) h0).1
      rw [hu, k0] at this
      simpa using this.symm
    subst hyy
    obtain ⟨b3, m0, m1, m2, m3, m4⟩ := updateSImpR_allocs h1.symm h2.symm h3.symm h4.symm hu
    unfold NumFeature.scan
    simp only [m0]
    obtain ⟨z, a5, a6, z1, z2⟩ := ih j (List.Pairwise.of_cons hs) y' b2 b3 k0 (m1.symm.trans k1) (m2.symm.trans k2)
      (m3.symm.trans k3) (m4.symm.trans k4)
    exact ⟨z, a5, a6, z1, by simpa using z2⟩

end CloudForest
