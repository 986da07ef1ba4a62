import Verif.Lemmas.RoundedGrow3
import Verif.Lemmas.Rounding4

/-! # Lemmas about squared deviations of small whole numbers in double precision -/

set_option linter.unusedSectionVars false

namespace CloudForest

/-- The listed cases have values that are whole numbers over `2ᵏ`, the whole numbers at most `A`. -/
def WholeWith (f : NumFeature ℚ) (k : Nat) (n : Nat → ℤ) (A : Nat) (cs : List Nat) : Prop :=
  ∀ c ∈ cs, f.numData[c]? = some (.fin (n c / 2 ^ k)) ∧ |n c| ≤ A

section
variable {f : NumFeature ℚ} {k A N : Nat} {n : Nat → ℤ} {cases cs : List Nat}

theorem WholeWith.mono (h : WholeWith f k n A cases) (hc : ∀ c ∈ cs, c ∈ cases) : WholeWith f k n A cs :=
  fun c hcs => h c (hc c hcs)

theorem WholeWith.sq (h : WholeWith f k n A cs) : (cs.map fun c => n c ^ 2).sum ≤ cs.length * (A : ℤ) ^ 2 := by
  induction cs with
  | nil => simp
  | cons c cs ih =>
    have h1 := ih fun d hd => h d (List.mem_cons_of_mem _ hd)
    have h2 : n c ^ 2 ≤ (A : ℤ) ^ 2 := sq_le_sq' (abs_le.1 (h c (by simp)).2).1 (abs_le.1 (h c (by simp)).2).2
    simp only [List.map_cons, List.sum_cons, List.length_cons]
    push_cast
    linarith

theorem WholeWith.numbers (h : WholeWith f k n A cs) (hl : cs.length ≤ N) (hN : N * A ≤ 2 ^ 25) :
    f.SmallNumbers k cs := by
  refine ⟨n, fun c hc => (h c hc).1, ?_⟩
  have h1 := h.sq
  have h2 : (cs.length : ℤ) * A ≤ 2 ^ 25 := by
    have : cs.length * A ≤ 2 ^ 25 := (Nat.mul_le_mul_right A hl).trans hN
    exact_mod_cast this
  have h3 : (0 : ℤ) ≤ cs.length * A := by positivity
  calc (cs.length : ℤ) * (cs.map fun c => n c ^ 2).sum ≤ cs.length * (cs.length * A ^ 2) :=
        mul_le_mul_of_nonneg_left h1 (by positivity)
    _ = (cs.length * A) ^ 2 := by ring
    _ ≤ (2 ^ 25) ^ 2 := pow_le_pow_left₀ h3 h2 2
    _ ≤ 2 ^ 53 := by norm_num

theorem WholeWith.smallWith (h : WholeWith f k n A cs) (hl : cs.length ≤ N) (hN : N * A ≤ 2 ^ 25) :
    SmallWith f k n cs := by
  refine ⟨fun c hc => (h c hc).1, ?_⟩
  by_cases h0 : cs = []
  · simp [h0]
  have h1 := h.sq
  have h2 : cs.length * A ≤ 2 ^ 25 := (Nat.mul_le_mul_right A hl).trans hN
  have hp : 1 ≤ cs.length := List.length_pos_iff.2 h0
  have h3 : A ≤ 2 ^ 25 := (Nat.le_mul_of_pos_left A hp).trans h2
  have h4 : cs.length * A ^ 2 ≤ 2 ^ 25 * 2 ^ 25 := by
    rw [show cs.length * A ^ 2 = cs.length * A * A by ring]
    exact Nat.mul_le_mul h2 h3
  have h5 : ((cs.length : ℤ) * (A : ℤ) ^ 2) ≤ 2 ^ 25 * 2 ^ 25 := by exact_mod_cast h4
  linarith [show (2 : ℤ) ^ 25 * 2 ^ 25 ≤ 2 ^ 53 by norm_num]

/-- The rounded impurity from exact sums. -/
def NumFeature.sseR (f : NumFeature ℚ) (cs : List Nat) : XF ℚ :=
  sseFromR F64.round cs.length (.fin (cs.map f.value).sum) (.fin (cs.map fun c => f.value c ^ 2).sum)

theorem sseR_perm (f : NumFeature ℚ) {l l' : List Nat} (h : l.Perm l') : f.sseR l = f.sseR l' := by
  unfold NumFeature.sseR
  rw [h.length_eq, (h.map f.value).sum_eq, (h.map fun c => f.value c ^ 2).sum_eq]

/-- The rounded target, made harmless for more than `N` cases. -/
def sseUpTo (N : Nat) (f : NumFeature ℚ) : Target ℚ :=
  ⟨fun a cs => if cs.length ≤ N then f.impurityR F64.round a cs else some (.fin 0, a),
    fun a l g m => if l.length + g.length ≤ N then f.splitImpurityR F64.round a l g m else some (.fin 0, a),
    fun a l g m mv => if l.length + g.length ≤ N then f.updateSImpR F64.round a l g m mv else some (.fin 0, a)⟩

theorem impurityR_sseR (hk : k ≤ 400) (h : SmallWith f k n cs) (a : Allocs ℚ) :
    f.impurityR F64.round a cs = some (f.sseR cs, a) := by
  unfold NumFeature.impurityR
  rw [sumsR_exact (by omega) cs h]
  rfl

/-- It measures impurity consistently. -/
def sseUpToLaws (hk : k ≤ 400) (hN : N * A ≤ 2 ^ 25) (h : WholeWith f k n A cases) :
    TargetLaws (sseUpTo N f) cases where
  I cs := if cs.length ≤ N then f.sseR cs else .fin 0
  S l g := if l.length + g.length ≤ N then wavgR F64.round l.length g.length (f.sseR l) (f.sseR g) else .fin 0
  Ok _ := True
  Tracks a l g := l.length + g.length ≤ N → a.lsum = .fin (l.map f.value).sum ∧ a.rsum = .fin (g.map f.value).sum ∧
    a.lsumSqr = .fin (l.map fun c => f.value c ^ 2).sum ∧ a.rsumSqr = .fin (g.map fun c => f.value c ^ 2).sum
  tracks_ok _ _ _ _ := trivial
  I_perm l l' hp := by
    simp only [hp.length_eq, sseR_perm f hp]
  S_perm l l' g g' hl hg := by
    simp only [hl.length_eq, hg.length_eq, sseR_perm f hl, sseR_perm f hg]
  S_comm l g := by
    simp only [wavgR_comm _ l.length, add_comm l.length]
  impurity a cs _ hc := by
    show ∃ a', (if cs.length ≤ N then f.impurityR F64.round a cs else some (.fin 0, a)) = _ ∧ _
    split
    · rename_i hl
      exact ⟨a, impurityR_sseR hk ((h.mono hc).smallWith hl hN) a, trivial⟩
    · exact ⟨a, rfl, trivial⟩
  split a l g _ hc := by
    show ∃ a', (if l.length + g.length ≤ N then f.splitImpurityR F64.round a l g none else some (.fin 0, a)) = _ ∧ _
    split
    · have sl := (h.mono fun c hcl => hc c (List.mem_append_left _ hcl)).smallWith (cs := l) (N := N) (by omega) hN
      have sg := (h.mono fun c hcl => hc c (List.mem_append_right _ hcl)).smallWith (cs := g) (N := N) (by omega) hN
      unfold NumFeature.splitImpurityR
      rw [sumsR_exact (by omega) l sl, sumsR_exact (by omega) g sg]
      exact ⟨_, rfl, fun _ => ⟨rfl, rfl, rfl, rfl⟩⟩
    · rename_i hl
      exact ⟨a, rfl, fun h' => absurd h' hl⟩
  update a l g l' g' mv ht hc hl hg := by
    have hlen : l'.length + g'.length = l.length + g.length := by
      have h1 := hl.length_eq
      have h2 := hg.length_eq
      rw [List.length_append] at h1 h2
      omega
    show ∃ a', (if l'.length + g'.length ≤ N then f.updateSImpR F64.round a l' g' none mv else some (.fin 0, a)) = _ ∧ _
    rw [hlen]
    split
    · rename_i hle
      obtain ⟨t1, t2, t3, t4⟩ := ht hle
      have hm : ∀ c ∈ mv, c ∈ cases := fun c hcm =>
        hc c (List.mem_append_right _ (hg.mem_iff.2 (List.mem_append_left _ hcm)))
      have hl' : ∀ c ∈ l', c ∈ cases := fun c hcm => by
        rcases List.mem_append.1 (hl.mem_iff.1 hcm) with h' | h'
        · exact hc c (List.mem_append_left _ h')
        · exact hm c h'
      have hg' : ∀ c ∈ g', c ∈ cases := fun c hcm =>
        hc c (List.mem_append_right _ (hg.mem_iff.2 (List.mem_append_right _ hcm)))
      have hml : mv.length ≤ N := by
        have := hg.length_eq
        rw [List.length_append] at this
        omega
      have sl := (h.mono hl').smallWith (N := N) (by omega) hN
      have sg := (h.mono hg').smallWith (N := N) (by omega) hN
      have sm := (h.mono hm).smallWith hml hN
      unfold NumFeature.updateSImpR
      rw [sumsR_exact (by omega) mv sm]
      simp only [Option.bind_eq_bind, Option.bind_some, t1, t2, t3, t4, XF.fin_add, XF.fin_sub]
      have e1 := (hl.map f.value).sum_eq
      have e2 := (hl.map fun c => f.value c ^ 2).sum_eq
      have e3 := (hg.map f.value).sum_eq
      have e4 := (hg.map fun c => f.value c ^ 2).sum_eq
      rw [List.map_append, List.sum_append] at e1 e2 e3 e4
      have r1 := sl.rep (by omega)
      have r2 := sg.rep (by omega)
      have f1 : XF.rounded F64.round (.fin ((l.map f.value).sum + (mv.map f.value).sum)) = .fin (l'.map f.value).sum := by
        rw [← e1]; exact F64.rounds.self r1.1
      have f2 : XF.rounded F64.round (.fin ((l.map fun c => f.value c ^ 2).sum + (mv.map fun c => f.value c ^ 2).sum)) =
          .fin (l'.map fun c => f.value c ^ 2).sum := by
        rw [← e2]; exact F64.rounds.self r1.2
      have f3 : XF.rounded F64.round (.fin ((g.map f.value).sum - (mv.map f.value).sum)) = .fin (g'.map f.value).sum := by
        rw [e3, add_sub_cancel_left]; exact F64.rounds.self r2.1
      have f4 : XF.rounded F64.round (.fin ((g.map fun c => f.value c ^ 2).sum - (mv.map fun c => f.value c ^ 2).sum)) =
          .fin (g'.map fun c => f.value c ^ 2).sum := by
        rw [e4, add_sub_cancel_left]; exact F64.rounds.self r2.2
      rw [f1, f2, f3, f4]
      exact ⟨_, rfl, fun _ => ⟨rfl, rfl, rfl, rfl⟩⟩
    · rename_i hle
      exact ⟨a, rfl, fun h' => absurd (hlen ▸ h') hle⟩

/-! ## How far off it is -/

/-- The bound on the impurities. -/
def sseBound (N A k : Nat) : ℚ := N * (A : ℚ) ^ 2 / 2 ^ (2 * k)

theorem sse_le_bound (h : WholeWith f k n A cs) (hl : cs.length ≤ N) (hN : N * A ≤ 2 ^ 25) (hne : cs ≠ []) :
    (cs.map fun c => f.value c ^ 2).sum ≤ sseBound N A k := by
  have hs := (h.smallWith hl hN).sumSqr
  rw [hs]
  unfold sseBound
  refine div_le_div_of_nonneg_right ?_ (by positivity)
  have h1 := h.sq
  have h2 : ((cs.map fun c => n c ^ 2).sum : ℚ) ≤ cs.length * (A : ℚ) ^ 2 := by exact_mod_cast h1
  refine le_trans ?_ (h2.trans (mul_le_mul_of_nonneg_right (by exact_mod_cast hl) (by positivity)))
  push_cast
  exact le_rfl

theorem sseR_err (hk : k ≤ 400) (h : WholeWith f k n A cs) (hl : cs.length ≤ N) (hN : N * A ≤ 2 ^ 25) (hne : cs ≠ [])
    (hB : 2 * tiny64 ≤ ulp64 * sseBound N A k) :
    ∃ e, f.sseR cs = .fin e ∧ 0 ≤ e ∧ |e - f.sse cs| ≤ 3 * (ulp64 * sseBound N A k) := by
  have hsm := h.smallWith hl hN
  have hnum := h.numbers hl hN
  obtain ⟨e, h1, h2, -⟩ := impurityR_small hk hne hnum ⟨[], [], [], .fin 0, .fin 0, .fin 0, .fin 0, .fin 0, .fin 0⟩
  rw [impurityR_sseR hk hsm] at h1
  have h1' : f.sseR cs = .fin e := (Prod.mk.inj (Option.some.inj h1)).1
  refine ⟨e, h1', h2, ?_⟩
  have hQB := sse_le_bound h hl hN hne
  have hrepQ := (hsm.rep (by omega)).2
  have hsse := sse_short f hne
  have hsse0 := sse_nonneg f cs
  have hS := hsm.sum
  unfold NumFeature.sseR at h1'
  obtain ⟨S, hS'⟩ : ∃ S, S = (cs.map f.value).sum := ⟨_, rfl⟩
  obtain ⟨Q, hQ'⟩ : ∃ Q, Q = (cs.map fun c => f.value c ^ 2).sum := ⟨_, rfl⟩
  obtain ⟨B, hBB⟩ : ∃ B, B = sseBound N A k := ⟨_, rfl⟩
  rw [← hBB] at hB hQB ⊢
  rw [← hS'] at hS hsse h1'
  rw [← hQ'] at hsse hrepQ hQB h1'
  have hL0 : (0 : ℚ) < cs.length := by exact_mod_cast List.length_pos_iff.2 hne
  have hrS : F64.round (S * S) = .fin (S * S) := by
    have hSS : S * S = (((cs.map n).sum ^ 2 : ℤ) : ℚ) / 2 ^ (2 * k) := by
      rw [hS, div_mul_div_comm, ← pow_add, ← two_mul]; push_cast; ring
    rw [hSS]
    refine F64.rounds.self (rep64_frac ?_ (by omega))
    rw [abs_of_nonneg (sq_nonneg _)]
    have hcs := list_int_cauchy (cs.map n)
    rw [List.length_map, List.map_map] at hcs
    have h3 := h.sq
    have h4 : (cs.length : ℤ) * A ≤ 2 ^ 25 := by
      have : cs.length * A ≤ 2 ^ 25 := (Nat.mul_le_mul_right A hl).trans hN
      exact_mod_cast this
    have h5 : (0 : ℤ) ≤ cs.length * A := by positivity
    calc (cs.map n).sum ^ 2 ≤ cs.length * (cs.map fun c => n c ^ 2).sum := hcs
      _ ≤ cs.length * (cs.length * A ^ 2) := mul_le_mul_of_nonneg_left h3 (by positivity)
      _ = (cs.length * A) ^ 2 := by ring
      _ ≤ (2 ^ 25) ^ 2 := pow_le_pow_left₀ h5 h4 2
      _ ≤ 2 ^ 53 := by norm_num
  have hy0 : 0 ≤ S * S / cs.length := div_nonneg (mul_self_nonneg S) hL0.le
  have hyQ : Q - S * S / cs.length = f.sse cs := by rw [hsse, sq]
  obtain ⟨w, hw, hw0, hwQ⟩ := F64.rounds.between rep64_zero hrepQ hy0 (by linarith)
  obtain ⟨e', he, he0, heQ⟩ := F64.rounds.between rep64_zero hrepQ (x := Q - w) (by linarith) (by linarith)
  have hval : sseFromR F64.round cs.length (.fin S) (.fin Q) = .fin e' := by
    unfold sseFromR
    rw [mulX_fin, show (XF.ofNat cs.length : XF ℚ) = .fin (cs.length : ℚ) from rfl]
    show XF.rounded _ (_ - XF.rounded _ (F64.round _ / _)) = _
    rw [hrS, XF.fin_div _ hL0.ne']
    show XF.rounded _ (_ - F64.round _) = _
    rw [hw, XF.fin_sub]
    exact he
  rw [hval] at h1'
  cases h1'
  have e1 := round_err hw
  have e2 := round_err he
  have hu := ulp64_pos
  have b1 : ulp64 * |S * S / cs.length| ≤ ulp64 * B := by
    rw [abs_of_nonneg hy0]
    exact mul_le_mul_of_nonneg_left (by linarith) hu.le
  have b2 : ulp64 * |Q - w| ≤ ulp64 * B := by
    rw [abs_of_nonneg (by linarith : 0 ≤ Q - w)]
    exact mul_le_mul_of_nonneg_left (by linarith) hu.le
  obtain ⟨p1, p2⟩ := abs_le.1 e1
  obtain ⟨p3, p4⟩ := abs_le.1 e2
  rw [← hyQ]
  exact abs_le.2 ⟨by linarith, by linarith⟩

theorem sseBound_tiny (hk : k ≤ 400) (hA : 1 ≤ A) (hN : 1 ≤ N) : 2 * tiny64 ≤ ulp64 * sseBound N A k := by
  unfold tiny64 ulp64 sseBound
  have h1 : (1 : ℚ) ≤ N * (A : ℚ) ^ 2 := by
    have : 1 ≤ N * A ^ 2 := Nat.one_le_iff_ne_zero.2 (by positivity)
    exact_mod_cast this
  have h2 : (2 : ℚ) ^ (2 * k) ≤ 2 ^ 800 := pow_le_pow_right₀ (by norm_num) (by omega)
  have h3 : (1 : ℚ) / 2 ^ 800 ≤ N * (A : ℚ) ^ 2 / 2 ^ (2 * k) := div_le_div₀ (by positivity) h1 (by positivity) h2
  have h4 : (2 : ℚ) * (1 / 2 ^ 1075) ≤ 1 / 2 ^ 53 * (1 / 2 ^ 800) := by
    rw [div_mul_div_comm, one_mul, ← pow_add, mul_one_div, div_le_div_iff₀ (by positivity) (by positivity), one_mul,
      ← pow_succ']
    exact pow_le_pow_right₀ (by norm_num) (by norm_num)
  exact h4.trans (mul_le_mul_of_nonneg_left h3 (by positivity))

theorem sseUpToLaws_near (hk : k ≤ 400) (hA : 1 ≤ A) (hN1 : 1 ≤ N) (hN : N * A ≤ 2 ^ 25) (h : WholeWith f k n A cases) :
    (sseUpToLaws hk hN h).Near f.sse (sseBound N A k / 2 ^ 48) (sseBound N A k) N := by
  have ht := sseBound_tiny hk hA hN1
  have hB0 : 0 < sseBound N A k := by unfold sseBound; positivity
  have hv : ulp64 * sseBound N A k = sseBound N A k / 2 ^ 53 := by unfold ulp64; ring
  obtain ⟨B, hB⟩ : ∃ B, B = sseBound N A k := ⟨_, rfl⟩
  have hsize : (N : ℚ) * sseBound N A k ≤ 2 ^ 50 := by
    unfold sseBound
    have h1 : ((N : ℚ) * A) ^ 2 ≤ (2 ^ 25) ^ 2 := by
      refine pow_le_pow_left₀ (by positivity) ?_ 2
      exact_mod_cast hN
    have h2 : (1 : ℚ) ≤ 2 ^ (2 * k) := one_le_pow₀ (by norm_num)
    rw [show (N : ℚ) * (N * (A : ℚ) ^ 2 / 2 ^ (2 * k)) = ((N : ℚ) * A) ^ 2 / 2 ^ (2 * k) by ring]
    rw [div_le_iff₀ (by positivity)]
    have : (2 : ℚ) ^ 50 * 1 ≤ 2 ^ 50 * 2 ^ (2 * k) := mul_le_mul_of_nonneg_left h2 (by positivity)
    linarith [show ((2 : ℚ) ^ 25) ^ 2 = 2 ^ 50 by norm_num]
  have hle : ∀ l, l ≠ [] → (∀ c ∈ l, c ∈ cases) → l.length ≤ N → f.sse l ≤ sseBound N A k := by
    intro l hl hc hlen
    have h1 := sse_le_bound (h.mono hc) hlen hN hl
    rw [sse_short f hl]
    have : 0 ≤ (l.map f.value).sum ^ 2 / (l.length : ℚ) := by positivity
    linarith
  refine ⟨ht, hsize, ?_, ?_, fun l l' hp => sse_perm f hp, fun l _ _ => sse_nonneg f l, hle, ?_, ?_⟩
  · rw [hv]
    linarith
  · linarith
  · intro l hl hc hlen
    obtain ⟨e, h1, h2, h3⟩ := sseR_err hk (h.mono hc) hlen hN hl ht
    refine ⟨e, ?_, ?_, h2⟩
    · show (if l.length ≤ N then f.sseR l else .fin 0) = _
      rw [if_pos hlen, h1]
    · rw [hv] at h3
      linarith
  · intro ks l g hp hl hg hc hlen
    have hlg := hp.length_eq
    rw [List.length_append] at hlg
    have hcl : ∀ c ∈ l, c ∈ cases := fun c h' => hc c (hp.mem_iff.1 (List.mem_append_left _ h'))
    have hcg : ∀ c ∈ g, c ∈ cases := fun c h' => hc c (hp.mem_iff.1 (List.mem_append_right _ h'))
    have hks : ks ≠ [] := by
      rintro rfl
      simp at hlg
      exact hl hlg.1
    obtain ⟨P, eP, hP0, hP⟩ := sseR_err hk (h.mono hc) hlen hN hks ht
    obtain ⟨x, ex, hx0, hx⟩ := sseR_err hk (h.mono hcl) (by omega) hN hl ht
    obtain ⟨y, ey, hy0, hy⟩ := sseR_err hk (h.mono hcg) (by omega) hN hg ht
    have hv0 : 0 < ulp64 * sseBound N A k := mul_pos ulp64_pos hB0
    have hlenq : ((l.length : ℚ) + g.length) = ks.length := by exact_mod_cast hlg
    have hksB : (ks.length : ℚ) * sseBound N A k ≤ 2 ^ 50 :=
      (mul_le_mul_of_nonneg_right (by exact_mod_cast hlen) hB0.le).trans hsize
    have hXl := hle l hl hcl (by omega)
    have hXg := hle g hg hcg (by omega)
    have hXk := hle ks hks hc hlen
    obtain ⟨z, ez, hz⟩ := wavgR_errB (nl := l.length) (ng := g.length) (by simpa using hl) (by simpa using hg)
      (B := sseBound N A k) (by rw [hlenq]; exact hksB) ht (by rw [hv]; linarith) (sse_nonneg f l) hXl (sse_nonneg f g) hXg
      hx hy
    rw [hlenq] at hz
    obtain ⟨W, hW⟩ : ∃ W : ℚ, W = (l.length * f.sse l + g.length * f.sse g) / ks.length := ⟨_, rfl⟩
    rw [← hW] at hz ⊢
    have hkp : (0 : ℚ) < ks.length := by exact_mod_cast List.length_pos_iff.2 hks
    have hW0 : 0 ≤ W := by
      rw [hW]
      have := sse_nonneg f l
      have := sse_nonneg f g
      positivity
    have hW1 : W ≤ sseBound N A k := by
      rw [hW, div_le_iff₀ hkp, ← hlenq]
      have h1 := mul_le_mul_of_nonneg_left hXl (show (0 : ℚ) ≤ l.length by positivity)
      have h2 := mul_le_mul_of_nonneg_left hXg (show (0 : ℚ) ≤ g.length by positivity)
      linarith
    have hk0 := sse_nonneg f ks
    rw [← hB] at hv hP hz hXk hW1 hv0 hB0 ht hksB ⊢
    obtain ⟨p1, p2⟩ := abs_le.1 hP
    obtain ⟨p3, p4⟩ := abs_le.1 hz
    have hkB : B ≤ 2 ^ 50 := by
      have : (1 : ℚ) ≤ ks.length := by exact_mod_cast List.length_pos_iff.2 hks
      have := mul_le_mul_of_nonneg_right this hB0.le
      linarith
    have hPz : |P - z| ≤ 2 * B := abs_le.2 ⟨by linarith, by linarith⟩
    obtain ⟨d, hd, ed⟩ := round_small (x := P - z) (by linarith [show (2 : ℚ) * 2 ^ 50 ≤ 2 ^ 53 by norm_num])
    refine ⟨d, ?_, ?_⟩
    · show XF.rounded F64.round ((if ks.length ≤ N then f.sseR ks else .fin 0) - (if l.length + g.length ≤ N then
        wavgR F64.round l.length g.length (f.sseR l) (f.sseR g) else .fin 0)) = _
      rw [if_pos hlen, if_pos (by omega), eP, ex, ey, ez, XF.fin_sub]
      exact hd
    · have e0 : ulp64 * |P - z| ≤ 2 * (ulp64 * B) := by
        have := mul_le_mul_of_nonneg_left hPz ulp64_pos.le
        linarith
      obtain ⟨p5, p6⟩ := abs_le.1 ed
      exact abs_le.2 ⟨by linarith, by linarith⟩

end
end CloudForest
