import Verif.Spec.Targets
import Verif.Lemmas.Impurity
import Verif.Lemmas.Impurity2
import Verif.Lemmas.Values
import Verif.Lemmas.Boost
import Mathlib.Analysis.SpecialFunctions.Log.NegMulLog
import Mathlib.Algebra.BigOperators.Field

/-!
# Lemmas about the other targets
-/

set_option linter.unusedSectionVars false

namespace CloudForest
variable {K : Type} [Field K] [LinearOrder K] [IsStrictOrderedRing K]

/-! ## Largest values -/

theorem argmaxX_spec (l : List K) (k m : Nat) (max : K) :
    ∃ M, max ≤ M ∧ (∀ c ∈ l, c ≤ M) ∧
      (argmaxX (l.map XF.fin) k m (.fin max) = m ∧ M = max ∨
        ∃ j, l[j]? = some M ∧ argmaxX (l.map XF.fin) k m (.fin max) = k + j ∧ max < M) := by
  induction l generalizing k m max with
  | nil => exact ⟨max, le_refl _, by simp, .inl ⟨rfl, rfl⟩⟩
  | cons v vs ih =>
    rw [List.map_cons]
    unfold argmaxX
    by_cases h : max < v
    · rw [if_pos ((XF.fin_lt _ _).2 h)]
      obtain ⟨M, h1, h2, h3⟩ := ih (k + 1) k v
      refine ⟨M, (h.trans_le h1).le, ?_, ?_⟩
      · intro c hc
        rcases List.mem_cons.1 hc with rfl | hc
        · exact h1
        · exact h2 c hc
      · right
        rcases h3 with ⟨h3, h4⟩ | ⟨j, h3, h4, h5⟩
        · exact ⟨0, by rw [h4]; rfl, by rw [h3]; rfl, by rw [h4]; exact h⟩
        · exact ⟨j + 1, by simpa using h3, by omega, h.trans h5⟩
    · rw [if_neg (mt (XF.fin_lt _ _).1 h)]
      obtain ⟨M, h1, h2, h3⟩ := ih (k + 1) m max
      refine ⟨M, h1, ?_, ?_⟩
      · intro c hc
        rcases List.mem_cons.1 hc with rfl | hc
        · exact (not_lt.1 h).trans h1
        · exact h2 c hc
      · rcases h3 with h3 | ⟨j, h3, h4, h5⟩
        · exact .inl h3
        · exact .inr ⟨j + 1, by simpa using h3, by omega, h5⟩

/-- Among values that are not negative the search finds a largest one. -/
theorem argmaxX_range (n : Nat) (v : Nat → K) (hv : ∀ k < n, 0 ≤ v k) :
    (0 < n → argmaxX (finList n v) 0 0 (.fin 0) < n) ∧
      ∀ k < n, v k ≤ v (argmaxX (finList n v) 0 0 (.fin 0)) := by
  have e : finList n v = ((List.range n).map v).map XF.fin := by
    unfold finList
    rw [List.map_map]
    rfl
  rw [e]
  obtain ⟨M, h0, h1, h2⟩ := argmaxX_spec ((List.range n).map v) 0 0 0
  have hle : ∀ k < n, v k ≤ M := fun k hk => h1 _ (List.mem_map.2 ⟨k, List.mem_range.2 hk, rfl⟩)
  rcases h2 with ⟨h3, h4⟩ | ⟨j, h3, h4, -⟩
  · rw [h3]
    refine ⟨id, fun k hk => (hle k hk).trans ?_⟩
    rw [h4]
    exact hv 0 (by omega)
  · rw [h4, Nat.zero_add]
    obtain ⟨i, hi, e⟩ : ∃ i, (List.range n)[j]? = some i ∧ v i = M := by
      rw [List.getElem?_map] at h3
      cases hh : (List.range n)[j]? with
      | none => rw [hh] at h3; cases h3
      | some i => rw [hh] at h3; cases h3; exact ⟨i, rfl, rfl⟩
    have hj : j < n := by
      have := (List.getElem?_eq_some_iff.1 hi).1
      simpa using this
    rw [List.getElem?_range hj] at hi
    cases hi
    exact ⟨fun _ => hj, fun k hk => by rw [e]; exact hle k hk⟩

theorem weightOf_eq (f : CatFeature) (w : Nat → K) (cases : List Nat) (k : Nat) :
    f.weightOf w cases k = (f.catCount cases k : K) * w k := by
  unfold CatFeature.weightOf CatFeature.catCount
  rw [List.map_const', List.sum_replicate, nsmul_eq_mul, List.countP_eq_length_filter]

theorem weighted_eq (f : CatFeature) (n : Nat) (w : Nat → K) (cases : List Nat) :
    weighted (finList n w) (f.counts n cases) = finList n (f.weightOf w cases) := by
  unfold weighted finList CatFeature.counts
  rw [List.zip_map', List.map_map]
  apply List.map_congr_left
  intro k _
  show XF.ofInt _ * XF.fin _ = _
  unfold XF.ofInt
  rw [XF.fin_mul, weightOf_eq]
  simp

theorem cat_of_get {f : CatFeature} {c k : Nat} (h : f.catData[c]? = some k) : f.cat c = k := by
  unfold CatFeature.cat
  rw [h]
  rfl

/-- The cost of a prediction and the weight of its category add up to the weight of all categories. -/
theorem costOf_eq (f : CatFeature) (w : Nat → K) (cases : List Nat) (p : Nat) (hr : ∀ c ∈ cases, ∃ k, f.catData[c]? = some k) :
    f.costOf w cases p = (cases.map fun c => w (f.cat c)).sum - f.weightOf w cases p := by
  unfold CatFeature.costOf CatFeature.weightOf
  induction cases with
  | nil => simp
  | cons c cs ih =>
    obtain ⟨k, hk⟩ := hr c (by simp)
    have hc := cat_of_get hk
    rw [List.map_cons, List.sum_cons, ih fun x hx => hr x (by simp [hx]), List.filter_cons, hc, List.map_cons,
      List.sum_cons, hc, hk]
    by_cases h : k = p
    · subst h; simp
    · simp [h]; ring

/-! ## Divisions -/

/-- The split impurity of a count based target whose impurity of non-empty blocks is finite. -/
theorem count_split_eq (f : CatFeature) (imp : Nat → List Int → XF K) (i : List Nat → K) (n : Nat) (a : Allocs K)
    (ha : a.counter.length = n ∧ a.lcounter.length = n ∧ a.rcounter.length = n)
    (l r : List Nat) (m : Option (List Nat)) (hc : f.InRange n (l ++ r ++ missBlock m)) (hl : l ≠ []) (hr : r ≠ [])
    (hi : ∀ cs, cs ≠ [] → (∀ c ∈ cs, c ∈ l ++ r ++ missBlock m) → imp cs.length (f.counts n cs) = .fin (i cs)) :
    ∃ a', (countTarget f imp).splitImpurity a l r m = some (.fin
      (((l.length : K) * i l + r.length * i r + (missBlock m).length * i (missBlock m)) /
        (l ++ r ++ missBlock m).length), a') := by
  obtain ⟨h1, h2, h3⟩ := ha
  have cl := countPerCat_eq f l a.lcounter (by rw [h2]; exact fun c h => hc c (by simp [h]))
  have cr := countPerCat_eq f r a.rcounter (by rw [h3]; exact fun c h => hc c (by simp [h]))
  have cm := countPerCat_eq f (missBlock m) a.counter (by rw [h1]; exact fun c h => hc c (by simp [h]))
  rw [h2] at cl; rw [h3] at cr; rw [h1] at cm
  have hlen : ((l ++ r ++ missBlock m).length : K) = l.length + r.length + (missBlock m).length := by
    simp only [List.length_append]
    push_cast
    ring
  have pl := length_pos' (K := K) hl
  have pr := length_pos' (K := K) hr
  have pm : (0 : K) ≤ (missBlock m).length := Nat.cast_nonneg _
  have hpos : (0 : K) < (l ++ r ++ missBlock m).length := by rw [hlen]; linarith
  simp only [countTarget, countSplitImpurity, cl, cr, cm, Option.bind_eq_bind, Option.bind_some,
    hi l hl (fun c h => by simp [h]), hi r hr (fun c h => by simp [h]), XF.ofNat]
  by_cases h0 : 0 < (missBlock m).length
  · rw [if_pos h0, hi _ (List.length_pos_iff.1 h0) (fun c h => by simp [h])]
    simp only [XF.fin_mul, XF.fin_add]
    rw [XF.fin_div _ (by rw [← hlen]; exact hpos.ne'), ← hlen]
    exact ⟨_, rfl⟩
  · have : (missBlock m).length = 0 := by omega
    rw [if_neg h0, this]
    rw [this] at hlen
    simp only [XF.fin_mul, XF.fin_add]
    have e : (l.length : K) + r.length + 0 = (l ++ r ++ missBlock m).length := by rw [hlen]; simp
    rw [XF.fin_div _ (by rw [e]; exact hpos.ne'), e]
    simp only [Nat.cast_zero, zero_mul, add_zero]
    exact ⟨_, rfl⟩

/-! ## Entropy -/

theorem realLog_pos {x : ℝ} (h : 0 < x) : realLog (.fin x) = .fin (Real.log x) := by
  unfold realLog
  simp only [if_pos h]

theorem entropy_eq (f : CatFeature) (n : Nat) (cases : List Nat) : f.entropy n cases =
    ((List.range n).map fun k => Real.negMulLog ((f.catCount cases k : ℝ) / cases.length)).sum := by
  unfold CatFeature.entropy
  generalize List.range n = l
  induction l with
  | nil => simp
  | cons k ks ih =>
    simp only [List.map_cons, List.sum_cons]
    rw [← ih]
    unfold Real.negMulLog
    ring

theorem entropyFromCounts_eq (f : CatFeature) (n : Nat) (cases : List Nat) (h : cases ≠ []) :
    entropyFromCounts realLog cases.length (f.counts n cases) = .fin (f.entropy n cases) := by
  rw [entropy_eq]
  unfold entropyFromCounts CatFeature.counts
  have hN := length_pos' (K := ℝ) h
  rw [List.foldl_map]
  suffices H : ∀ (l : List Nat) (e : ℝ), List.foldl (fun (e : XF ℝ) k =>
      if 0 < (f.catCount cases k : Int) then
        e - XF.ofInt (f.catCount cases k : Int) / .ofNat cases.length *
          realLog (XF.ofInt (f.catCount cases k : Int) / .ofNat cases.length)
      else e) (.fin e) l =
      .fin (e + (l.map fun k => Real.negMulLog ((f.catCount cases k : ℝ) / cases.length)).sum) by
    have := H (List.range n) 0
    rw [zero_add] at this
    exact this
  intro l
  induction l with
  | nil => intro e; simp
  | cons k ks ih =>
    intro e
    rw [List.foldl_cons]
    by_cases hk : 0 < f.catCount cases k
    · rw [if_pos (by exact_mod_cast hk)]
      have hk' : (0 : ℝ) < f.catCount cases k := by exact_mod_cast hk
      unfold XF.ofInt XF.ofNat
      rw [XF.fin_div _ hN.ne', Int.cast_natCast, realLog_pos (div_pos hk' hN), XF.fin_mul, XF.fin_sub]
      refine (ih _).trans ?_
      rw [List.map_cons, List.sum_cons]
      congr 1
      unfold Real.negMulLog
      ring
    · rw [if_neg (by omega)]
      refine (ih _).trans ?_
      have : f.catCount cases k = 0 := by omega
      rw [List.map_cons, List.sum_cons, this]
      simp

theorem frac_mem (f : CatFeature) (cases : List Nat) (hne : cases ≠ []) (k : Nat) :
    0 ≤ (f.catCount cases k : K) / cases.length ∧ (f.catCount cases k : K) / cases.length ≤ 1 := by
  have hN := length_pos' (K := K) hne
  refine ⟨div_nonneg (Nat.cast_nonneg _) hN.le, (div_le_one hN).2 ?_⟩
  exact_mod_cast List.countP_le_length

theorem entropy_nonneg (f : CatFeature) (n : Nat) (cases : List Nat) (hne : cases ≠ []) : 0 ≤ f.entropy n cases := by
  rw [entropy_eq]
  exact sum_nonneg' _ _ fun k _ => Real.negMulLog_nonneg (frac_mem f cases hne k).1 (frac_mem f cases hne k).2

theorem entropy_eq_zero (f : CatFeature) (n : Nat) (cases : List Nat) (h : f.InRange n cases) (hne : cases ≠ []) :
    f.entropy n cases = 0 ↔ ∀ c ∈ cases, ∀ d ∈ cases, f.catData[c]? = f.catData[d]? := by
  have hN := length_pos' (K := ℝ) hne
  rw [entropy_eq, sum_eq_zero' _ _ fun k _ =>
    Real.negMulLog_nonneg (frac_mem f cases hne k).1 (frac_mem f cases hne k).2]
  constructor
  · intro H c hc d hd
    obtain ⟨k, hk, hkn⟩ := h c hc
    obtain ⟨h0, h1⟩ := frac_mem (K := ℝ) f cases hne k
    have hz := H k (List.mem_range.2 hkn)
    have hpos : 0 < f.catCount cases k := by
      unfold CatFeature.catCount
      rw [List.countP_pos_iff]
      exact ⟨c, hc, by simp [hk]⟩
    have hpos' : (0 : ℝ) < f.catCount cases k := by exact_mod_cast hpos
    have hfull : (f.catCount cases k : ℝ) / cases.length = 1 := by
      unfold Real.negMulLog at hz
      rcases mul_eq_zero.1 hz with hz | hz
      · have := div_pos hpos' hN
        linarith
      · rcases Real.log_eq_zero.1 hz with hz | hz | hz
        · have := div_pos hpos' hN
          linarith
        · exact hz
        · linarith
    rw [div_eq_one_iff_eq hN.ne'] at hfull
    have hall : f.catCount cases k = cases.length := by exact_mod_cast hfull
    unfold CatFeature.catCount at hall
    have := List.countP_eq_length.1 hall d hd
    rw [hk]
    exact (beq_iff_eq.1 this).symm
  · intro H k _
    unfold Real.negMulLog
    rcases Nat.eq_zero_or_pos (f.catCount cases k) with h0 | h0
    · simp [h0]
    · have hall : f.catCount cases k = cases.length := by
        unfold CatFeature.catCount at h0 ⊢
        obtain ⟨c, hc, hck⟩ := List.countP_pos_iff.1 h0
        rw [List.countP_eq_length]
        intro d hd
        rw [H d hd c hc]
        exact hck
      rw [hall, div_self hN.ne']
      simp

theorem entropy_perm (f : CatFeature) (n : Nat) {l l' : List Nat} (h : l.Perm l') : f.entropy n l = f.entropy n l' := by
  unfold CatFeature.entropy
  rw [h.length_eq]
  congr 2
  exact List.map_congr_left fun k _ => by rw [catCount_perm f h k]

/-- Entropy times the number of cases grows at least by the part of added cases. -/
theorem entropy_superadd (f : CatFeature) (n : Nat) (l r : List Nat) :
    (l.length : ℝ) * f.entropy n l + r.length * f.entropy n r ≤ (l ++ r).length * f.entropy n (l ++ r) := by
  rcases eq_or_ne l [] with rfl | hl
  · simp
  rcases eq_or_ne r [] with rfl | hr
  · simp
  have pl := length_pos' (K := ℝ) hl
  have pr := length_pos' (K := ℝ) hr
  rw [entropy_eq, entropy_eq, entropy_eq]
  have hs : (0 : ℝ) < l.length + r.length := by linarith
  have key : ∀ ks : List Nat, (l.length : ℝ) * (ks.map fun k => Real.negMulLog ((f.catCount l k : ℝ) / l.length)).sum +
      r.length * (ks.map fun k => Real.negMulLog ((f.catCount r k : ℝ) / r.length)).sum ≤
      (l ++ r).length * (ks.map fun k => Real.negMulLog ((f.catCount (l ++ r) k : ℝ) / (l ++ r).length)).sum := by
    intro ks
    induction ks with
    | nil => simp
    | cons k ks ih =>
      simp only [List.map_cons, List.sum_cons]
      have hJ := Real.concaveOn_negMulLog.2 (Set.mem_Ici.2 (frac_mem f l hl k).1)
        (Set.mem_Ici.2 (frac_mem f r hr k).1) (div_nonneg pl.le hs.le) (div_nonneg pr.le hs.le) (by field_simp)
      simp only [smul_eq_mul] at hJ
      have e : (l.length : ℝ) / (l.length + r.length) * (f.catCount l k / l.length) +
          r.length / (l.length + r.length) * (f.catCount r k / r.length) =
          (f.catCount (l ++ r) k : ℝ) / (l ++ r).length := by
        rw [catCount_append, List.length_append]
        push_cast
        field_simp
      rw [e] at hJ
      have hlen : ((l ++ r).length : ℝ) = l.length + r.length := by simp
      have := mul_le_mul_of_nonneg_left hJ hs.le
      rw [mul_add, ← mul_assoc, ← mul_assoc, mul_div_cancel₀ _ hs.ne', mul_div_cancel₀ _ hs.ne', ← hlen] at this
      linarith
  exact key _

theorem entropy_le_log (f : CatFeature) (n : Nat) (cases : List Nat) (h : f.InRange n cases) (hne : cases ≠ []) :
    f.entropy n cases ≤ Real.log n := by
  have hN := length_pos' (K := ℝ) hne
  have hn : 0 < n := by
    obtain ⟨c, hc⟩ := List.exists_mem_of_ne_nil _ hne
    obtain ⟨k, -, hk⟩ := h c hc
    omega
  have hn' : (0 : ℝ) < n := by exact_mod_cast hn
  have hJ := Real.concaveOn_negMulLog.le_map_sum (t := Finset.range n) (w := fun _ => 1 / (n : ℝ))
    (p := fun k => (f.catCount cases k : ℝ) / cases.length) (fun _ _ => by positivity)
    (by simp [Finset.sum_const, hn'.ne']) (fun k _ => Set.mem_Ici.2 (frac_mem f cases hne k).1)
  have hs := sum_catCount (K := ℝ) f n cases h
  simp only [smul_eq_mul] at hJ
  rw [← Finset.mul_sum, ← Finset.mul_sum, ← Finset.sum_div] at hJ
  have e1 : ∑ k ∈ Finset.range n, (f.catCount cases k : ℝ) = cases.length := by
    rw [← hs]; rfl
  rw [e1, div_self hN.ne', mul_one] at hJ
  have e2 : f.entropy n cases = ∑ k ∈ Finset.range n, Real.negMulLog ((f.catCount cases k : ℝ) / cases.length) := by
    rw [entropy_eq]; rfl
  rw [e2]
  have e3 : Real.negMulLog (1 / (n : ℝ)) = 1 / n * Real.log n := by
    unfold Real.negMulLog
    rw [one_div, Real.log_inv]
    ring
  rw [e3] at hJ
  exact le_of_mul_le_mul_left hJ (by positivity)

/-! ## Weights and costs -/

theorem zipIdx_range {α : Type} (g : Nat → α) (n : Nat) :
    ((List.range n).map g).zipIdx = (List.range n).map fun k => (g k, k) := by
  apply List.ext_getElem?
  intro j
  rw [List.getElem?_zipIdx, List.getElem?_map, List.getElem?_map]
  by_cases hj : j < n
  · rw [List.getElem?_range hj]
    simp
  · have : (List.range n)[j]? = none := List.getElem?_eq_none (by simpa using hj)
    rw [this]
    rfl

theorem zip_counts {α : Type} (f : CatFeature) (n : Nat) (w : Nat → α) (cases : List Nat) :
    (f.counts n cases).zip ((List.range n).map w) = (List.range n).map fun k => ((f.catCount cases k : Int), w k) := by
  unfold CatFeature.counts
  rw [List.zip_map']

theorem weightOf_nonneg (f : CatFeature) {w : Nat → K} (hw : ∀ k, 0 ≤ w k) (cases : List Nat) (k : Nat) :
    0 ≤ f.weightOf w cases k := by
  rw [weightOf_eq]
  exact mul_nonneg (Nat.cast_nonneg _) (hw k)

theorem weightOf_zero (f : CatFeature) (n : Nat) (w : Nat → K) (cases : List Nat) (h : f.InRange n cases) (k : Nat)
    (hk : n ≤ k) : f.weightOf w cases k = 0 := by
  rw [weightOf_eq]
  have : f.catCount cases k = 0 := by
    unfold CatFeature.catCount
    rw [List.countP_eq_zero]
    intro c hc
    obtain ⟨j, hj, hlt⟩ := h c hc
    rw [hj]
    simp only [beq_iff_eq, Option.some.injEq]
    omega
  rw [this]
  simp

/-- The category of largest weight, as the targets find it. -/
theorem heaviest (f : CatFeature) (n : Nat) {w : Nat → K} (hw : ∀ k, 0 ≤ w k) (cases : List Nat)
    (h : f.InRange n cases) (hne : cases ≠ []) :
    argmaxX (weighted (finList n w) (f.counts n cases)) 0 0 (.fin 0) < n ∧
      ∀ k, f.weightOf w cases k ≤
        f.weightOf w cases (argmaxX (weighted (finList n w) (f.counts n cases)) 0 0 (.fin 0)) := by
  have hn : 0 < n := by
    obtain ⟨c, hc⟩ := List.exists_mem_of_ne_nil _ hne
    obtain ⟨k, -, hk⟩ := h c hc
    omega
  rw [weighted_eq]
  obtain ⟨h1, h2⟩ := argmaxX_range n (f.weightOf w cases) fun k _ => weightOf_nonneg f hw cases k
  refine ⟨h1 hn, fun k => ?_⟩
  by_cases hk : k < n
  · exact h2 k hk
  · rw [weightOf_zero f n w cases h k (not_lt.1 hk)]
    exact weightOf_nonneg f hw cases _

theorem CatFeature.InRange.get {f : CatFeature} {n : Nat} {cases : List Nat} (h : f.InRange n cases) :
    ∀ c ∈ cases, ∃ k, f.catData[c]? = some k := fun c hc => (h c hc).imp fun _ hk => hk.1

theorem sum_others (n m : Nat) (g : Nat → K) (hm : m < n) :
    ((List.range n).map fun k => if k ≠ m then g k else 0).sum = ((List.range n).map g).sum - g m := by
  have key : ∀ l : List Nat, l.Nodup → (l.map fun k => if k ≠ m then g k else 0).sum =
      (l.map g).sum - if m ∈ l then g m else 0 := by
    intro l
    induction l with
    | nil => simp
    | cons x xs ih =>
      intro hd
      rw [List.nodup_cons] at hd
      rw [List.map_cons, List.sum_cons, ih hd.2, List.map_cons, List.sum_cons]
      by_cases hx : x = m
      · subst hx
        simp [hd.1]
      · have : m ∈ x :: xs ↔ m ∈ xs := by
          rw [List.mem_cons]
          exact or_iff_right fun e => hx e.symm
        simp only [this, ne_eq, hx, not_false_eq_true, if_true]
        ring
  rw [key _ List.nodup_range, if_pos (List.mem_range.2 hm)]

theorem sum_weightOf (f : CatFeature) (n : Nat) (w : Nat → K) (cases : List Nat) (h : f.InRange n cases) :
    ((List.range n).map (f.weightOf w cases)).sum = (cases.map fun c => w (f.cat c)).sum := by
  have := sum_count_weight f n cases h w
  rw [← (List.map_congr_left fun k _ => weightOf_eq f w cases k :
    (List.range n).map (f.weightOf w cases) = (List.range n).map fun k => (f.catCount cases k : K) * w k)] at this
  exact this

/-- The regret of a set of cases: half of the average cost of the best prediction. -/
theorem regretFromCounts_eq (f : CatFeature) (n : Nat) {w : Nat → K} (hw : ∀ k, 0 ≤ w k) (cases : List Nat)
    (h : f.InRange n cases) (hne : cases ≠ []) :
    ∃ p, (∀ q, f.costOf w cases p ≤ f.costOf w cases q) ∧
      regretFromCounts (finList n w) cases.length (f.counts n cases) =
        .fin (f.costOf w cases p / (2 * cases.length)) := by
  obtain ⟨hm, hmax⟩ := heaviest f n hw cases h hne
  unfold regretFromCounts
  obtain ⟨p, hp⟩ : ∃ p, p = argmaxX (weighted (finList n w) (f.counts n cases)) 0 0 (.fin 0) := ⟨_, rfl⟩
  rw [← hp] at hm hmax ⊢
  refine ⟨p, fun q => ?_, ?_⟩
  · rw [costOf_eq f w cases p h.get, costOf_eq f w cases q h.get]
    linarith [hmax q]
  have hN := length_pos' (K := K) hne
  have key : ∀ (l : List Nat) (t : Int) (e : K), (l.map fun k => (((f.catCount cases k : Int), XF.fin (w k)), k)).foldl
      (fun (acc : Int × XF K) (vc : (Int × XF K) × Nat) =>
        (acc.1 + vc.1.1, if vc.2 ≠ p then acc.2 + vc.1.2 * .ofInt vc.1.1 else acc.2)) (t, .fin e) =
      (t + (l.map fun k => (f.catCount cases k : Int)).sum,
        .fin (e + (l.map fun k => if k ≠ p then f.weightOf w cases k else 0).sum)) := by
    intro l
    induction l with
    | nil => intro t e; simp
    | cons k ks ih =>
      intro t e
      rw [List.map_cons, List.foldl_cons]
      by_cases hk : k = p
      · rw [if_neg (not_not.2 hk)]
        refine (ih _ _).trans ?_
        simp [hk, add_assoc]
      · rw [if_pos hk]
        refine (ih _ (e + w k * ((f.catCount cases k : Int) : K))).trans ?_
        simp only [List.map_cons, List.sum_cons, ne_eq, hk, not_false_eq_true, if_true, Prod.mk.injEq, XF.fin.injEq]
        refine ⟨by ring, ?_⟩
        rw [weightOf_eq]
        push_cast
        ring
  have hfold := key (List.range n) cases.length 0
  have hcnt : ((List.range n).map fun k => (f.catCount cases k : Int)).sum = cases.length := by
    have := sum_catCount (K := ℚ) f n cases h
    have e : (((List.range n).map fun k => (f.catCount cases k : Int)).sum : ℚ) =
        ((List.range n).map fun k => (f.catCount cases k : ℚ)).sum := by
      generalize List.range n = l
      induction l with
      | nil => simp
      | cons x xs ih => rw [List.map_cons, List.sum_cons, Int.cast_add, ih]; simp
    have h' := e.trans this
    exact_mod_cast h'
  have hz : ((f.counts n cases).zip (finList n w)).zipIdx =
      (List.range n).map fun k => (((f.catCount cases k : Int), XF.fin (w k)), k) := by
    unfold finList
    rw [zip_counts, zipIdx_range]
  simp only [hz, hfold, hcnt, zero_add]
  unfold XF.ofInt
  rw [XF.fin_div _ (by push_cast; linarith), sum_others n p _ hm, costOf_eq f w cases p h.get, sum_weightOf f n w cases h]
  congr 2
  · push_cast; ring

theorem wrfFromCounts_eq (f : CatFeature) (n : Nat) (w : Nat → K) (cases : List Nat) (h : f.InRange n cases)
    (hpos : (cases.map fun c => w (f.cat c)).sum ≠ 0) (t : Nat) :
    wrfFromCounts (finList n w) t (f.counts n cases) = .fin (f.weightedGini n w cases) := by
  have key : ∀ (l : List Nat) (t e : K), (l.map fun k => ((f.catCount cases k : Int), XF.fin (w k))).foldl
      (fun (acc : XF K × XF K) (vw : Int × XF K) =>
        (acc.1 + .ofInt vw.1 * vw.2, acc.2 - .ofInt (vw.1 * vw.1) * vw.2 * vw.2)) (.fin t, .fin e) =
      (.fin (t + (l.map (f.weightOf w cases)).sum), .fin (e - (l.map fun k => f.weightOf w cases k ^ 2).sum)) := by
    intro l
    induction l with
    | nil => intro t e; simp
    | cons k ks ih =>
      intro t e
      rw [List.map_cons, List.foldl_cons]
      have hst : (XF.fin e - XF.ofInt ((f.catCount cases k : Int) * (f.catCount cases k : Int)) * .fin (w k) * .fin (w k)
          : XF K) = .fin (e - ((((f.catCount cases k : Int) * (f.catCount cases k : Int) : Int) : K) * w k * w k)) := by
        unfold XF.ofInt
        rw [XF.fin_mul, XF.fin_mul, XF.fin_sub]
      dsimp only
      rw [hst]
      refine (ih (t + ((f.catCount cases k : Int) : K) * w k)
        (e - ((((f.catCount cases k : Int) * (f.catCount cases k : Int) : Int) : K) * w k * w k))).trans ?_
      simp only [List.map_cons, List.sum_cons, weightOf_eq, Prod.mk.injEq, XF.fin.injEq]
      push_cast
      constructor <;> ring
  have hz : (f.counts n cases).zip (finList n w) = (List.range n).map fun k => ((f.catCount cases k : Int), XF.fin (w k)) :=
    zip_counts f n _ cases
  unfold wrfFromCounts
  rw [hz, key]
  simp only [zero_add, zero_sub]
  rw [XF.fin_mul, sum_weightOf f n w cases h, XF.fin_div _ (mul_ne_zero hpos hpos), XF.fin_add]
  unfold CatFeature.weightedGini
  congr 1
  have : ((List.range n).map fun k => (f.weightOf w cases k / (cases.map fun c => w (f.cat c)).sum) ^ 2) =
      (List.range n).map fun k => f.weightOf w cases k ^ 2 / (cases.map fun c => w (f.cat c)).sum ^ 2 :=
    List.map_congr_left fun k _ => div_pow _ _ _
  rw [this, sum_map_div]
  ring

end CloudForest
