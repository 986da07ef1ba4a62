import Verif.Spec.Regression
import Verif.Lemmas.Values
import Verif.Lemmas.Impurity
import Verif.Lemmas.Targets
import Mathlib.Algebra.Order.BigOperators.Group.List
import Mathlib.Algebra.Order.Group.Abs

/-!
# Lemmas for regression targets
-/

set_option linter.unusedSectionVars false

namespace CloudForest
variable {K : Type} [Field K] [LinearOrder K] [IsStrictOrderedRing K]

/-- A target that works everything out anew measures impurity consistently if its impurity is a function of the set
of cases. -/
def anewLaws (imp : List Nat → Option (XF K)) (cases : List Nat) (I : List Nat → XF K)
    (hI : ∀ cs, (∀ c ∈ cs, c ∈ cases) → imp cs = some (I cs)) (hp : ∀ l l' : List Nat, l.Perm l' → I l = I l') :
    TargetLaws (anewTarget imp) cases where
  I := I
  S l r := wavg l.length r.length (I l) (I r)
  Ok _ := True
  Tracks _ l r := ∀ c ∈ l ++ r, c ∈ cases
  tracks_ok _ _ _ _ := trivial
  I_perm := hp
  S_perm l l' r r' hl hr := by rw [hl.length_eq, hr.length_eq, hp _ _ hl, hp _ _ hr]
  S_comm l r := wavg_comm _ _ _ _
  impurity := by
    intro a cs _ h
    refine ⟨a, ?_, trivial⟩
    show (imp cs).map _ = _
    rw [hI cs h]
    rfl
  split := by
    intro a l r _ h
    refine ⟨a, ?_, h⟩
    show (anewSplit imp l r none).map _ = _
    unfold anewSplit
    rw [hI l fun c hc => h c (List.mem_append_left _ hc), hI r fun c hc => h c (List.mem_append_right _ hc)]
    rfl
  update := by
    intro a l r l' r' mv _ h hl hr
    have hl' : ∀ c ∈ l', c ∈ cases := by
      intro c hc
      rcases List.mem_append.1 (hl.mem_iff.1 hc) with h1 | h1
      · exact h c (List.mem_append_left _ h1)
      · exact h c (List.mem_append_right _ (hr.mem_iff.2 (List.mem_append_left _ h1)))
    have hr' : ∀ c ∈ r', c ∈ cases := fun c hc =>
      h c (List.mem_append_right _ (hr.mem_iff.2 (List.mem_append_right _ hc)))
    refine ⟨a, ?_, ?_⟩
    · show (anewSplit imp l' r' none).map _ = _
      unfold anewSplit
      rw [hI l' hl', hI r' hr']
      rfl
    · intro c hc
      rcases List.mem_append.1 hc with h1 | h1
      · exact hl' c h1
      · exact hr' c h1

/-- A loop over finite values. -/
theorem foldlM_values (f : NumFeature K) (l : List Nat) (hfin : f.Finite l) (g : K → K) (G : XF K → XF K)
    (hG : ∀ x, G (.fin x) = .fin (g x)) (s : K) (n : Nat) :
    l.foldlM (fun (acc : XF K × Nat) i => do
      let x ← f.numData[i]?
      some (acc.1 + G x, acc.2 + 1)) (.fin s, n) =
      some (.fin (s + (l.map fun c => g (f.value c)).sum), n + l.length) := by
  induction l generalizing s n with
  | nil => simp
  | cons c cs ih =>
    obtain ⟨x, hx⟩ := hfin c (by simp)
    have hv : f.value c = x := by unfold NumFeature.value; rw [hx]
    rw [List.foldlM_cons, hx]
    simp only [Option.bind_eq_bind, Option.bind_some, hG]
    have : (XF.fin s + XF.fin (g x) : XF K) = .fin (s + g x) := rfl
    rw [this]
    refine (ih (fun y hy => hfin y (by simp [hy])) _ _).trans ?_
    rw [List.map_cons, List.sum_cons, hv, List.length_cons, add_assoc]
    rw [Nat.add_assoc, Nat.add_comm 1]

theorem XF.fin_sub_abs (p x : K) : (XF.fin p - XF.fin x : XF K).abs = .fin |x - p| := by
  rw [XF.fin_sub, abs_sub_comm]
  rfl

theorem l1Error_eq (f : NumFeature K) (cases : List Nat) (h : ∀ c ∈ cases, c < f.missing.length)
    (hfin : f.Finite (knownOf f.missing cases)) (hne : knownOf f.missing cases ≠ []) (p : K) :
    f.l1Error cases (.fin p) = some (.fin (f.absError p (knownOf f.missing cases))) := by
  unfold NumFeature.l1Error
  rw [foldlM_known f.missing (fun (acc : XF K × Nat) i => do
      let x ← f.numData[i]?
      some (acc.1 + (.fin p - x).abs, acc.2 + 1)) cases h,
    foldlM_values f _ hfin (fun x => |x - p|) (fun x => (.fin p - x).abs) (XF.fin_sub_abs p)]
  simp only [Option.bind_eq_bind, Option.bind_some, zero_add, Nat.zero_add, XF.ofNat]
  rw [XF.fin_div]
  · rfl
  · exact Nat.cast_ne_zero.2 (by simpa using hne)

theorem error_eq (f : NumFeature K) (cases : List Nat) (h : ∀ c ∈ cases, c < f.missing.length)
    (hfin : f.Finite (knownOf f.missing cases)) (hne : knownOf f.missing cases ≠ []) (p : K) :
    f.error cases (.fin p) = some (.fin (f.sqError p (knownOf f.missing cases))) := by
  unfold NumFeature.error
  rw [foldlM_known f.missing (fun (acc : XF K × Nat) i => do
      let x ← f.numData[i]?
      some (acc.1 + (.fin p - x) * (.fin p - x), acc.2 + 1)) cases h,
    foldlM_values f _ hfin (fun x => (x - p) ^ 2) (fun x => (.fin p - x) * (.fin p - x)) (fun x => by
      rw [XF.fin_sub]
      show XF.fin _ = _
      congr 1
      ring)]
  simp only [Option.bind_eq_bind, Option.bind_some, zero_add, Nat.zero_add, XF.ofNat]
  rw [XF.fin_div]
  · rfl
  · exact Nat.cast_ne_zero.2 (by simpa using hne)

/-- Without known cases the mean is not a number, and neither is any error. -/
theorem mean_nan (f : NumFeature K) (cases : List Nat) (h : ∀ c ∈ cases, c < f.missing.length)
    (hne : knownOf f.missing cases = []) : f.mean cases = some .nan := by
  unfold NumFeature.mean
  rw [foldlM_known f.missing (fun (acc : XF K × Nat) i => do
      let x ← f.numData[i]?
      some (acc.1 + x, acc.2 + 1)) cases h, hne]
  simp only [List.foldlM_nil, Option.bind_eq_bind, pure, Option.bind_some]
  show some (XF.div _ _) = _
  simp [XF.div, XF.ofNat, XF.infTimes]

theorem l1Error_nan (f : NumFeature K) (cases : List Nat) (h : ∀ c ∈ cases, c < f.missing.length)
    (hne : knownOf f.missing cases = []) (p : XF K) : f.l1Error cases p = some .nan := by
  unfold NumFeature.l1Error
  rw [foldlM_known f.missing (fun (acc : XF K × Nat) i => do
      let x ← f.numData[i]?
      some (acc.1 + (p - x).abs, acc.2 + 1)) cases h, hne]
  simp only [List.foldlM_nil, Option.bind_eq_bind, pure, Option.bind_some]
  show some (XF.div _ _) = _
  simp [XF.div, XF.ofNat, XF.infTimes]

theorem error_nan (f : NumFeature K) (cases : List Nat) (h : ∀ c ∈ cases, c < f.missing.length)
    (hne : knownOf f.missing cases = []) (p : XF K) : f.error cases p = some .nan := by
  unfold NumFeature.error
  rw [foldlM_known f.missing (fun (acc : XF K × Nat) i => do
      let x ← f.numData[i]?
      some (acc.1 + (p - x) * (p - x), acc.2 + 1)) cases h, hne]
  simp only [List.foldlM_nil, Option.bind_eq_bind, pure, Option.bind_some]
  show some (XF.div _ _) = _
  simp [XF.div, XF.ofNat, XF.infTimes]

theorem l1Impurity_eq (f : NumFeature K) (cases : List Nat) (h : ∀ c ∈ cases, c < f.missing.length)
    (hl : f.numData.length = f.missing.length) (hfin : f.Finite (knownOf f.missing cases))
    (hne : knownOf f.missing cases ≠ []) :
    f.l1Impurity cases =
      some (.fin (f.absError (f.meanOf (knownOf f.missing cases)) (knownOf f.missing cases))) := by
  unfold NumFeature.l1Impurity
  rw [mean_eq f cases h hl hfin hne]
  exact l1Error_eq f cases h hfin hne _

theorem absError_perm (f : NumFeature K) (p : K) {l l' : List Nat} (h : l.Perm l') :
    f.absError p l = f.absError p l' := by
  unfold NumFeature.absError
  rw [h.length_eq, (h.map _).sum_eq]

theorem sqError_perm (f : NumFeature K) (p : K) {l l' : List Nat} (h : l.Perm l') :
    f.sqError p l = f.sqError p l' := by
  unfold NumFeature.sqError
  rw [h.length_eq, (h.map _).sum_eq]

theorem meanOf_perm (f : NumFeature K) {l l' : List Nat} (h : l.Perm l') : f.meanOf l = f.meanOf l' := by
  unfold NumFeature.meanOf
  rw [h.length_eq, (h.map _).sum_eq]

/-- The mean is at most twice as far from the numbers, in total, as any other number. -/
theorem abs_mean_le (l : List K) (hl : l ≠ []) (c : K) :
    (l.map fun x => |x - l.sum / (l.length : K)|).sum ≤ 2 * (l.map fun x => |x - c|).sum := by
  obtain ⟨n, hn⟩ : ∃ n : K, n = (l.length : K) := ⟨_, rfl⟩
  have hpos : 0 < n := by rw [hn]; exact Nat.cast_pos.2 (List.length_pos_of_ne_nil hl)
  obtain ⟨μ, hμ⟩ : ∃ μ : K, μ = l.sum / n := ⟨_, rfl⟩
  rw [← hn, ← hμ]
  have h1 : ∀ l : List K, (l.map fun x => |x - μ|).sum ≤ (l.map fun x => |x - c|).sum + (l.length : K) * |c - μ| := by
    intro l
    induction l with
    | nil => simp
    | cons x xs ih =>
      have : |x - μ| ≤ |x - c| + |c - μ| := abs_sub_le x c μ
      simp only [List.map_cons, List.sum_cons, List.length_cons, Nat.cast_add, Nat.cast_one]
      linarith [add_mul (xs.length : K) 1 |c - μ|]
  have h2 : ∀ l : List K, |l.sum - (l.length : K) * c| ≤ (l.map fun x => |x - c|).sum := by
    intro l
    induction l with
    | nil => simp
    | cons x xs ih =>
      simp only [List.map_cons, List.sum_cons, List.length_cons, Nat.cast_add, Nat.cast_one]
      have : x + xs.sum - ((xs.length : K) + 1) * c = (x - c) + (xs.sum - (xs.length : K) * c) := by ring
      rw [this]
      exact (abs_add_le _ _).trans (by linarith)
  have h3 : n * |c - μ| = |l.sum - n * c| := by
    have : l.sum - n * c = -(n * (c - μ)) := by
      rw [hμ]
      field_simp
      ring
    rw [this, abs_neg, abs_mul, abs_of_pos hpos]
  have h4 := h1 l
  have h5 := h2 l
  rw [← hn] at h4 h5
  linarith

theorem absError_mean_le (f : NumFeature K) (cases : List Nat) (hne : cases ≠ []) (p : K) :
    f.absError (f.meanOf cases) cases ≤ 2 * f.absError p cases := by
  have h := abs_mean_le (cases.map f.value) (by simpa using hne) p
  have hpos : (0 : K) < (cases.length : K) := Nat.cast_pos.2 (List.length_pos_of_ne_nil hne)
  rw [List.map_map, List.map_map, List.length_map] at h
  unfold NumFeature.absError NumFeature.meanOf
  rw [← mul_div_assoc]
  exact div_le_div_of_nonneg_right h hpos.le

theorem absError_nonneg (f : NumFeature K) (p : K) (cases : List Nat) : 0 ≤ f.absError p cases := by
  unfold NumFeature.absError
  refine div_nonneg (List.sum_nonneg ?_) (Nat.cast_nonneg _)
  intro x hx
  obtain ⟨c, _, rfl⟩ := List.mem_map.1 hx
  exact abs_nonneg _

theorem sum_abs_zero (l : List K) (p : K) : (l.map fun x => |x - p|).sum = 0 ↔ ∀ x ∈ l, x = p := by
  induction l with
  | nil => simp
  | cons x xs ih =>
    have h1 : 0 ≤ (xs.map fun x => |x - p|).sum := List.sum_nonneg (by
      intro y hy
      obtain ⟨c, _, rfl⟩ := List.mem_map.1 hy
      exact abs_nonneg _)
    rw [List.map_cons, List.sum_cons, add_eq_zero_iff_of_nonneg (abs_nonneg _) h1, ih, abs_eq_zero, sub_eq_zero]
    simp

theorem absError_zero (f : NumFeature K) (p : K) (cases : List Nat) (hne : cases ≠ []) :
    f.absError p cases = 0 ↔ ∀ c ∈ cases, f.value c = p := by
  have hpos : (0 : K) < (cases.length : K) := Nat.cast_pos.2 (List.length_pos_of_ne_nil hne)
  have := sum_abs_zero (cases.map f.value) p
  rw [List.map_map] at this
  unfold NumFeature.absError
  rw [div_eq_zero_iff, or_iff_left hpos.ne']
  refine this.trans ?_
  simp

theorem meanOf_const (f : NumFeature K) (cases : List Nat) (hne : cases ≠ []) (x : K)
    (h : ∀ c ∈ cases, f.value c = x) : f.meanOf cases = x := by
  have hpos : (0 : K) < (cases.length : K) := Nat.cast_pos.2 (List.length_pos_of_ne_nil hne)
  unfold NumFeature.meanOf
  rw [List.map_congr_left h, List.map_const', List.sum_replicate, nsmul_eq_mul]
  field_simp

/-- The absolute-error target measures impurity consistently. -/
def l1Laws (f : NumFeature K) (cases : List Nat) (h : ∀ c ∈ cases, c < f.missing.length)
    (hl : f.numData.length = f.missing.length) (hfin : f.Finite (knownOf f.missing cases)) :
    TargetLaws (l1Target f) cases :=
  anewLaws f.l1Impurity cases
    (fun cs => if knownOf f.missing cs = [] then .nan
      else .fin (f.absError (f.meanOf (knownOf f.missing cs)) (knownOf f.missing cs)))
    (by
      intro cs hcs
      have hc : ∀ c ∈ cs, c < f.missing.length := fun c hc => h c (hcs c hc)
      by_cases hne : knownOf f.missing cs = []
      · rw [if_pos hne]
        unfold NumFeature.l1Impurity
        rw [mean_nan f cs hc hne]
        exact l1Error_nan f cs hc hne _
      · rw [if_neg hne]
        refine l1Impurity_eq f cs hc hl (fun c hm => hfin c ?_) hne
        have := mem_knownOf.1 hm
        exact mem_knownOf.2 ⟨hcs c this.1, this.2⟩)
    (by
      intro l l' hp
      have hk : (knownOf f.missing l).Perm (knownOf f.missing l') := hp.filter _
      by_cases hne : knownOf f.missing l = []
      · rw [if_pos hne, if_pos (by rw [hne] at hk; exact hk.symm.eq_nil)]
      · rw [if_neg hne, if_neg (fun h0 => hne (by rw [h0] at hk; exact hk.eq_nil)),
          meanOf_perm f hk, absError_perm f _ hk])

theorem knownOf_self {missing : List Bool} {cases : List Nat} (h : ∀ c ∈ cases, missing[c]? = some false) :
    knownOf missing cases = cases := by
  unfold knownOf
  rw [List.filter_eq_self]
  intro c hc
  simp [h c hc]

theorem wavg_fin_eq {nl nr : Nat} (h : nl + nr ≠ 0) (x y : K) :
    wavg nl nr (.fin x) (.fin y) = .fin (((nl : K) * x + (nr : K) * y) / ((nl : K) + (nr : K))) := by
  unfold wavg XF.ofNat
  have h1 : (XF.fin (nl : K) + XF.fin (nr : K) + XF.fin 0 : XF K) = .fin ((nl : K) + (nr : K)) := by
    show XF.fin _ = _
    rw [add_zero]
  rw [h1]
  have h2 : (XF.fin (nl : K) * XF.fin x + XF.fin (nr : K) * XF.fin y : XF K) = .fin ((nl : K) * x + (nr : K) * y) :=
    rfl
  rw [h2, XF.fin_div]
  exact_mod_cast h

/-! ## Ordinal regression -/

theorem newOrdinal_eq (trunc : XF K → Int) (ht : KeepsWhole trunc) (f : NumFeature K) (hw : f.Whole) :
    ∃ N : Nat, newOrdinal trunc f = some ⟨f, (N : Int)⟩ ∧
      ∀ i k : Nat, i < f.missing.length → f.numData[i]? = some (.fin (k : K)) → k < N := by
  have key : ∀ (l : List Nat) (m : Nat), (∀ i ∈ l, i < f.missing.length) →
      ∃ M : Nat, m ≤ M ∧ l.foldlM (fun (max : XF K) i => do
        let v ← f.numData[i]?
        some (if max < v then v else max)) (.fin (m : K)) = some (.fin (M : K)) ∧
        ∀ i ∈ l, ∀ k : Nat, f.numData[i]? = some (.fin (k : K)) → k ≤ M := by
    intro l
    induction l with
    | nil => intro m _; exact ⟨m, le_rfl, rfl, by simp⟩
    | cons i is ih =>
      intro m h
      obtain ⟨k, hk⟩ := hw i (h i (by simp))
      rw [List.foldlM_cons, hk]
      simp only [Option.bind_eq_bind, Option.bind_some]
      by_cases hlt : m < k
      · rw [if_pos (by rw [XF.fin_lt]; exact_mod_cast hlt)]
        obtain ⟨M, h1, h2, h3⟩ := ih k fun x hx => h x (by simp [hx])
        refine ⟨M, by omega, h2, ?_⟩
        intro j hj k' hk'
        rcases List.mem_cons.1 hj with rfl | hj
        · rw [hk] at hk'
          have : k = k' := by
            have := XF.fin.inj (Option.some.inj hk')
            exact_mod_cast this
          omega
        · exact h3 j hj k' hk'
      · rw [if_neg (by rw [XF.fin_lt]; exact_mod_cast hlt)]
        obtain ⟨M, h1, h2, h3⟩ := ih m fun x hx => h x (by simp [hx])
        refine ⟨M, h1, h2, ?_⟩
        intro j hj k' hk'
        rcases List.mem_cons.1 hj with rfl | hj
        · rw [hk] at hk'
          have : k = k' := by
            have := XF.fin.inj (Option.some.inj hk')
            exact_mod_cast this
          omega
        · exact h3 j hj k' hk'
  obtain ⟨M, _, h2, h3⟩ := key (List.range f.missing.length) 0 fun i hi => List.mem_range.1 hi
  refine ⟨M + 1, ?_, ?_⟩
  · unfold newOrdinal
    have h0 : (XF.fin ((0 : Nat) : K) : XF K) = .fin 0 := by simp
    rw [h0] at h2
    rw [h2]
    simp only [Option.bind_eq_bind, Option.bind_some, ht M]
    rfl
  · intro i k hi hk
    have := h3 i (List.mem_range.2 hi) k hk
    omega

/-- The counts of whole values. -/
theorem bump_whole (f : NumFeature K) (trunc : XF K → Int) (ht : KeepsWhole trunc) (N : Nat) (l : List Nat)
    (h : ∀ i ∈ l, ∃ k : Nat, k < N ∧ f.numData[i]? = some (.fin (k : K))) (c : Nat → Nat) :
    l.foldlM (fun (acc : List Int) i => do
      let x ← f.numData[i]?
      if trunc x < 0 then none else bump acc (trunc x).toNat 1) ((List.range N).map fun k => ((c k : Nat) : Int)) =
      some ((List.range N).map fun k => ((c k + f.valueCount l (k : K) : Nat) : Int)) := by
  induction l generalizing c with
  | nil => simp [NumFeature.valueCount]
  | cons i is ih =>
    obtain ⟨k, hk, hx⟩ := h i (by simp)
    rw [List.foldlM_cons, hx]
    have hv : f.value i = (k : K) := by unfold NumFeature.value; rw [hx]
    have h0 : ¬ ((k : Int) < 0) := by omega
    simp only [Option.bind_eq_bind, Option.bind_some, ht k, if_neg h0, Int.toNat_natCast]
    have hb : bump ((List.range N).map fun k => ((c k : Nat) : Int)) k 1 =
        some ((List.range N).map fun j => ((Function.update c k (c k + 1) j : Nat) : Int)) := by
      unfold bump
      simp only [List.getElem?_map, List.getElem?_range hk, Option.map_some, Option.bind_eq_bind, Option.bind_some]
      congr 1
      apply List.ext_getElem?
      intro j
      rw [List.getElem?_set]
      by_cases hj : k = j
      · subst hj
        simp [hk]
      · rw [if_neg hj, List.getElem?_map, List.getElem?_map]
        by_cases hjn : j < N
        · rw [List.getElem?_range hjn]
          simp [Function.update_of_ne (Ne.symm hj)]
        · rw [List.getElem?_eq_none (by simp; omega)]
          rfl
    rw [hb]
    refine (ih (fun x hx => h x (by simp [hx])) _).trans ?_
    congr 1
    apply List.map_congr_left
    intro j _
    congr 1
    unfold NumFeature.valueCount
    rw [List.countP_cons, hv]
    by_cases hj : j = k
    · subst hj; simp; omega
    · rw [Function.update_of_ne hj]
      have : ¬ ((k : K) = (j : K)) := by
        intro e
        exact hj (by exact_mod_cast e.symm)
      simp [this]

theorem mode_eq (trunc : XF K → Int) (ht : KeepsWhole trunc) (f : NumFeature K) (hw : f.Whole) (cases : List Nat)
    (h : ∀ c ∈ cases, c < f.missing.length) :
    ∃ (o : Ordinal K) (m : Nat), newOrdinal trunc f = some o ∧ o.f = f ∧ o.mode trunc cases = some (.fin (m : K)) ∧
      (∀ x : K, f.valueCount (knownOf f.missing cases) x ≤ f.valueCount (knownOf f.missing cases) (m : K)) := by
  obtain ⟨N, h1, h2⟩ := newOrdinal_eq trunc ht f hw
  have hknown : ∀ i ∈ knownOf f.missing cases, ∃ k : Nat, k < N ∧ f.numData[i]? = some (.fin (k : K)) := by
    intro i hi
    have hlt := h i (mem_knownOf.1 hi).1
    obtain ⟨k, hk⟩ := hw i hlt
    exact ⟨k, h2 i k hlt hk, hk⟩
  obtain ⟨counts, hcounts⟩ : ∃ cs : List Int, cs =
    (List.range N).map fun k : Nat => ((f.valueCount (knownOf f.missing cases) (k : K) : Nat) : Int) := ⟨_, rfl⟩
  have hmode : Ordinal.mode trunc ⟨f, (N : Int)⟩ cases = some (.ofNat (argmax counts 0 0 0)) := by
    unfold Ordinal.mode
    have h0 : ¬ ((N : Int) < 0) := by omega
    rw [if_neg h0]
    rw [foldlM_known f.missing (fun (acc : List Int) i => do
      let x ← f.numData[i]?
      if trunc x < 0 then none else bump acc (trunc x).toNat 1) cases h]
    have := bump_whole f trunc ht N _ hknown (fun _ => 0)
    simp only [Nat.zero_add, Nat.cast_zero] at this
    rw [Int.toNat_natCast, ← List.length_range (n := N), ← List.map_const', this, ← hcounts]
    rfl
  refine ⟨_, argmax counts 0 0 0, h1, rfl, hmode, ?_⟩
  have hzero : ∀ x : K, (∀ k : Nat, k < N → x ≠ (k : K)) → f.valueCount (knownOf f.missing cases) x = 0 := by
    intro x hx
    unfold NumFeature.valueCount
    rw [List.countP_eq_zero]
    intro c hc
    obtain ⟨k, hk, hd⟩ := hknown c hc
    have hv : f.value c = (k : K) := by unfold NumFeature.value; rw [hd]
    simp only [hv, decide_eq_true_eq]
    exact fun e => hx k hk e.symm
  obtain ⟨M, m1, m2, m3⟩ := argmax_spec counts 0 0 0
  have hle : ∀ x : K, (f.valueCount (knownOf f.missing cases) x : Int) ≤ M := by
    intro x
    by_cases hx : ∃ k : Nat, k < N ∧ x = (k : K)
    · obtain ⟨k, hk, rfl⟩ := hx
      apply m2
      rw [hcounts]
      exact List.mem_map.2 ⟨k, List.mem_range.2 hk, rfl⟩
    · push Not at hx
      rw [hzero x hx]
      exact m1
  rcases m3 with ⟨_, m4⟩ | ⟨j, m3, m4, _⟩
  · intro x
    have := hle x
    omega
  · intro x
    rw [m4, Nat.zero_add]
    have hj : j < N := by
      by_contra hc
      rw [hcounts, List.getElem?_eq_none (by simp; omega)] at m3
      cases m3
    rw [hcounts, List.getElem?_map, List.getElem?_range hj] at m3
    have hM := Option.some.inj m3
    have := hle x
    simp only at hM
    omega

end CloudForest
