import Verif.Lemmas.Regression
import Verif.Lemmas.AdaBoost

/-!
# Lemmas for adaptive boosting of regression
-/

set_option linter.unusedSectionVars false

namespace CloudForest
variable {K : Type} [Field K] [LinearOrder K] [IsStrictOrderedRing K]

theorem numAdaImp_eq (f : NumFeature K) (norm : XF K) (w : Nat → K) (cases : List Nat)
    (h : ∀ c ∈ cases, c < f.missing.length) (hl : f.numData.length = f.missing.length)
    (hfin : f.Finite (knownOf f.missing cases)) :
    NumAda.impurity ⟨f, finList f.missing.length w, norm⟩ cases =
      some (.fin ((knownOf f.missing cases).map fun c =>
        w c * |f.value c - f.meanOf (knownOf f.missing cases)|).sum) := by
  unfold NumAda.impurity
  by_cases hne : knownOf f.missing cases = []
  · obtain ⟨m, hm⟩ := mean_isSome f cases h hl
    simp only [hm, Option.bind_eq_bind, Option.bind_some]
    have := foldlM_known f.missing (fun (e : XF K) c => do
      let w ← (finList f.missing.length w)[c]?
      let x ← f.numData[c]?
      some (e + w * (x - m).abs)) cases h (.fin 0)
    simp only [Option.bind_eq_bind] at this
    rw [this, hne]
    simp
  · simp only [mean_eq f cases h hl hfin hne, Option.bind_eq_bind, Option.bind_some]
    generalize f.meanOf (knownOf f.missing cases) = μ
    have := foldlM_known f.missing (fun (e : XF K) c => do
      let w ← (finList f.missing.length w)[c]?
      let x ← f.numData[c]?
      some (e + w * (x - .fin μ).abs)) cases h (.fin 0)
    simp only [Option.bind_eq_bind] at this
    rw [this]
    have hk : ∀ c ∈ knownOf f.missing cases, c < f.missing.length := fun c hc => h c (mem_knownOf.1 hc).1
    generalize knownOf f.missing cases = l at *
    have key : ∀ (l : List Nat) (s : K), f.Finite l → (∀ c ∈ l, c < f.missing.length) →
        l.foldlM (fun (e : XF K) c => ((finList f.missing.length w)[c]?).bind fun w =>
          (f.numData[c]?).bind fun x => some (e + w * (x - .fin μ).abs)) (.fin s) =
        some (.fin (s + (l.map fun c => w c * |f.value c - μ|).sum)) := by
      intro l
      induction l with
      | nil => intro s _ _; simp
      | cons c cs ih =>
        intro s h1 h2
        obtain ⟨x, hx⟩ := h1 c (by simp)
        have hv : f.value c = x := by unfold NumFeature.value; rw [hx]
        rw [List.foldlM_cons, finList_get w (h2 c (by simp)), hx]
        simp only [Option.bind_some, Option.bind_eq_bind]
        have e : (XF.fin s + XF.fin (w c) * (XF.fin x - XF.fin μ).abs : XF K) = .fin (s + w c * |x - μ|) := by
          rw [XF.fin_sub_abs, abs_sub_comm]
          rfl
        rw [e, ih _ (fun y hy => h1 y (by simp [hy])) (fun y hy => h2 y (by simp [hy]))]
        rw [List.map_cons, List.sum_cons, hv, add_assoc]
    rw [key l 0 hfin hk, zero_add]

/-- The factor of a case in a leaf. -/
def numAdaFac (f : NumFeature K) (E : K → K) (α W : K) (leaf : List Nat) (i : Nat) : K :=
  if i ∈ knownOf f.missing leaf then E (α * (|f.value i - f.meanOf (knownOf f.missing leaf)| - W)) else 1

/-- The product of the factors of a case over all leaves. -/
def numAdaFactor (f : NumFeature K) (E : K → K) (α W : K) (leaves : List (List Nat)) (i : Nat) : K :=
  (leaves.map fun leaf => numAdaFac f E α W leaf i).prod

theorem numAdaFac_pos (f : NumFeature K) {E : K → K} (hE : ∀ x, 0 < E x) (α W : K) (leaf : List Nat) (i : Nat) :
    0 < numAdaFac f E α W leaf i := by
  unfold numAdaFac
  by_cases h : i ∈ knownOf f.missing leaf
  · rw [if_pos h]; exact hE _
  · rw [if_neg h]; exact one_pos

theorem numAdaFactor_pos (f : NumFeature K) {E : K → K} (hE : ∀ x, 0 < E x) (α W : K) (leaves : List (List Nat))
    (i : Nat) : 0 < numAdaFactor f E α W leaves i := by
  unfold numAdaFactor
  induction leaves with
  | nil => simp
  | cons leaf ls ih =>
    rw [List.map_cons, List.prod_cons]
    exact mul_pos (numAdaFac_pos f hE α W leaf i) ih

theorem numAdaFactor_not (f : NumFeature K) (E : K → K) (α W : K) (leaves : List (List Nat)) (i : Nat)
    (h : i ∉ knownOf f.missing leaves.flatten) : numAdaFactor f E α W leaves i = 1 := by
  unfold numAdaFactor
  induction leaves with
  | nil => rfl
  | cons leaf ls ih =>
    have h1 : i ∉ knownOf f.missing leaf := fun hi => h (mem_knownOf.2 ⟨by
      rw [List.flatten_cons]; exact List.mem_append_left _ (mem_knownOf.1 hi).1, (mem_knownOf.1 hi).2⟩)
    have h2 : i ∉ knownOf f.missing ls.flatten := fun hi => h (mem_knownOf.2 ⟨by
      rw [List.flatten_cons]; exact List.mem_append_right _ (mem_knownOf.1 hi).1, (mem_knownOf.1 hi).2⟩)
    rw [List.map_cons, List.prod_cons, ih h2, numAdaFac, if_neg h1, one_mul]

theorem numAdaFactor_of_mem (f : NumFeature K) (E : K → K) (α W : K) (leaves : List (List Nat))
    (hd : leaves.flatten.Nodup) (leaf : List Nat) (hl : leaf ∈ leaves) (i : Nat) (hi : i ∈ leaf) :
    numAdaFactor f E α W leaves i = numAdaFac f E α W leaf i := by
  induction leaves with
  | nil => cases hl
  | cons x ls ih =>
    rw [List.flatten_cons, List.nodup_append] at hd
    obtain ⟨h1, h2, h3⟩ := hd
    have hcons : numAdaFactor f E α W (x :: ls) i = numAdaFac f E α W x i * numAdaFactor f E α W ls i := by
      unfold numAdaFactor
      rw [List.map_cons, List.prod_cons]
    rw [hcons]
    rcases List.mem_cons.1 hl with rfl | hl
    · rw [numAdaFactor_not f E α W ls i, mul_one]
      exact fun h => h3 i hi i (mem_knownOf.1 h).1 rfl
    · have hx : i ∉ knownOf f.missing x := fun h =>
        h3 i (mem_knownOf.1 h).1 i (List.mem_flatten.2 ⟨leaf, hl, hi⟩) rfl
      rw [ih h2 hl]
      have : numAdaFac f E α W x i = 1 := by unfold numAdaFac; rw [if_neg hx]
      rw [this, one_mul]

/-- The new weight of a known case. -/
def reweighKnown (el : ExpLog K) (t : NumAda K) (α W : K) (mean : XF K) (weights : List (XF K)) (c : Nat) :
    Option (List (XF K)) := do
  let w ← weights[c]?
  let x ← t.f.numData[c]?
  wr weights c (w * el.exp (.fin α * ((x - mean).abs - .fin W)))

theorem reweigh_eq (el : ExpLog K) {E : K → K} (hexp : ∀ x, el.exp (.fin x) = .fin (E x)) (t : NumAda K) (α W : K)
    (leaf : List Nat) (h : ∀ c ∈ leaf, c < t.f.missing.length) (hl : t.f.numData.length = t.f.missing.length)
    (hfin : t.f.Finite (knownOf t.f.missing leaf)) (hd : leaf.Nodup) (w : Nat → K) :
    (do let mean ← t.f.mean leaf
        leaf.foldlM (t.reweigh el (.fin α) (.fin W) mean) (finList t.f.missing.length w)) =
      some (finList t.f.missing.length fun i => w i * numAdaFac t.f E α W leaf i) := by
  have hun : ∀ mean ws, leaf.foldlM (t.reweigh el (.fin α) (.fin W) mean) ws =
      (knownOf t.f.missing leaf).foldlM (reweighKnown el t α W mean) ws :=
    fun mean ws => foldlM_known t.f.missing (reweighKnown el t α W mean) leaf h ws
  by_cases hne : knownOf t.f.missing leaf = []
  · obtain ⟨m, hm⟩ := mean_isSome t.f leaf h hl
    rw [hm, Option.bind_eq_bind, Option.bind_some, hun, hne]
    simp only [List.foldlM_nil, numAdaFac, hne, List.not_mem_nil, if_false, mul_one]
    rfl
  · rw [mean_eq t.f leaf h hl hfin hne, Option.bind_eq_bind, Option.bind_some, hun]
    unfold numAdaFac
    generalize t.f.meanOf (knownOf t.f.missing leaf) = μ
    have hk : ∀ c ∈ knownOf t.f.missing leaf, c < t.f.missing.length := fun c hc => h c (mem_knownOf.1 hc).1
    have hnd : (knownOf t.f.missing leaf).Nodup := hd.filter _
    generalize knownOf t.f.missing leaf = l at *
    clear hne hd h hun
    induction l generalizing w with
    | nil => simp
    | cons c cs ih =>
      obtain ⟨x, hx⟩ := hfin c (by simp)
      have hv : t.f.value c = x := by unfold NumFeature.value; rw [hx]
      have hc := hk c (by simp)
      rw [List.nodup_cons] at hnd
      rw [List.foldlM_cons]
      unfold reweighKnown at ih ⊢
      rw [finList_get w hc, hx]
      simp only [Option.bind_eq_bind, Option.bind_some] at ih ⊢
      have e : (XF.fin (w c) * el.exp (.fin α * ((XF.fin x - XF.fin μ).abs - .fin W)) : XF K) =
          .fin (w c * E (α * (|t.f.value c - μ| - W))) := by
        have : (XF.fin α * ((XF.fin x - XF.fin μ).abs - .fin W) : XF K) = .fin (α * (|x - μ| - W)) := by
          rw [XF.fin_sub_abs, XF.fin_sub, abs_sub_comm]
          rfl
        rw [this, hexp, hv]
        rfl
      rw [e]
      unfold wr
      rw [finList_length, if_pos hc, finList_set, Option.bind_some]
      refine (ih (Function.update w c (w c * E (α * (|t.f.value c - μ| - W))))
        (fun y hy => hfin y (by simp [hy])) (fun y hy => hk y (by simp [hy])) hnd.2).trans ?_
      congr 1
      apply finList_congr
      intro i _
      by_cases hi : i = c
      · subst hi
        simp [hnd.1]
      · rw [Function.update_of_ne hi]
        simp [hi]

theorem weightedAbs_cons (f : NumFeature K) (w : Nat → K) (leaf : List Nat) (ls : List (List Nat)) :
    f.weightedAbs w (leaf :: ls) = ((knownOf f.missing leaf).map fun c =>
      w c * |f.value c - f.meanOf (knownOf f.missing leaf)|).sum + f.weightedAbs w ls := by
  unfold NumFeature.weightedAbs
  rw [List.map_cons, List.sum_cons]

/-- The error of a partition as `Boost` adds it up. -/
theorem numAda_err (f : NumFeature K) (norm : XF K) (w : Nat → K) (hlen : f.numData.length = f.missing.length)
    (leaves : List (List Nat)) (h : ∀ leaf ∈ leaves, (∀ c ∈ leaf, c < f.missing.length) ∧
      f.Finite (knownOf f.missing leaf)) (s : K) :
    leaves.foldlM (fun (e : XF K) cases => do
      let i ← NumAda.impurity ⟨f, finList f.missing.length w, norm⟩ cases
      some (e + i)) (.fin s) = some (.fin (s + f.weightedAbs w leaves)) := by
  induction leaves generalizing s with
  | nil => simp [NumFeature.weightedAbs]
  | cons leaf ls ih =>
    obtain ⟨h1, h2⟩ := h leaf (by simp)
    rw [List.foldlM_cons, numAdaImp_eq f norm w leaf h1 hlen h2]
    simp only [Option.bind_eq_bind, Option.bind_some]
    have : ∀ x y : K, (XF.fin x + XF.fin y : XF K) = .fin (x + y) := fun _ _ => rfl
    rw [this]
    refine (ih (fun l hl => h l (by simp [hl])) _).trans ?_
    rw [weightedAbs_cons, add_assoc]

theorem numAda_weights (el : ExpLog K) {E : K → K} (hexp : ∀ x, el.exp (.fin x) = .fin (E x)) (t : NumAda K) (α W : K)
    (hlen : t.f.numData.length = t.f.missing.length) (leaves : List (List Nat))
    (h : ∀ leaf ∈ leaves, (∀ c ∈ leaf, c < t.f.missing.length) ∧ t.f.Finite (knownOf t.f.missing leaf) ∧ leaf.Nodup)
    (w : Nat → K) :
    leaves.foldlM (fun (ws : List (XF K)) cases => do
      let mean ← t.f.mean cases
      cases.foldlM (t.reweigh el (.fin α) (.fin W) mean) ws) (finList t.f.missing.length w) =
      some (finList t.f.missing.length fun i => w i * numAdaFactor t.f E α W leaves i) := by
  induction leaves generalizing w with
  | nil => simp [numAdaFactor]
  | cons leaf ls ih =>
    obtain ⟨h1, h2, h3⟩ := h leaf (by simp)
    rw [List.foldlM_cons, reweigh_eq el hexp t α W leaf h1 hlen h2 h3 w]
    refine (ih (fun l hl => h l (by simp [hl])) _).trans ?_
    congr 1
    apply finList_congr
    intro i _
    unfold numAdaFactor
    rw [List.map_cons, List.prod_cons, mul_assoc]

theorem leaf_nodup {leaves : List (List Nat)} (h : leaves.flatten.Nodup) (leaf : List Nat) (hl : leaf ∈ leaves) :
    leaf.Nodup := by
  induction leaves with
  | nil => cases hl
  | cons x ls ih =>
    rw [List.flatten_cons, List.nodup_append] at h
    rcases List.mem_cons.1 hl with rfl | hl
    · exact h.1
    · exact ih h.2.1 hl

/-- `NumAdaBoostTarget.Boost` in closed form. -/
theorem numAdaBoost_eq (el : ExpLog K) {E L : K → K} (law : el.Lawful E L) (f : NumFeature K)
    (hlen : f.numData.length = f.missing.length) (N : K) (w : Nat → K)
    (hw : ∀ i < f.missing.length, 0 < w i) (leaves : List (List Nat)) (hl : f.Leaves leaves)
    (hpos : 0 < f.weightedAbs w leaves) :
    NumAda.boost el ⟨f, finList f.missing.length w, .fin N⟩ leaves =
      if N < f.weightedAbs w leaves then some (⟨f, finList f.missing.length w, .fin N⟩, .fin 0)
      else
        let α := L (N / f.weightedAbs w leaves)
        some (⟨f, finList f.missing.length fun i => w i * numAdaFactor f E α (f.weightedAbs w leaves) leaves i /
          ((List.range f.missing.length).map fun i =>
            w i * numAdaFactor f E α (f.weightedAbs w leaves) leaves i).sum, .fin N⟩, .fin α) := by
  have hne : leaves.length ≠ 0 := by
    intro h0
    rw [List.length_eq_zero_iff] at h0
    subst h0
    simp [NumFeature.weightedAbs] at hpos
  have hn : f.missing.length ≠ 0 := by
    intro h0
    have : ∀ leaf ∈ leaves, leaf = [] := by
      intro leaf hlf
      rw [List.eq_nil_iff_forall_not_mem]
      intro c hc
      have := hl.cases leaf hlf c hc
      omega
    have hz : f.weightedAbs w leaves = 0 := by
      unfold NumFeature.weightedAbs
      rw [List.map_congr_left (g := fun _ => (0 : K)) (by
        intro leaf hlf
        rw [this leaf hlf]
        rfl), List.map_const', List.sum_replicate, smul_zero]
    exact hpos.ne' hz
  unfold NumAda.boost
  rw [if_neg hne]
  have herr := numAda_err f (.fin N) w hlen leaves (fun leaf h => ⟨hl.cases leaf h, hl.finite leaf h⟩) 0
  rw [zero_add] at herr
  rw [herr]
  simp only [Option.bind_eq_bind, Option.bind_some]
  by_cases hlt : N < f.weightedAbs w leaves
  · rw [if_pos hlt, if_pos (by rw [XF.fin_lt]; exact hlt)]
  · rw [if_neg hlt, if_neg (by rw [XF.fin_lt]; exact hlt)]
    have hN : 0 < N / f.weightedAbs w leaves := div_pos (lt_of_lt_of_le hpos (not_lt.1 hlt)) hpos
    rw [XF.fin_div _ hpos.ne', law.log _ hN]
    have hws := numAda_weights el law.exp ⟨f, finList f.missing.length w, .fin N⟩ (L (N / f.weightedAbs w leaves))
      (f.weightedAbs w leaves) hlen leaves
      (fun leaf h => ⟨hl.cases leaf h, hl.finite leaf h, leaf_nodup hl.disjoint leaf h⟩) w
    simp only [Option.bind_eq_bind] at hws
    rw [hws]
    simp only [Option.bind_some]
    generalize hg : (fun i => w i * numAdaFactor f E (L (N / f.weightedAbs w leaves)) (f.weightedAbs w leaves) leaves i)
      = g
    have hgp : 0 < ((List.range f.missing.length).map g).sum := sum_range_pos hn fun i hi => by
      rw [← hg]
      exact mul_pos (hw i hi) (numAdaFactor_pos f law.pos _ _ leaves i)
    have hsum : (finList f.missing.length g).foldl (· + ·) (.fin 0 : XF K) =
        .fin ((List.range f.missing.length).map g).sum := by
      have := foldl_fin ((List.range f.missing.length).map g) 0
      rw [List.map_map, zero_add] at this
      exact this
    rw [hsum]
    congr 3
    unfold finList
    rw [List.map_map]
    apply List.map_congr_left
    intro i _
    simp only [Function.comp]
    rw [XF.fin_div _ hgp.ne', ← hg]

/-- Two known cases of different value in a leaf make the error positive. -/
theorem weightedAbs_pos (f : NumFeature K) {w : Nat → K} (hw : ∀ i < f.missing.length, 0 < w i)
    {leaves : List (List Nat)} (hc : ∀ leaf ∈ leaves, ∀ c ∈ leaf, c < f.missing.length)
    (hx : ∃ leaf ∈ leaves, ∃ c ∈ knownOf f.missing leaf, ∃ d ∈ knownOf f.missing leaf, f.value c ≠ f.value d) :
    0 < f.weightedAbs w leaves := by
  have hterm : ∀ leaf ∈ leaves, ∀ y ∈ (knownOf f.missing leaf).map fun c =>
      w c * |f.value c - f.meanOf (knownOf f.missing leaf)|, 0 ≤ y := by
    intro leaf hl y hy
    obtain ⟨c, hcm, rfl⟩ := List.mem_map.1 hy
    exact mul_nonneg (hw c (hc leaf hl c (mem_knownOf.1 hcm).1)).le (abs_nonneg _)
  obtain ⟨leaf, hl, c, hcm, d, hdm, hne⟩ := hx
  obtain ⟨e, he, hev⟩ : ∃ e ∈ knownOf f.missing leaf, f.value e ≠ f.meanOf (knownOf f.missing leaf) := by
    by_cases h : f.value c = f.meanOf (knownOf f.missing leaf)
    · exact ⟨d, hdm, fun h' => hne (h.trans h'.symm)⟩
    · exact ⟨c, hcm, h⟩
  have hbig : 0 < ((knownOf f.missing leaf).map fun c =>
      w c * |f.value c - f.meanOf (knownOf f.missing leaf)|).sum :=
    lt_of_lt_of_le (mul_pos (hw e (hc leaf hl e (mem_knownOf.1 he).1)) (abs_pos.2 (sub_ne_zero.2 hev)))
      (List.single_le_sum (hterm leaf hl) _ (List.mem_map.2 ⟨e, he, rfl⟩))
  unfold NumFeature.weightedAbs
  refine lt_of_lt_of_le hbig (List.single_le_sum ?_ _ (List.mem_map.2 ⟨leaf, hl, rfl⟩))
  intro x hx
  obtain ⟨y, hy, rfl⟩ := List.mem_map.1 hx
  exact List.sum_nonneg (hterm y hy)

end CloudForest
