import Verif.Lemmas.Impurity

/-! # Inequalities for impurities -/

set_option linter.unusedSectionVars false

namespace CloudForest
variable {K : Type} [Field K] [LinearOrder K] [IsStrictOrderedRing K]

/-- Summing a weight over classes by count is summing it over cases. -/
theorem sum_count_weight (f : CatFeature) (n : Nat) (cases : List Nat) (h : f.InRange n cases)
    (g : Nat → K) :
    ((List.range n).map fun k => (f.catCount cases k : K) * g k).sum =
      (cases.map fun c => g ((f.catData[c]?).getD 0)).sum := by
  induction cases with
  | nil => simp [CatFeature.catCount]
  | cons c cs ih =>
    obtain ⟨k, hk, hkn⟩ := h c (by simp)
    have e : (fun j => (f.catCount (c :: cs) j : K) * g j) =
        fun j => (f.catCount cs j : K) * g j + if j = k then g k else 0 := by
      funext j; rw [catCount_cons f c cs k j hk]; push_cast
      by_cases hj : j = k
      · subst hj; simp; ring
      · simp [hj]
    rw [e, List.sum_map_add, ih (fun c hc => h c (by simp [hc]))]
    have : ((List.range n).map fun j => if j = k then g k else 0).sum = g k := by
      clear e ih h hk
      induction n with
      | zero => omega
      | succ n ihn =>
        rw [List.range_succ, List.map_append, List.sum_append]
        by_cases hkn' : k < n
        · rw [ihn hkn']
          have : n ≠ k := by omega
          simp [this]
        · have hk : k = n := by omega
          subst hk
          have : ((List.range k).map fun j => if j = k then g k else 0) =
              (List.range k).map fun _ => (0 : K) :=
            List.map_congr_left fun j hj => by
              have := List.mem_range.1 hj
              rw [if_neg (by omega)]
          rw [this]; simp
    rw [this, List.map_cons, List.sum_cons, hk]; simp; ring

/-- How many of the cases share the category of `c`. -/
def CatFeature.sameCat (f : CatFeature) (cases : List Nat) (c : Nat) : Nat :=
  cases.countP fun d => f.catData[d]? == f.catData[c]?

theorem length_ne_zero {cases : List Nat} (h : cases ≠ []) : (cases.length : K) ≠ 0 := by
  have : cases.length ≠ 0 := by simpa using h
  exact_mod_cast this

theorem length_pos' {cases : List Nat} (h : cases ≠ []) : 0 < (cases.length : K) := by
  have : 0 < cases.length := List.length_pos_iff.2 h
  exact_mod_cast this

theorem sum_map_div (l : List Nat) (g : Nat → K) (d : K) :
    (l.map fun k => g k / d).sum = (l.map g).sum / d := by
  induction l with
  | nil => simp
  | cons x xs ih => simp only [List.map_cons, List.sum_cons, ih]; ring

/-- Gini impurity as the chance that two cases drawn with replacement differ. -/
theorem gini_pairs (f : CatFeature) (n : Nat) (cases : List Nat) (h : f.InRange n cases)
    (hne : cases ≠ []) :
    f.gini K n cases =
      (cases.map fun c => (cases.length : K) - (f.sameCat cases c : K)).sum /
        (cases.length : K) ^ 2 := by
  have hN := length_ne_zero (K := K) hne
  unfold CatFeature.gini
  have e : (fun k => ((f.catCount cases k : K) / (cases.length : K)) ^ 2) =
      fun k => ((f.catCount cases k : K) * (f.catCount cases k : K)) / (cases.length : K) ^ 2 := by
    funext k; rw [div_pow, sq (f.catCount cases k : K)]
  rw [e, sum_map_div, sum_count_weight f n cases h]
  have e2 : (cases.map fun c => (f.catCount cases ((f.catData[c]?).getD 0) : K)) =
      cases.map fun c => (f.sameCat cases c : K) := by
    apply List.map_congr_left
    intro c hc
    obtain ⟨k, hk, _⟩ := h c hc
    unfold CatFeature.catCount CatFeature.sameCat
    rw [hk]; rfl
  rw [e2]
  have e3 : ∀ (l : List Nat) (g : Nat → K) (N : K),
      (l.map fun c => N - g c).sum = l.length * N - (l.map g).sum := by
    intro l g N
    induction l with
    | nil => simp
    | cons x xs ih => simp only [List.map_cons, List.sum_cons, ih, List.length_cons]; push_cast; ring
  rw [e3]
  field_simp

theorem sum_nonneg' (l : List Nat) (g : Nat → K) (h : ∀ c ∈ l, 0 ≤ g c) : 0 ≤ (l.map g).sum := by
  induction l with
  | nil => simp
  | cons x xs ih =>
    simp only [List.map_cons, List.sum_cons]
    exact add_nonneg (h x (by simp)) (ih fun c hc => h c (by simp [hc]))

theorem sum_eq_zero' (l : List Nat) (g : Nat → K) (h : ∀ c ∈ l, 0 ≤ g c) :
    (l.map g).sum = 0 ↔ ∀ c ∈ l, g c = 0 := by
  induction l with
  | nil => simp
  | cons x xs ih =>
    have hx := h x (by simp)
    have hs := sum_nonneg' xs g fun c hc => h c (by simp [hc])
    have ih' := ih fun c hc => h c (by simp [hc])
    simp only [List.map_cons, List.sum_cons, List.mem_cons, forall_eq_or_imp]
    rw [← ih']
    constructor
    · intro e; constructor <;> linarith
    · rintro ⟨a, b⟩; rw [a, b]; simp

theorem sum_le_sum' (l : List Nat) (g g' : Nat → K) (h : ∀ c ∈ l, g c ≤ g' c) :
    (l.map g).sum ≤ (l.map g').sum := by
  induction l with
  | nil => simp
  | cons x xs ih =>
    simp only [List.map_cons, List.sum_cons]
    exact add_le_add (h x (by simp)) (ih fun c hc => h c (by simp [hc]))

theorem sameCat_le (f : CatFeature) (cases : List Nat) (c : Nat) :
    f.sameCat cases c ≤ cases.length := List.countP_le_length

theorem gini_nonneg (f : CatFeature) (n : Nat) (cases : List Nat) (h : f.InRange n cases)
    (hne : cases ≠ []) : 0 ≤ f.gini K n cases := by
  rw [gini_pairs f n cases h hne]
  apply div_nonneg _ (sq_nonneg _)
  apply sum_nonneg'
  intro c _
  have : (f.sameCat cases c : K) ≤ cases.length := by exact_mod_cast sameCat_le f cases c
  linarith

theorem gini_eq_zero (f : CatFeature) (n : Nat) (cases : List Nat) (h : f.InRange n cases)
    (hne : cases ≠ []) :
    f.gini K n cases = 0 ↔ ∀ c ∈ cases, ∀ d ∈ cases, f.catData[c]? = f.catData[d]? := by
  have hN := length_ne_zero (K := K) hne
  rw [gini_pairs f n cases h hne, div_eq_zero_iff, or_iff_left (pow_ne_zero 2 hN),
    sum_eq_zero' _ _ (by
      intro c _
      have : (f.sameCat cases c : K) ≤ cases.length := by exact_mod_cast sameCat_le f cases c
      linarith)]
  apply forall₂_congr
  intro c _
  rw [sub_eq_zero]
  have : (cases.length : K) = f.sameCat cases c ↔ f.sameCat cases c = cases.length := by
    constructor
    · intro e; exact_mod_cast e.symm
    · intro e; rw [e]
  rw [this]
  unfold CatFeature.sameCat
  rw [List.countP_eq_length]
  apply forall₂_congr
  intro d _
  rw [beq_iff_eq]
  exact eq_comm

theorem gini_lt_one (f : CatFeature) (n : Nat) (cases : List Nat) (h : f.InRange n cases)
    (hne : cases ≠ []) : f.gini K n cases < 1 := by
  have hN := length_pos' (K := K) hne
  unfold CatFeature.gini
  have hs := sum_catCount (K := K) f n cases h
  have h0 : ∀ k ∈ List.range n, 0 ≤ ((f.catCount cases k : K) / (cases.length : K)) ^ 2 :=
    fun k _ => sq_nonneg _
  have hnn := sum_nonneg' _ _ h0
  have : ((List.range n).map fun k => ((f.catCount cases k : K) / (cases.length : K)) ^ 2).sum ≠ 0
      := by
    intro e
    rw [sum_eq_zero' _ _ h0] at e
    have e' : ((List.range n).map fun k => (f.catCount cases k : K)).sum = 0 := by
      rw [sum_eq_zero' _ _ (fun k _ => Nat.cast_nonneg _)]
      intro k hk
      have := e k hk
      rw [sq_eq_zero_iff, div_eq_zero_iff] at this
      exact this.resolve_right hN.ne'
    rw [e'] at hs
    exact hN.ne hs
  have := lt_of_le_of_ne hnn (Ne.symm this)
  linarith

theorem gini_perm (f : CatFeature) (n : Nat) {l l' : List Nat} (h : l.Perm l') :
    f.gini K n l = f.gini K n l' := by
  unfold CatFeature.gini
  rw [h.length_eq]
  congr 2
  exact List.map_congr_left fun k _ => by rw [catCount_perm f h k]

theorem gini_congr (f g : CatFeature) (n m : Nat) (cases : List Nat) (hf : f.InRange n cases)
    (hg : g.InRange m cases) (hne : cases ≠ [])
    (h : ∀ c ∈ cases, ∀ d ∈ cases,
      (f.catData[c]? = f.catData[d]? ↔ g.catData[c]? = g.catData[d]?)) :
    f.gini K n cases = g.gini K m cases := by
  rw [gini_pairs f n cases hf hne, gini_pairs g m cases hg hne]
  congr 2
  apply List.map_congr_left
  intro c hc
  congr 2
  unfold CatFeature.sameCat
  apply List.countP_congr
  intro d hd
  simp only [beq_iff_eq]
  exact h d hd c hc

/-- Number of cases times Gini impurity. -/
def giniMass (K : Type) [Field K] (f : CatFeature) (n : Nat) (cs : List Nat) : K :=
  (cs.length : K) * f.gini K n cs

theorem titu {a b x y : K} (hx : 0 ≤ x) (hy : 0 ≤ y) (ha : x = 0 → a = 0) (hb : y = 0 → b = 0) :
    (a + b) ^ 2 / (x + y) ≤ a ^ 2 / x + b ^ 2 / y := by
  rcases hx.eq_or_lt with hx0 | hx0
  · rw [← hx0, ha hx0.symm]; simp
  rcases hy.eq_or_lt with hy0 | hy0
  · rw [← hy0, hb hy0.symm]; simp
  rw [div_add_div _ _ hx0.ne' hy0.ne', div_le_div_iff₀ (by linarith) (mul_pos hx0 hy0)]
  nlinarith [mul_nonneg hx (sq_nonneg (a * y - b * x)), mul_nonneg hy (sq_nonneg (a * y - b * x)),
    sq_nonneg (a * y - b * x)]

theorem giniMass_eq (f : CatFeature) (n : Nat) (cs : List Nat) :
    giniMass K f n cs = (cs.length : K) -
      ((List.range n).map fun k => (f.catCount cs k : K) ^ 2 / (cs.length : K)).sum := by
  unfold giniMass CatFeature.gini
  rcases eq_or_ne cs [] with rfl | hne
  · simp
  have hN := length_ne_zero (K := K) hne
  have e : (fun k => ((f.catCount cs k : K) / (cs.length : K)) ^ 2) =
      fun k => ((f.catCount cs k : K) ^ 2 / (cs.length : K)) / (cs.length : K) := by
    funext k; field_simp
  rw [e, sum_map_div]
  field_simp

theorem giniMass_superadd (f : CatFeature) (n : Nat) (l r : List Nat) :
    giniMass K f n l + giniMass K f n r ≤ giniMass K f n (l ++ r) := by
  rw [giniMass_eq, giniMass_eq, giniMass_eq]
  have h : ((List.range n).map fun k =>
        (f.catCount (l ++ r) k : K) ^ 2 / ((l ++ r).length : K)).sum ≤
      ((List.range n).map fun k => (f.catCount l k : K) ^ 2 / (l.length : K) +
        (f.catCount r k : K) ^ 2 / (r.length : K)).sum := by
    apply sum_le_sum'
    intro k _
    rw [catCount_append, List.length_append]
    push_cast
    apply titu (Nat.cast_nonneg _) (Nat.cast_nonneg _)
    · intro e
      have e : l.length = 0 := by exact_mod_cast e
      have : l = [] := List.length_eq_zero_iff.1 e
      subst this; simp [CatFeature.catCount]
    · intro e
      have e : r.length = 0 := by exact_mod_cast e
      have : r = [] := List.length_eq_zero_iff.1 e
      subst this; simp [CatFeature.catCount]
  rw [List.sum_map_add] at h
  have : ((l ++ r).length : K) = l.length + r.length := by simp
  rw [this] at h ⊢
  linarith

/-! ## Sums of squares -/

theorem sse_nonneg (f : NumFeature K) (cs : List Nat) : 0 ≤ f.sse cs :=
  sum_nonneg' _ _ fun _ _ => sq_nonneg _

theorem sum_sq_dev (f : NumFeature K) (m : K) (l : List Nat) :
    (l.map fun c => (f.value c - m) ^ 2).sum =
      f.sse l + l.length * (f.meanOf l - m) ^ 2 := by
  have key : ∀ (m : K) (l : List Nat), (l.map fun c => (f.value c - m) ^ 2).sum =
      (l.map fun c => f.value c ^ 2).sum - 2 * m * (l.map f.value).sum + l.length * m ^ 2 := by
    intro m l
    induction l with
    | nil => simp
    | cons x xs ih =>
      simp only [List.map_cons, List.sum_cons, List.length_cons, ih]
      push_cast; ring
  rcases eq_or_ne l [] with rfl | hne
  · simp [NumFeature.sse]
  have hN := length_ne_zero (K := K) hne
  unfold NumFeature.sse
  rw [key, key]
  unfold NumFeature.meanOf
  field_simp
  ring

theorem sse_le_dev (f : NumFeature K) (m : K) (l : List Nat) :
    f.sse l ≤ (l.map fun c => (f.value c - m) ^ 2).sum := by
  rw [sum_sq_dev]
  have := mul_nonneg (Nat.cast_nonneg (α := K) l.length) (sq_nonneg (f.meanOf l - m))
  linarith

theorem sse_superadd (f : NumFeature K) (l r : List Nat) :
    f.sse l + f.sse r ≤ f.sse (l ++ r) := by
  have h1 := sse_le_dev f (f.meanOf (l ++ r)) l
  have h2 := sse_le_dev f (f.meanOf (l ++ r)) r
  have : f.sse (l ++ r) = (l.map fun c => (f.value c - f.meanOf (l ++ r)) ^ 2).sum +
      (r.map fun c => (f.value c - f.meanOf (l ++ r)) ^ 2).sum := by
    rw [← List.sum_append, ← List.map_append]; rfl
  linarith

theorem sse_perm (f : NumFeature K) {l l' : List Nat} (h : l.Perm l') : f.sse l = f.sse l' := by
  have hm : f.meanOf l = f.meanOf l' := by
    unfold NumFeature.meanOf; rw [h.length_eq, (h.map f.value).sum_eq]
  unfold NumFeature.sse
  rw [hm]
  exact (h.map _).sum_eq

theorem sse_eq_zero (f : NumFeature K) (cs : List Nat) :
    f.sse cs = 0 ↔ ∀ c ∈ cs, ∀ d ∈ cs, f.value c = f.value d := by
  unfold NumFeature.sse
  rw [sum_eq_zero' _ _ fun _ _ => sq_nonneg _]
  constructor
  · intro h c hc d hd
    have a := h c hc
    have b := h d hd
    rw [sq_eq_zero_iff, sub_eq_zero] at a b
    rw [a, b]
  · intro h c hc
    have hne : cs ≠ [] := by rintro rfl; simp at hc
    have hN := length_ne_zero (K := K) hne
    have : f.meanOf cs = f.value c := by
      unfold NumFeature.meanOf
      have : cs.map f.value = cs.map fun _ => f.value c :=
        List.map_congr_left fun d hd => h d hd c hc
      rw [this]
      simp
      field_simp
    rw [this]; simp

end CloudForest
