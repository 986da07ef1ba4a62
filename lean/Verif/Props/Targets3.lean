import Verif.Props.Targets2
import Mathlib.Analysis.Real.Sqrt

/-!
# C70–C74: distances, weighted Gini, Neyman–Pearson, transduction, scores with missing values
-/

set_option linter.unusedSectionVars false

namespace CloudForest
variable {K : Type} [Field K] [LinearOrder K] [IsStrictOrderedRing K]

/-! ## C70: the Hellinger distance target -/

/-- The fraction of the listed cases of category `k` that is on the left. -/
def leftShare (K : Type) [Field K] (f : CatFeature) (l r : List Nat) (k : Nat) : K :=
  (f.catCount l k : K) / f.catCount (l ++ r) k

theorem hScore_eq (f : CatFeature) (l r : List Nat) (h0 : 0 < f.catCount (l ++ r) 0) (h1 : 0 < f.catCount (l ++ r) 1) :
    hScore K f l r = .fin (2 * (leftShare K f l r 0 - leftShare K f l r 1) ^ 2) := by
  rw [catCount_append] at h0 h1
  have p0 : (0 : K) < (f.catCount l 0 : K) + f.catCount r 0 := by exact_mod_cast h0
  have p1 : (0 : K) < (f.catCount l 1 : K) + f.catCount r 1 := by exact_mod_cast h1
  unfold hScore XF.ofInt leftShare
  simp only [catCount_append]
  push_cast
  rw [XF.fin_div _ p0.ne', XF.fin_div _ p1.ne', XF.fin_div _ p0.ne', XF.fin_div _ p1.ne', XF.fin_sub, XF.fin_sub,
    XF.fin_mul, XF.fin_mul, XF.fin_add]
  congr 1
  field_simp
  ring

/-- **C70** (`_partial`: the score is not the Hellinger distance, see `c70_not_hellinger`): if both classes occur, the
score of a division is twice the squared difference of the fractions of the two classes sent left. It is between 0
and 2; 0 just if the fractions are equal, 2 just if the division separates the classes. -/
theorem c70_score_partial (f : CatFeature) (n : Nat) (hn : 2 ≤ n) (a : Allocs K)
    (ha : a.counter.length = n ∧ a.lcounter.length = n ∧ a.rcounter.length = n) (l r : List Nat) (m : Option (List Nat))
    (hc : f.InRange n (l ++ r)) (h0 : 0 < f.catCount (l ++ r) 0) (h1 : 0 < f.catCount (l ++ r) 1) :
    ∃ s a', (hDistTarget f).splitImpurity a l r m = some (.fin s, a') ∧
      s = 2 * (leftShare K f l r 0 - leftShare K f l r 1) ^ 2 ∧ 0 ≤ s ∧ s ≤ 2 ∧
      (s = 0 ↔ leftShare K f l r 0 = leftShare K f l r 1) ∧
      (s = 2 ↔ f.catCount l 0 = 0 ∧ f.catCount r 1 = 0 ∨ f.catCount r 0 = 0 ∧ f.catCount l 1 = 0) := by
  obtain ⟨a', e, -⟩ := (hDistLaws (K := K) f n hn (l ++ r) hc).split a l r ha fun _ h => h
  have e' : (hDistTarget f).splitImpurity a l r m = some (hScore K f l r, a') := e
  rw [hScore_eq f l r h0 h1] at e'
  refine ⟨_, a', e', rfl, ?_⟩
  have b : ∀ k, 0 < f.catCount (l ++ r) k →
      0 ≤ leftShare K f l r k ∧ leftShare K f l r k ≤ 1 ∧ (leftShare K f l r k = 0 ↔ f.catCount l k = 0) ∧
      (leftShare K f l r k = 1 ↔ f.catCount r k = 0) := by
    intro k hk
    have hk' : (0 : K) < f.catCount (l ++ r) k := by exact_mod_cast hk
    unfold leftShare
    refine ⟨div_nonneg (Nat.cast_nonneg _) hk'.le, ?_, ?_, ?_⟩
    · rw [div_le_one hk', catCount_append]
      exact_mod_cast Nat.le_add_right _ _
    · rw [div_eq_zero_iff]
      constructor
      · rintro (h | h)
        · exact_mod_cast h
        · exact absurd h hk'.ne'
      · intro h
        exact .inl (by exact_mod_cast h)
    · rw [div_eq_one_iff_eq hk'.ne', catCount_append]
      push_cast
      constructor
      · intro h
        have : (f.catCount r k : K) = 0 := by linarith
        exact_mod_cast this
      · intro h
        rw [h]
        simp
  obtain ⟨x0, x1, x2, x3⟩ := b 0 h0
  obtain ⟨y0, y1, y2, y3⟩ := b 1 h1
  rw [← x2, ← y3, ← x3, ← y2]
  revert x0 x1 y0 y1
  generalize leftShare K f l r 0 = x
  generalize leftShare K f l r 1 = y
  intro x0 x1 y0 y1
  refine ⟨by positivity, by nlinarith, ?_, ?_⟩
  · constructor
    · intro h
      have : (x - y) ^ 2 = 0 := by linarith
      linarith [pow_eq_zero_iff (two_ne_zero) |>.1 this]
    · rintro rfl
      simp
  · constructor
    · intro h
      have h2 : (x - y - 1) * (x - y + 1) = 0 := by linear_combination h / 2
      rcases mul_eq_zero.1 h2 with h3 | h3
      · exact .inr ⟨by linarith, by linarith⟩
      · exact .inl ⟨by linarith, by linarith⟩
    · rintro (⟨rfl, rfl⟩ | ⟨rfl, rfl⟩) <;> norm_num

theorem hScore_nan (f : CatFeature) (l r : List Nat)
    (h0 : f.catCount (l ++ r) 0 = 0 ∨ f.catCount (l ++ r) 1 = 0) : hScore K f l r = .nan := by
  have z : (XF.ofInt 0 : XF K) / .ofInt 0 = .nan := by
    unfold XF.ofInt
    simp only [Int.cast_zero]
    show (if (0 : K) = 0 then XF.infTimes 0 else _) = _
    rw [if_pos rfl]
    simp [XF.infTimes]
  have n1 : ∀ x : XF K, (.nan : XF K) - x = .nan := fun x => by cases x <;> rfl
  have n2 : ∀ x : XF K, x - (.nan : XF K) = .nan := fun x => by cases x <;> rfl
  rw [catCount_append, catCount_append] at h0
  unfold hScore
  rcases h0 with h0 | h0
  · have e1 : f.catCount l 0 = 0 := by omega
    have e2 : f.catCount r 0 = 0 := by omega
    rw [e1, e2]
    simp only [Nat.cast_zero, add_zero, z, n1]
    rfl
  · have e1 : f.catCount l 1 = 0 := by omega
    have e2 : f.catCount r 1 = 0 := by omega
    rw [e1, e2]
    simp only [Nat.cast_zero, add_zero, z, n2]
    rfl

/-- If one of the classes does not occur the score is NaN (and the search finds nothing). -/
theorem c70_one_class (f : CatFeature) (n : Nat) (hn : 2 ≤ n) (a : Allocs K)
    (ha : a.counter.length = n ∧ a.lcounter.length = n ∧ a.rcounter.length = n) (l r : List Nat) (m : Option (List Nat))
    (hc : f.InRange n (l ++ r)) (h0 : f.catCount (l ++ r) 0 = 0 ∨ f.catCount (l ++ r) 1 = 0) :
    ∃ a', (hDistTarget f).splitImpurity a l r m = some (.nan, a') := by
  obtain ⟨a', e, -⟩ := (hDistLaws (K := K) f n hn (l ++ r) hc).split a l r ha fun _ h => h
  refine ⟨a', (show _ = some (hScore K f l r, a') from e).trans ?_⟩
  rw [hScore_nan f l r h0]

/-- The square of the Hellinger distance between the two classes as distributed over the two sides (up to the usual
factor), for `a0` of `n0` cases of one class and `a1` of `n1` of the other on the left. -/
noncomputable def hellingerSq (a0 n0 a1 n1 : ℕ) : ℝ :=
  (√((a0 : ℝ) / n0) - √((a1 : ℝ) / n1)) ^ 2 + (√((n0 - a0 : ℕ) / (n0 : ℝ)) - √((n1 - a1 : ℕ) / (n1 : ℝ))) ^ 2

/-- **C70**, negation: the score is not the Hellinger distance, nor does it rank divisions as the distance does. 169
cases of one class and 25 of the other: the division sending 0 and 9 left is further apart in the Hellinger distance
than the one sending 25 and 16 left, but scores less. -/
theorem c70_not_hellinger :
    hellingerSq 25 169 16 25 < hellingerSq 0 169 9 25 ∧
      ∃ x y : ℚ, hDist [0, 9] [169, 16] = some (.fin x) ∧ hDist [25, 16] [144, 9] = some (.fin y) ∧ x < y := by
  constructor
  · have s : ∀ x y : ℝ, 0 ≤ y → x = y ^ 2 → √x = y := fun x y hy h => by rw [h, Real.sqrt_sq hy]
    unfold hellingerSq
    rw [s (((25 : ℕ) : ℝ) / (169 : ℕ)) (5 / 13) (by norm_num) (by norm_num),
      s (((16 : ℕ) : ℝ) / (25 : ℕ)) (4 / 5) (by norm_num) (by norm_num),
      s (((169 - 25 : ℕ) : ℝ) / (169 : ℕ)) (12 / 13) (by norm_num) (by norm_num),
      s (((25 - 16 : ℕ) : ℝ) / (25 : ℕ)) (3 / 5) (by norm_num) (by norm_num),
      s (((0 : ℕ) : ℝ) / (169 : ℕ)) 0 (by norm_num) (by norm_num),
      s (((169 - 0 : ℕ) : ℝ) / (169 : ℕ)) 1 (by norm_num) (by norm_num)]
    norm_num
  · exact ⟨162 / 625, 2 * (25 / 169 - 16 / 25) ^ 2, by decide +kernel, by decide +kernel, by norm_num⟩

/-- **C70**: a leaf predicts the fraction of its cases that are of the positive class. -/
theorem c70_predict (f : CatFeature) (pos : Nat) (cases : List Nat) (hc : ∀ c ∈ cases, ∃ k, f.catData[c]? = some k)
    (hne : cases ≠ []) :
    hDistPredict f pos cases = some (.fin ((f.catCount cases pos : K) / cases.length)) ∧
      0 ≤ (f.catCount cases pos : K) / cases.length ∧ (f.catCount cases pos : K) / cases.length ≤ 1 := by
  refine ⟨?_, frac_mem f cases hne pos⟩
  have key : ∀ (cs : List Nat) (n : Nat), (∀ c ∈ cs, ∃ k, f.catData[c]? = some k) →
      cs.foldlM (fun (n : Nat) c => do
        let k ← f.catData[c]?
        some (if k = pos then n + 1 else n)) n = some (n + f.catCount cs pos) := by
    intro cs
    induction cs with
    | nil => intro n _; simp [CatFeature.catCount]
    | cons c cs ih =>
      intro n h
      obtain ⟨k, hk⟩ := h c (by simp)
      rw [List.foldlM_cons, hk]
      refine (ih _ fun c hc => h c (by simp [hc])).trans ?_
      rw [catCount_cons f c cs k pos hk]
      by_cases h : k = pos
      · subst h
        simp
        omega
      · simp [h, Ne.symm h]
  unfold hDistPredict
  rw [key cases 0 hc, zero_add]
  show some (XF.ofNat _ / XF.ofNat _) = _
  unfold XF.ofNat
  rw [XF.fin_div _ (length_pos' (K := K) hne).ne']

/-! ## C71: weighted Gini -/

theorem weight_pos (f : CatFeature) (w : Nat → K) (hw : ∀ k, 0 < w k) (cases : List Nat) (hne : cases ≠ []) :
    0 < (cases.map fun c => w (f.cat c)).sum := by
  cases cases with
  | nil => exact absurd rfl hne
  | cons c cs =>
    rw [List.map_cons, List.sum_cons]
    have : 0 ≤ (cs.map fun c => w (f.cat c)).sum := sum_nonneg' _ _ fun c _ => (hw _).le
    linarith [hw (f.cat c)]

/-- The weighted Gini impurity as the chance that two cases drawn by weight differ. -/
theorem weightedGini_eq (f : CatFeature) (n : Nat) (w : Nat → K) (cases : List Nat) (h : f.InRange n cases)
    (hpos : (cases.map fun c => w (f.cat c)).sum ≠ 0) :
    f.weightedGini n w cases = ((List.range n).map fun k =>
      f.weightOf w cases k / (cases.map fun c => w (f.cat c)).sum *
        (1 - f.weightOf w cases k / (cases.map fun c => w (f.cat c)).sum)).sum := by
  have h1 := sum_weightOf f n w cases h
  unfold CatFeature.weightedGini
  revert h1 hpos
  generalize (cases.map fun c => w (f.cat c)).sum = W
  intro hW h1
  have h2 : ((List.range n).map fun k => f.weightOf w cases k / W).sum = 1 := by
    have : ∀ l : List Nat, (l.map fun k => f.weightOf w cases k / W).sum = (l.map (f.weightOf w cases)).sum / W := by
      intro l
      induction l with
      | nil => simp
      | cons k l ih => rw [List.map_cons, List.sum_cons, ih, List.map_cons, List.sum_cons, add_div]
    rw [this, h1, div_self hW]
  have h3 : ∀ l : List Nat, (l.map fun k => f.weightOf w cases k / W * (1 - f.weightOf w cases k / W)).sum =
      (l.map fun k => f.weightOf w cases k / W).sum - (l.map fun k => (f.weightOf w cases k / W) ^ 2).sum := by
    intro l
    induction l with
    | nil => simp
    | cons k l ih => simp only [List.map_cons, List.sum_cons, ih]; ring
  rw [h3, h2]

/-- **C71** (`_partial`: that splitting does not increase it is false, see `c71_increase`): for positive weights the
impurity of a non-empty set of cases is the Gini impurity of the fractions of the weight; it is between 0 and 1, and
zero just if all cases are of one category. -/
theorem c71_wrf_partial (f : CatFeature) (n : Nat) (w : Nat → K) (hw : ∀ k, 0 < w k) (a : Allocs K)
    (ha : a.counter.length = n) (cases : List Nat) (hc : f.InRange n cases) (hne : cases ≠ []) :
    (∃ a', (wrfTarget (finList n w) f).impurity a cases = some (.fin (f.weightedGini n w cases), a')) ∧
      0 ≤ f.weightedGini n w cases ∧ f.weightedGini n w cases < 1 ∧
      (f.weightedGini n w cases = 0 ↔ ∀ c ∈ cases, ∀ d ∈ cases, f.cat c = f.cat d) := by
  have hpos := weight_pos f w hw cases hne
  have hsum := sum_weightOf f n w cases hc
  have heq := weightedGini_eq f n w cases hc hpos.ne'
  have hcost := fun p => costOf_eq f w cases p hc.get
  have hcpos : ∀ p, 0 ≤ f.costOf w cases p := fun p => by
    unfold CatFeature.costOf
    exact sum_nonneg' _ _ fun c _ => by split_ifs; exacts [le_refl _, (hw _).le]
  have hle : ∀ k, 0 ≤ f.weightOf w cases k := weightOf_nonneg f (fun k => (hw k).le) cases
  refine ⟨⟨{ a with counter := f.counts n cases }, ?_⟩, ?_, ?_, ?_⟩
  · show countImpurity f _ a cases = _
    unfold countImpurity
    rw [countPerCat_eq f cases a.counter (by rw [ha]; exact hc), ha]
    simp only [Option.bind_eq_bind, Option.bind_some]
    rw [wrfFromCounts_eq f n w cases hc hpos.ne']
  · rw [heq]
    refine sum_nonneg' _ _ fun k _ => mul_nonneg (div_nonneg (hle k) hpos.le) ?_
    rw [sub_nonneg, div_le_one hpos]
    have := hcpos k
    rw [hcost] at this
    linarith
  · unfold CatFeature.weightedGini
    have h0 : ∀ k ∈ List.range n, 0 ≤ (f.weightOf w cases k / (cases.map fun c => w (f.cat c)).sum) ^ 2 :=
      fun k _ => sq_nonneg _
    have h1 := sum_nonneg' _ _ h0
    rcases h1.lt_or_eq with h1 | h1
    · linarith
    · exfalso
      have h2 := (sum_eq_zero' _ _ h0).1 h1.symm
      have h3 : ((List.range n).map (f.weightOf w cases)).sum = 0 :=
        (sum_eq_zero' _ _ fun k _ => hle k).2 fun k hk => by
          have := h2 k hk
          rw [sq_eq_zero_iff, div_eq_zero_iff] at this
          exact this.resolve_right hpos.ne'
      rw [hsum] at h3
      linarith
  · have hterm : ∀ k ∈ List.range n, 0 ≤ f.weightOf w cases k / (cases.map fun c => w (f.cat c)).sum *
        (1 - f.weightOf w cases k / (cases.map fun c => w (f.cat c)).sum) := by
      intro k _
      refine mul_nonneg (div_nonneg (hle k) hpos.le) ?_
      rw [sub_nonneg, div_le_one hpos]
      have := hcpos k
      rw [hcost] at this
      linarith
    rw [heq, sum_eq_zero' _ _ hterm]
    constructor
    · intro H c hcc d hd
      obtain ⟨k, hk, hkn⟩ := hc c hcc
      have hcat := cat_of_get hk
      have hz := H k (List.mem_range.2 hkn)
      have hkpos : 0 < f.weightOf w cases k := by
        rw [weightOf_eq]
        refine mul_pos ?_ (hw k)
        have : 0 < f.catCount cases k := by
          unfold CatFeature.catCount
          rw [List.countP_pos_iff]
          exact ⟨c, hcc, by simp [hk]⟩
        exact_mod_cast this
      rcases mul_eq_zero.1 hz with hz | hz
      · exact absurd hz (div_pos hkpos hpos).ne'
      · have h5 : f.weightOf w cases k = (cases.map fun c => w (f.cat c)).sum := by
          have : f.weightOf w cases k / (cases.map fun c => w (f.cat c)).sum = 1 := by linarith
          rwa [div_eq_one_iff_eq hpos.ne'] at this
        have h6 : f.costOf w cases k = 0 := by rw [hcost, h5, sub_self]
        unfold CatFeature.costOf at h6
        rw [sum_eq_zero' _ _ fun c _ => by split_ifs; exacts [le_refl _, (hw _).le]] at h6
        have h7 := h6 d hd
        rw [hcat]
        by_contra hn
        rw [if_neg (Ne.symm hn)] at h7
        exact absurd h7 (hw _).ne'
    · intro H k _
      by_cases hk : ∃ c ∈ cases, f.cat c = k
      · obtain ⟨c, hcc, hck⟩ := hk
        have h6 : f.costOf w cases k = 0 := by
          unfold CatFeature.costOf
          rw [sum_eq_zero' _ _ fun c _ => by split_ifs; exacts [le_refl _, (hw _).le]]
          intro d hd
          rw [if_pos ((H d hd c hcc).trans hck)]
        rw [hcost] at h6
        have : f.weightOf w cases k = (cases.map fun c => w (f.cat c)).sum := by linarith
        rw [this, div_self hpos.ne']
        simp
      · have : f.weightOf w cases k = 0 := by
          unfold CatFeature.weightOf
          rw [List.filter_eq_nil_iff.2]
          · rfl
          · intro c hcc h
            exact hk ⟨c, hcc, cat_of_get (by simpa using h)⟩
        rw [this]
        simp

/-- a, a, b, b -/
def exAabb : CatFeature := ⟨.empty, [0, 0, 1, 1], List.replicate 4 false, "t", false, false⟩

/-- **C71**, negation: a division can raise the weighted Gini impurity, since the blocks count by their number of cases and not by
their weight. Weights 1 and 10; a, a, b on the left, b on the right. -/
theorem c71_increase :
    exAabb.InRange 2 [0, 1, 2, 3] ∧ ∃ s t : ℚ,
      ((wrfTarget [.fin 1, .fin 10] exAabb).splitImpurity ⟨[0, 0], [0, 0], [0, 0], .fin 0, .fin 0, .fin 0, .fin 0,
        .fin 0, .fin 0⟩ [0, 1, 2] [3] none).map Prod.fst = some (.fin s) ∧
      ((wrfTarget [.fin 1, .fin 10] exAabb).impurity ⟨[0, 0], [0, 0], [0, 0], .fin 0, .fin 0, .fin 0, .fin 0,
        .fin 0, .fin 0⟩ [0, 1, 2, 3]).map Prod.fst = some (.fin t) ∧ t < s := by
  refine ⟨fun c hc => ?_, 5 / 24, 20 / 121, by decide +kernel, by decide +kernel, by norm_num⟩
  fin_cases hc <;> simp [exAabb]

example : (wrfTarget (finList 3 fun k => (k + 1 : ℚ)) exClass).impurity exAllocs [0, 1, 2, 3] ≠ none ∧
    0 ≤ exClass.weightedGini 3 (fun k => (k + 1 : ℚ)) [0, 1, 2, 3] := by
  obtain ⟨⟨a', h1⟩, h2, -⟩ := c71_wrf_partial exClass 3 (fun k => (k + 1 : ℚ)) (fun k => by positivity) exAllocs rfl
    [0, 1, 2, 3] exClass_inRange (by simp)
  exact ⟨by rw [h1]; simp, h2⟩

/-! ## C72: Neyman–Pearson -/

/-- The number of cases of category `k`, divided by `alpha` if `k` is the constrained category. -/
def corrected (f : CatFeature) (posi : Nat) (alpha : K) (cases : List Nat) (k : Nat) : K :=
  (f.catCount cases k : K) / if k = posi then alpha else 1

theorem npWeighted_eq (f : CatFeature) (n posi : Nat) {alpha : K} (ha : 0 < alpha) (cases : List Nat) :
    npWeighted posi (.fin alpha) (f.counts n cases) = finList n (corrected f posi alpha cases) := by
  unfold npWeighted CatFeature.counts finList
  rw [zipIdx_range, List.map_map]
  apply List.map_congr_left
  intro k _
  simp only [Function.comp]
  unfold corrected XF.ofInt
  split_ifs
  · rw [XF.fin_div _ ha.ne']; push_cast; rfl
  · push_cast; rw [div_one]

theorem np_totals (f : CatFeature) (n posi : Nat) (hp : posi < n) (cases : List Nat) (h : f.InRange n cases) :
    ((((f.counts n cases).zipIdx.filter fun ik => ik.2 = posi).map (·.1)).sum : Int) = f.catCount cases posi ∧
    ((((f.counts n cases).zipIdx.filter fun ik => ik.2 ≠ posi).map (·.1)).sum : Int) =
      (cases.length : Int) - f.catCount cases posi := by
  have split : ∀ (l : List (Int × Nat)), ((l.filter fun ik => decide (ik.2 = posi)).map (·.1)).sum +
      ((l.filter fun ik => decide (ik.2 ≠ posi)).map (·.1)).sum = (l.map (·.1)).sum := by
    intro l
    induction l with
    | nil => simp
    | cons x l ih =>
      by_cases hx : x.2 = posi
      · simp only [List.filter_cons, hx, List.map_cons, List.sum_cons]
        simp only [decide_true, if_true, List.map_cons, List.sum_cons]
        simp only [ne_eq, not_true, decide_false, Bool.false_eq_true, if_false]
        simp only [ne_eq] at ih
        linarith
      · simp only [List.filter_cons, hx, List.map_cons, List.sum_cons]
        simp only [decide_false, Bool.false_eq_true, if_false, ne_eq, hx, not_false_eq_true, decide_true, if_true,
          List.map_cons, List.sum_cons]
        simp only [ne_eq] at ih
        linarith
  have hpos : ((((f.counts n cases).zipIdx.filter fun ik => ik.2 = posi).map (·.1)).sum : Int) =
      f.catCount cases posi := by
    unfold CatFeature.counts
    rw [zipIdx_range, List.filter_map, List.map_map]
    have e : ((List.range n).filter ((fun ik : Int × Nat => decide (ik.2 = posi)) ∘
        fun k => ((f.catCount cases k : Int), k))) = [posi] := by
      have : ((fun ik : Int × Nat => decide (ik.2 = posi)) ∘ fun k => ((f.catCount cases k : Int), k)) =
          fun k => k == posi := by funext k; simp [beq_eq_decide]
      rw [this, List.filter_beq, List.count_eq_one_of_mem List.nodup_range (List.mem_range.2 hp)]
      rfl
    rw [e]
    simp
  refine ⟨hpos, ?_⟩
  have h1 := split (f.counts n cases).zipIdx
  rw [hpos] at h1
  have h2 : ((f.counts n cases).zipIdx.map (·.1)).sum = (cases.length : Int) := by
    have e : (f.counts n cases).zipIdx.map (·.1) = f.counts n cases := by
      unfold CatFeature.counts
      rw [zipIdx_range, List.map_map]
      rfl
    rw [e]
    have := sum_catCount (K := ℚ) f n cases h
    unfold CatFeature.counts
    have e2 : (((((List.range n).map fun k => (f.catCount cases k : Int)).sum : Int)) : ℚ) =
        ((List.range n).map fun k => (f.catCount cases k : ℚ)).sum := by
      generalize List.range n = l
      induction l with
      | nil => simp
      | cons k l ih => rw [List.map_cons, List.sum_cons, Int.cast_add, ih]; simp
    rw [this] at e2
    exact_mod_cast e2
  rw [h2] at h1
  linarith

/-- **C72.** With `0 < alpha`, the category the counts favour is one with the largest corrected count. If it is the
constrained category the impurity is `kappa` times what the fraction of the other cases exceeds `alpha` by, if
anything; otherwise it is the fraction of the cases of the constrained category. The leaf's prediction is the same
category. -/
theorem c72_np (f : CatFeature) (posi : Nat) (hp : posi < f.cm.nCats) {alpha kappa : K} (ha : 0 < alpha)
    (al : Allocs K) (hal : al.counter.length = f.cm.nCats) (cases : List Nat) (hc : f.InRange f.cm.nCats cases)
    (hne : cases ≠ []) :
    ∃ p al', p < f.cm.nCats ∧ (∀ k < f.cm.nCats, corrected f posi alpha cases k ≤ corrected f posi alpha cases p) ∧
      npPredict posi (.fin alpha) f cases = some p ∧
      (npTarget posi (.fin alpha) (.fin kappa) f).impurity al cases = some (.fin
        (if p = posi then
          kappa * max (((cases.length : K) - f.catCount cases posi) / cases.length - alpha) 0
        else (f.catCount cases posi : K) / cases.length), al') := by
  have hN := length_pos' (K := K) hne
  obtain ⟨h1, h2⟩ := argmaxX_range f.cm.nCats (corrected f posi alpha cases) fun k _ => by
    unfold corrected
    split_ifs
    · exact div_nonneg (Nat.cast_nonneg _) ha.le
    · simp
  refine ⟨_, { al with counter := f.counts f.cm.nCats cases }, h1 (by omega), h2, ?_, ?_⟩
  · unfold npPredict
    rw [countPerCat_eq f cases _ (by rw [List.length_replicate]; exact hc), List.length_replicate]
    simp only [Option.bind_eq_bind, Option.bind_some]
    rw [npWeighted_eq f _ _ ha]
  · show countImpurity f _ al cases = _
    unfold countImpurity
    rw [countPerCat_eq f cases al.counter (by rw [hal]; exact hc), hal]
    simp only [Option.bind_eq_bind, Option.bind_some]
    unfold npFromCounts
    obtain ⟨t1, t2⟩ := np_totals f f.cm.nCats posi hp cases hc
    rw [t1, t2, npWeighted_eq f _ _ ha]
    generalize argmaxX (finList f.cm.nCats (corrected f posi alpha cases)) 0 0 _ = p
    by_cases hpp : p = posi
    · rw [if_pos hpp.symm, if_pos hpp]
      unfold XF.ofInt XF.ofNat XF.max
      rw [XF.fin_div _ hN.ne', XF.fin_sub]
      push_cast
      rcases lt_or_ge (((cases.length : K) - f.catCount cases posi) / cases.length - alpha) 0 with h | h
      · rw [if_pos ((XF.fin_lt _ _).2 h), max_eq_right h.le, XF.fin_mul]
      · rw [if_neg (fun h' => not_lt.2 h ((XF.fin_lt _ _).1 h')), max_eq_left h, XF.fin_mul]
    · rw [if_neg (Ne.symm hpp), if_neg hpp]
      unfold XF.ofInt XF.ofNat
      rw [XF.fin_div _ hN.ne']
      push_cast
      rfl

example : ∃ p, npPredict 0 (.fin (1 / 10 : ℚ)) exAbb [0, 1, 2] = some p := by
  obtain ⟨p, -, -, -, h, -⟩ := c72_np exAbb 0 (by decide +kernel) (alpha := (1 / 10 : ℚ)) (kappa := 100) (by norm_num)
    ⟨[0, 0], [0, 0], [0, 0], .fin 0, .fin 0, .fin 0, .fin 0, .fin 0, .fin 0⟩ (by decide +kernel) [0, 1, 2]
    (exAbb_inRange _ (by decide)) (by simp)
  exact ⟨p, h⟩

/-- One case of the constrained category outweighs two others with alpha 1/10: the false positives, two thirds, exceed
a tenth by 17/30. -/
example : npPredict 0 (.fin (1 / 10 : ℚ)) exAbb [0, 1, 2] = some 0 ∧
    ((npTarget 0 (.fin (1 / 10 : ℚ)) (.fin 100) exAbb).impurity
      ⟨[0, 0], [0, 0], [0, 0], .fin 0, .fin 0, .fin 0, .fin 0, .fin 0, .fin 0⟩ [0, 1, 2]).map Prod.fst =
      some (.fin (170 / 3)) := by decide +kernel

/-! ## C73: transduction -/

/-- **C73** (`_partial`: only for `Beta ≤ 0`, see `c73_positive_beta`; the default is 0): the prediction is the
unlabelled class just if no listed case is labelled, and otherwise a most common label. -/
theorem c73_trans_partial (f : CatFeature) (unl : Nat) {beta : K} (hb : beta ≤ 0) (cases : List Nat)
    (hc : f.InRange f.cm.nCats cases) :
    ∃ m, transPredict unl (.fin beta) f cases = some m ∧
      (m = unl ↔ ∀ c ∈ cases, f.catData[c]? = some unl) ∧
      (m ≠ unl → m < f.cm.nCats ∧ ∀ k, k ≠ unl → f.catCount cases k ≤ f.catCount cases m) := by
  obtain ⟨v, hv⟩ : ∃ v : Nat → K, v = fun k => if k = unl then beta * f.catCount cases k else f.catCount cases k :=
    ⟨_, rfl⟩
  have hlist : (f.counts f.cm.nCats cases).zipIdx.map (fun vk => if vk.2 = unl then XF.fin beta * .ofInt vk.1
      else .ofInt vk.1) = ((List.range f.cm.nCats).map v).map XF.fin := by
    unfold CatFeature.counts
    rw [zipIdx_range, List.map_map, List.map_map]
    apply List.map_congr_left
    intro k _
    simp only [Function.comp, hv]
    unfold XF.ofInt
    split_ifs
    · rw [XF.fin_mul]; push_cast; rfl
    · push_cast; rfl
  refine ⟨argmaxX (((List.range f.cm.nCats).map v).map XF.fin) 0 unl (.fin 0), ?_, ?_⟩
  · unfold transPredict
    rw [countPerCat_eq f cases _ (by rw [List.length_replicate]; exact hc), List.length_replicate]
    simp only [Option.bind_eq_bind, Option.bind_some]
    rw [hlist]
  · obtain ⟨M, h0, h1, h2⟩ := argmaxX_spec ((List.range f.cm.nCats).map v) 0 unl (0 : K)
    have hunl : ∀ k, k = unl → v k ≤ 0 := by
      rintro k rfl
      rw [hv]
      simp only [if_true]
      exact mul_nonpos_of_nonpos_of_nonneg hb (Nat.cast_nonneg _)
    have hlab : ∀ k, k ≠ unl → v k = f.catCount cases k := fun k hk => by rw [hv]; simp only [if_neg hk]
    have hmem : ∀ k, k ≠ unl → (f.catCount cases k : K) ≤ M := by
      intro k hk
      by_cases hkn : k < f.cm.nCats
      · rw [← hlab k hk]
        exact h1 _ (List.mem_map.2 ⟨k, List.mem_range.2 hkn, rfl⟩)
      · have : f.catCount cases k = 0 := by
          unfold CatFeature.catCount
          rw [List.countP_eq_zero]
          intro c hcc
          obtain ⟨j, hj, hjn⟩ := hc c hcc
          rw [hj]
          simp only [beq_iff_eq, Option.some.injEq]
          omega
        rw [this]
        simpa using h0
    rcases h2 with ⟨h2, h3⟩ | ⟨j, hj, h2, h3⟩
    · rw [h2]
      refine ⟨⟨fun _ => ?_, fun _ => rfl⟩, fun h => absurd rfl h⟩
      intro c hcc
      obtain ⟨k, hk, hkn⟩ := hc c hcc
      by_contra hn
      have hku : k ≠ unl := fun h => hn (by rw [hk, h])
      have h4 := hmem k hku
      rw [h3] at h4
      have h5 : 0 < f.catCount cases k := by
        unfold CatFeature.catCount
        rw [List.countP_pos_iff]
        exact ⟨c, hcc, by simp [hk]⟩
      have h6 : (0 : K) < f.catCount cases k := by exact_mod_cast h5
      linarith
    · rw [h2, zero_add]
      have hjn : j < f.cm.nCats := by
        have := (List.getElem?_eq_some_iff.1 hj).1
        simpa using this
      have hvj : v j = M := by
        rw [List.getElem?_map, List.getElem?_range hjn] at hj
        simpa using hj
      have hju : j ≠ unl := fun h => by
        have := hunl j h
        linarith
      have hcnt : (f.catCount cases j : K) = M := by rw [← hlab j hju, hvj]
      refine ⟨⟨fun h => absurd h hju, fun H => ?_⟩, fun _ => ⟨hjn, fun k hk => ?_⟩⟩
      · exfalso
        have h5 : 0 < f.catCount cases j := by
          have : (0 : K) < f.catCount cases j := by rw [hcnt]; exact h3
          exact_mod_cast this
        unfold CatFeature.catCount at h5
        rw [List.countP_pos_iff] at h5
        obtain ⟨c, hcc, hcj⟩ := h5
        rw [H c hcc] at hcj
        exact hju (by simpa using hcj : unl = j).symm
      · have := hmem k hk
        rw [← hcnt] at this
        exact_mod_cast this

/-- **C73**, negation for `Beta > 0`: with `Beta` 2 and two unlabelled (b) cases beside a labelled one the leaf is
predicted unlabelled. -/
theorem c73_positive_beta : transPredict 1 (.fin (2 : ℚ)) exAbb [0, 1, 2] = some 1 ∧ exAbb.catData[0]? = some 0 := by
  decide +kernel

example : ∃ m, transPredict 1 (.fin (0 : ℚ)) exAbb [0, 1, 2] = some m ∧ m ≠ 1 := by
  obtain ⟨m, h1, h2, -⟩ := c73_trans_partial exAbb 1 (le_refl (0 : ℚ)) [0, 1, 2] (exAbb_inRange _ (by decide))
  refine ⟨m, h1, fun h => ?_⟩
  have := h2.1 h 0 (by simp)
  exact absurd this (by decide +kernel)

/-! ## C74: scores and missing values -/

theorem sides_perm (F : Feature K) {code : Coded K} (hfit : F.CodeFits code) {cs : List Nat} (h : F.Searchable cs) :
    (F.lefts code cs ++ F.rights code cs).Perm cs := by
  have hb : ∀ c ∈ cs, ∃ b, F.codedLeft code c = some b := by
    intro c hc
    cases F with
    | num f =>
      obtain ⟨x, hx⟩ := h c hc
      cases code <;> first | exact absurd hfit id | simp [Feature.codedLeft, hx]
    | cat f =>
      obtain ⟨k, hk, -⟩ := h c hc
      cases code <;> first | exact absurd hfit id | simp [Feature.codedLeft, hk]
  unfold Feature.lefts Feature.rights
  have : cs.filter (fun c => F.codedLeft code c == some false) =
      cs.filter fun c => !(F.codedLeft code c == some true) := by
    apply List.filter_congr
    intro c hc
    obtain ⟨b, hb⟩ := hb c hc
    rw [hb]
    cases b <;> rfl
  rw [this]
  exact List.filter_append_perm _ _

/-- Targets that ask to maximise a score say so by the impurity -1. If all, the known and the missing cases have that impurity,
the reported value is the score of the division of the known cases times the fraction of known cases. -/
theorem score_scaled (F : Feature K) {T : Target K} {cases : List Nat} (L : TargetLaws T cases)
    {leafSize : Nat} (hls : 1 ≤ leafSize) (randomSplit : Bool) (w : Work K)
    (hcs : ∀ c ∈ w.cases, c ∈ cases) (hF : F.Searchable (F.knowns w.cases))
    (hties : F.NoNearTies (F.knowns w.cases))
    (hvalid : ∀ c ∈ w.cases, F.ValidCase c) (hsound : F.MissingSound) (hok : L.Ok w.allocs)
    (hI : L.I w.cases = .fin (-1)) (hIk : L.I (F.knowns w.cases) = .fin (-1))
    (hIm : F.missings w.cases ≠ [] → L.I (F.missings w.cases) = .fin (-1)) :
    ∃ r w', F.bestSplit T (L.I w.cases) leafSize randomSplit w = some (r, w') ∧
      (minImp < r.imp → ∃ code, r.code = some code ∧
        leafSize ≤ (F.lefts code (F.knowns w.cases)).length ∧
        leafSize ≤ (F.rights code (F.knowns w.cases)).length ∧
        (F.lefts code (F.knowns w.cases) ++ F.rights code (F.knowns w.cases)).Perm (F.knowns w.cases) ∧
        minImp < L.S (F.lefts code (F.knowns w.cases)) (F.rights code (F.knowns w.cases)) ∧
        ∀ s : K, L.S (F.lefts code (F.knowns w.cases)) (F.rights code (F.knowns w.cases)) = .fin s →
          r.imp = .fin ((F.knowns w.cases).length / w.cases.length * s)) := by
  have hmiss : ∀ c ∈ w.cases, F.isMissing c ≠ none := by
    intro c hc
    have := hvalid c hc
    cases F with
    | cat f => exact fun h => absurd (List.getElem?_eq_none_iff.1 h) (by have := this.1; omega)
    | num f => exact fun h => absurd (List.getElem?_eq_none_iff.1 h) (by have := this.1; omega)
  obtain ⟨r, w', e, -, -, h⟩ := bestSplit_ok L (L.I w.cases) leafSize F hls randomSplit w hcs hF hmiss hsound hok
  refine ⟨r, w', e, ?_⟩
  intro hlt
  rcases h with ⟨-, -, rfl⟩ | ⟨r0, w0, w1, -, -, -, hf, hcode, -, himp⟩
  · exfalso
    unfold minImp at hlt
    rw [XF.fin_lt] at hlt
    norm_num at hlt
  have hlt0 : minImp < r0.imp := by
    by_contra hn
    rw [if_neg (fun h => hn h.2)] at himp
    rw [himp] at hlt; exact hn hlt
  obtain ⟨code, hc, hadm⟩ := hf.adm hlt0
  have hg := hf.gain hties hlt0 code hc
  have hpar : (if F.missingVals = true then L.I (F.knowns w.cases) else L.I w.cases) = .fin (-1) := by
    split_ifs <;> assumption
  rw [hpar] at hg
  have hg' : r0.imp = L.S (F.lefts code (F.knowns w.cases)) (F.rights code (F.knowns w.cases)) := by
    rw [hg]
    show gain _ _ = _
    rw [decrease_eq, decrease, if_pos (by rw [XF.fin_lt]; norm_num)]
  have hlen : ∀ cs : List Nat, (∀ c ∈ cs, F.isMissing c ≠ none) →
      cs.length = (F.knowns cs).length + (F.missings cs).length := by
    intro cs
    unfold Feature.knowns Feature.missings
    induction cs with
    | nil => intro _; rfl
    | cons c cs ih =>
      intro h
      have h1 := ih fun c hc => h c (by simp [hc])
      obtain ⟨b, hb⟩ := Option.ne_none_iff_exists'.1 (h c (by simp))
      cases b <;> simp [hb] <;> omega
  have hlen := hlen w.cases hmiss
  have hsides := sides_length F (hf.fits code hc) hF
  refine ⟨code, by rw [hcode, hc], hadm.1, hadm.2, ?_, hg' ▸ hlt0, ?_⟩
  · refine (sides_perm F (hf.fits code hc) hF)
  · intro s hs
    have hTpos : (0 : K) < w.cases.length := by
      have : 0 < w.cases.length := by
        have := hadm.1
        omega
      exact_mod_cast this
    rw [hg', hs] at himp
    by_cases hm : F.missings w.cases = []
    · rw [himp, if_neg (fun h => h.1 hm)]
      rw [hm, List.length_nil, add_zero] at hlen
      rw [← hlen, div_self hTpos.ne', one_mul]
    · rw [himp, if_pos ⟨hm, by rw [← hs, ← hg']; exact hlt0⟩, hI, hIk, hIm hm]
      unfold XF.ofNat
      simp only [XF.fin_sub, XF.fin_mul, XF.fin_add]
      rw [XF.fin_div _ hTpos.ne', XF.fin_add]
      congr 1
      have : (w.cases.length : K) = (F.knowns w.cases).length + (F.missings w.cases).length := by
        exact_mod_cast hlen
      field_simp
      rw [this]
      ring

/-- **C74**, Hellinger distance: the reported value is the score of the known cases times their fraction. -/
theorem c74_hdist (F : Feature K) (t : CatFeature) (n : Nat) (hn : 2 ≤ n) (cases : List Nat) (ht : t.InRange n cases)
    {leafSize : Nat} (hls : 1 ≤ leafSize) (randomSplit : Bool) (w : Work K)
    (hcs : ∀ c ∈ w.cases, c ∈ cases) (hF : F.Searchable (F.knowns w.cases))
    (hties : F.NoNearTies (F.knowns w.cases))
    (hvalid : ∀ c ∈ w.cases, F.ValidCase c) (hsound : F.MissingSound)
    (hok : w.allocs.counter.length = n ∧ w.allocs.lcounter.length = n ∧ w.allocs.rcounter.length = n) :
    ∃ r w', F.bestSplit (hDistTarget t) (.fin (-1)) leafSize randomSplit w = some (r, w') ∧
      (minImp < r.imp → ∃ code, r.code = some code ∧
        leafSize ≤ (F.lefts code (F.knowns w.cases)).length ∧
        leafSize ≤ (F.rights code (F.knowns w.cases)).length ∧
        r.imp = .fin ((F.knowns w.cases).length / w.cases.length *
          (2 * (leftShare K t (F.lefts code (F.knowns w.cases)) (F.rights code (F.knowns w.cases)) 0 -
            leftShare K t (F.lefts code (F.knowns w.cases)) (F.rights code (F.knowns w.cases)) 1) ^ 2))) := by
  obtain ⟨r, w', h1, h2⟩ := score_scaled F (hDistLaws (K := K) t n hn cases ht) hls randomSplit w hcs hF hties hvalid
    hsound hok rfl rfl fun _ => rfl
  refine ⟨r, w', h1, fun hlt => ?_⟩
  obtain ⟨code, h3, h4, h5, -, h6, h7⟩ := h2 hlt
  refine ⟨code, h3, h4, h5, h7 _ ?_⟩
  have hboth : 0 < t.catCount (F.lefts code (F.knowns w.cases) ++ F.rights code (F.knowns w.cases)) 0 ∧
      0 < t.catCount (F.lefts code (F.knowns w.cases) ++ F.rights code (F.knowns w.cases)) 1 := by
    by_contra hn'
    have : hScore K t (F.lefts code (F.knowns w.cases)) (F.rights code (F.knowns w.cases)) = .nan :=
      hScore_nan t _ _ (by omega)
    have h6' : minImp < hScore K t (F.lefts code (F.knowns w.cases)) (F.rights code (F.knowns w.cases)) := h6
    rw [this] at h6'
    exact h6'
  exact hScore_eq t _ _ hboth.1 hboth.2

/-- **C74**, gradient boosting (`_partial`: only if the target values of all, of the known and of the missing cases differ,
see `c74_grad_lost`): the reported value is the decrease of the sum of squared deviations of the known cases times
their fraction. -/
theorem c74_grad_partial (F : Feature K) (t : NumFeature K) (cases : List Nat) (ht : t.Finite cases)
    {leafSize : Nat} (hls : 1 ≤ leafSize) (randomSplit : Bool) (w : Work K)
    (hcs : ∀ c ∈ w.cases, c ∈ cases) (hF : F.Searchable (F.knowns w.cases))
    (hties : F.NoNearTies (F.knowns w.cases))
    (hvalid : ∀ c ∈ w.cases, F.ValidCase c) (hsound : F.MissingSound)
    (hall : 1 / 10000000 < t.sse w.cases) (hk : 1 / 10000000 < t.sse (F.knowns w.cases))
    (hm : F.missings w.cases ≠ [] → 1 / 10000000 < t.sse (F.missings w.cases)) :
    ∃ p a', (gradTarget t).impurity w.allocs w.cases = some (p, a') ∧
    ∃ r w', F.bestSplit (gradTarget t) p leafSize randomSplit w = some (r, w') ∧
      (minImp < r.imp → ∃ code, r.code = some code ∧
        leafSize ≤ (F.lefts code (F.knowns w.cases)).length ∧
        leafSize ≤ (F.rights code (F.knowns w.cases)).length ∧
        r.imp = .fin ((F.knowns w.cases).length / w.cases.length *
          (t.sse (F.knowns w.cases) - t.sse (F.lefts code (F.knowns w.cases)) -
            t.sse (F.rights code (F.knowns w.cases))))) := by
  have hbig : ∀ cs, 1 / 10000000 < t.sse cs → (gradLaws t cases ht).I cs = .fin (-1) := by
    intro cs h
    have hne : cs ≠ [] := by
      rintro rfl
      simp [NumFeature.sse] at h
      norm_num at h
    show (if sseX t cs ≤ minImp then sseX t cs else .fin (-1)) = _
    rw [sseX_eq t cs hne, if_neg]
    unfold minImp
    rw [XF.fin_le]
    exact not_le.2 h
  obtain ⟨a', ha', -⟩ := (gradLaws t cases ht).impurity w.allocs w.cases trivial hcs
  obtain ⟨r, w', h1, h2⟩ := score_scaled F (gradLaws t cases ht) hls randomSplit w hcs hF hties hvalid
    hsound trivial (hbig _ hall) (hbig _ hk) fun h => hbig _ (hm h)
  refine ⟨_, a', ha', r, w', h1, fun hlt => ?_⟩
  obtain ⟨code, h3, h4, h5, h8, -, h7⟩ := h2 hlt
  refine ⟨code, h3, h4, h5, h7 _ ?_⟩
  refine (fScore_eq t _ _ (fun h => by rw [h] at h4; simp at h4; omega) (fun h => by rw [h] at h5; simp at h5; omega)).trans ?_
  rw [sse_perm t h8]

/-- A feature known for four of five cases. -/
def exFour : NumFeature ℚ :=
  ⟨[.fin 0, .fin 0, .fin 1, .fin 1, .fin 0], [false, false, false, false, true], "x", true⟩

/-- Target values: the feature explains those of the known cases. -/
def exGrad : NumFeature ℚ :=
  ⟨[.fin 0, .fin 0, .fin (1 / 2), .fin (1 / 2), .fin 3], List.replicate 5 false, "t", false⟩

/-- Scratch space. -/
def exWork5 : Work ℚ := ⟨[0, 1, 2, 3, 4], ⟨[], [], [], .fin 0, .fin 0, .fin 0, .fin 0, .fin 0, .fin 0⟩, fun _ => 0⟩

/-- **C74**, negation for gradient boosting: the single missing case has impurity 0 instead of -1, and the value reported
for the division that decreases the sum of squared deviations of the known cases by 1/4 is 0 (4/5·1/4 − 1/5): the
division is not made. -/
theorem c74_grad_lost :
    exGrad.sse [0, 1, 2, 3] - exGrad.sse [0, 1] - exGrad.sse [2, 3] = 1 / 4 ∧
    ((Feature.num exFour).bestSplit (gradTarget exGrad) (.fin (-1)) 1 false exWork5).map (·.1.imp) =
      some (.fin 0) := by
  decide +kernel

/-- With another missing case of a different value it is made. -/
example : ((Feature.num { exFour with
      numData := exFour.numData ++ [.fin 0], missing := exFour.missing ++ [true] }).bestSplit
    (gradTarget { exGrad with numData := exGrad.numData ++ [.fin 2] }) (.fin (-1)) 1 false
    { exWork5 with cases := [0, 1, 2, 3, 4, 5] }).map (·.1.imp) = some (.fin (1 / 6)) := by
  decide +kernel

example : ∃ s a', (hDistTarget exSplitT).splitImpurity exWork.allocs [1, 2] [0, 3, 4, 5] none =
    some (.fin s, a') ∧ s = 2 * (leftShare ℚ exSplitT [1, 2] [0, 3, 4, 5] 0 -
      leftShare ℚ exSplitT [1, 2] [0, 3, 4, 5] 1) ^ 2 := by
  obtain ⟨s, a', h1, h2, -⟩ := c70_score_partial exSplitT 2 (le_refl 2) exWork.allocs ⟨rfl, rfl, rfl⟩ [1, 2] [0, 3, 4, 5]
    none (InRange.of_perm exSplitT_inRange (by decide)) (by decide) (by decide)
  exact ⟨s, a', h1, h2⟩

/-- Two of the three cases of the first class and none of the other are sent left. -/
example : ((hDistTarget exSplitT : Target ℚ).splitImpurity exWork.allocs [1, 2] [0, 3, 4, 5] none).map Prod.fst =
    some (.fin (8 / 9)) := by decide +kernel

example : (hDistPredict exSplitT 1 [0, 1, 2] : Option (XF ℚ)) = some (.fin ((1 : ℕ) / (3 : ℕ))) :=
  (c70_predict (K := ℚ) exSplitT 1 [0, 1, 2] (by intro c hc; fin_cases hc <;> simp [exSplitT]) (by simp)).1

example : ∃ r w', (Feature.num exMiss).bestSplit (hDistTarget exSplitT) (.fin (-1)) 1 false exWork = some (r, w') := by
  obtain ⟨r, w', h1, -⟩ := c74_hdist (.num exMiss) exSplitT 2 (le_refl 2) _ exSplitT_inRange (le_refl 1) false exWork
    (fun _ h => h) exMiss_finite (by
      intro c hc d hd
      have hc : c ∈ [0, 1, 3, 5] := hc
      have hd : d ∈ [0, 1, 3, 5] := hd
      fin_cases hc <;> fin_cases hd <;> simp [exMiss, NumFeature.value] <;> norm_num)
    (by
      intro c hc
      have hc : c ∈ [0, 1, 2, 3, 4, 5] := hc
      fin_cases hc <;> simp [Feature.ValidCase, exMiss])
    (fun _ _ => rfl) ⟨rfl, rfl, rfl⟩
  exact ⟨r, w', h1⟩

/-- The classes of the four known cases are separated: score 2, times 4/6. -/
example : ((Feature.num exMiss).bestSplit (hDistTarget exSplitT) (.fin (-1)) 1 false exWork).map (·.1.imp) =
    some (.fin (4 / 3)) := by
  decide +kernel

/-! ## C75: AdaBoost impurity -/

/-- With equal weights the impurity is the smallest weight a single prediction can misclassify. -/
theorem missWeight_le (f : CatFeature) (w : K) (hw : 0 ≤ w) (cs : List Nat) (h : f.InRange f.cm.nCats cs) (p : Nat) :
    missWeight f f.cm.nCats (fun _ => w) cs ≤ ((cs.filter fun c => decide (f.catData[c]? ≠ some p)).map fun _ => w).sum := by
  have cnt : ∀ p, ((cs.filter fun c => decide (f.catData[c]? ≠ some p)).map fun _ => w).sum =
      ((cs.length : K) - f.catCount cs p) * w := by
    intro p
    rw [List.map_const', List.sum_replicate, nsmul_eq_mul]
    congr 1
    rw [eq_sub_iff_add_eq]
    have : (cs.filter fun c => decide (f.catData[c]? ≠ some p)).length + f.catCount cs p = cs.length := by
      unfold CatFeature.catCount
      rw [List.countP_eq_length_filter]
      have := List.length_eq_length_filter_add (l := cs) (fun c => f.catData[c]? == some p)
      rw [this, add_comm]
      congr 2
      apply List.filter_congr
      intro c _
      by_cases h : f.catData[c]? = some p <;> simp [h]
    exact_mod_cast this
  show ((cs.filter fun c => decide (f.catData[c]? ≠ some (adaPick f cs))).map fun _ => w).sum ≤ _
  rw [cnt, cnt]
  refine mul_le_mul_of_nonneg_right ?_ hw
  have : (f.catCount cs p : K) ≤ f.catCount cs (adaPick f cs) := by exact_mod_cast adaPick_most f cs h p
  linarith

/-- **C75** (`_partial`: only for equal weights, as before the first boosting, see `c75_ada_increase`): no division
increases the AdaBoost impurity. -/
theorem c75_ada_partial (f : CatFeature) (N : Nat) (w : K) (hw : 0 ≤ w) (a : Allocs K)
    (ha : a.counter.length = f.cm.nCats ∧ a.lcounter.length = f.cm.nCats ∧ a.rcounter.length = f.cm.nCats)
    (l r : List Nat) (m : Option (List Nat)) (parent : List Nat) (hc : f.InRange f.cm.nCats parent)
    (hN : ∀ c ∈ parent, c < N) (hp : parent.Perm (l ++ r ++ missBlock m)) (hl : l ≠ []) :
    ∃ s t a' a'', (adaTarget (finList N fun _ => w) f).splitImpurity a l r m = some (.fin s, a') ∧
      (adaTarget (finList N fun _ => w) f).impurity a parent = some (.fin t, a'') ∧ s ≤ t := by
  have H := ada_caseImp f f.cm.nCats N (fun _ => w) parent hc hN
  have hmem : ∀ c ∈ l ++ r ++ missBlock m, c ∈ parent := fun c h => hp.mem_iff.2 h
  have e1 := case_split f f.cm.nCats parent H hc a ha l r m hmem
  generalize ({ a with
    lcounter := f.counts f.cm.nCats l, rcounter := f.counts f.cm.nCats r
    counter := if 0 < (missBlock m).length then f.counts f.cm.nCats (missBlock m) else a.counter } : Allocs K) = a' at e1
  obtain ⟨a'', e2, -⟩ := (caseLaws f f.cm.nCats parent _ _ H hc).impurity a parent ha fun _ h => h
  obtain ⟨q, hq⟩ : ∃ q, q = adaPick f parent := ⟨_, rfl⟩
  have hR : ∀ cs : List Nat, (∀ c ∈ cs, c ∈ l ++ r ++ missBlock m) → f.InRange f.cm.nCats cs :=
    fun cs h c hx => hc c (hmem c (h c hx))
  have bl := missWeight_le f w hw l (hR l fun c h => by simp [h]) q
  have br := missWeight_le f w hw r (hR r fun c h => by simp [h]) q
  have bm := missWeight_le f w hw (missBlock m) (hR _ fun c h => by simp [h]) q
  have pos : ∀ cs, 0 ≤ missWeight f f.cm.nCats (fun _ => w) cs := fun cs => sum_nonneg' _ _ fun _ _ => hw
  have tot : missWeight f f.cm.nCats (fun _ => w) parent =
      ((l.filter fun c => decide (f.catData[c]? ≠ some q)).map fun _ => w).sum +
      ((r.filter fun c => decide (f.catData[c]? ≠ some q)).map fun _ => w).sum +
      (((missBlock m).filter fun c => decide (f.catData[c]? ≠ some q)).map fun _ => w).sum := by
    have : missWeight f f.cm.nCats (fun _ => w) parent =
      ((parent.filter fun c => decide (f.catData[c]? ≠ some q)).map fun _ => w).sum := by rw [hq]; rfl
    rw [this, ((hp.filter _).map _).sum_eq, List.filter_append, List.filter_append, List.map_append, List.map_append,
      List.sum_append, List.sum_append]
  have hlpos := length_pos' (K := K) hl
  have hr0 : (0 : K) ≤ r.length := Nat.cast_nonneg _
  have hm0 : (0 : K) ≤ (missBlock m).length := Nat.cast_nonneg _
  have key : ∀ nl nr nm x y z t : K, 0 < nl → 0 ≤ nr → 0 ≤ nm → 0 ≤ x → 0 ≤ y → 0 ≤ z → x + y + z ≤ t →
      (nl * x + nr * y + nm * z) / (nl + nr + nm) ≤ t := by
    intro nl nr nm x y z t h1 h2 h3 h4 h5 h6 h7
    rw [div_le_iff₀ (by linarith)]
    nlinarith [mul_nonneg h1.le h5, mul_nonneg h1.le h6, mul_nonneg h2 h4, mul_nonneg h2 h6, mul_nonneg h3 h4,
      mul_nonneg h3 h5, mul_le_mul_of_nonneg_left h7 h1.le, mul_le_mul_of_nonneg_left h7 h2,
      mul_le_mul_of_nonneg_left h7 h3]
  refine ⟨(l.length * missWeight f f.cm.nCats (fun _ => w) l + r.length * missWeight f f.cm.nCats (fun _ => w) r +
    (missBlock m).length * missWeight f f.cm.nCats (fun _ => w) (missBlock m)) /
      (l.length + r.length + (missBlock m).length), missWeight f f.cm.nCats (fun _ => w) parent, a', a'', e1.trans ?_, e2,
    key _ _ _ _ _ _ _ hlpos hr0 hm0 (pos _) (pos _) (pos _) (by rw [tot]; linarith)⟩
  congr 2
  by_cases h0 : 0 < (missBlock m).length
  · rw [if_pos h0]
    unfold XF.ofNat
    simp only [XF.fin_mul, XF.fin_add]
    rw [XF.fin_div _ (by linarith)]
  · rw [if_neg h0, wavg_fin _ _ _ _ (by simpa using hl)]
    have : (missBlock m).length = 0 := by omega
    rw [this]
    simp

/-- a, a, a, b, b -/
def exAaabb : CatFeature := ⟨.empty, [0, 0, 0, 1, 1], List.replicate 5 false, "t", false, false⟩

/-- **C75**, negation for other weights: one case of a weighs 8/10, the other four cases a twentieth each. Together a
is predicted and the impurity is 1/10. Dividing off the two light cases of a makes b the more frequent class beside
the heavy case, and the impurity rises to 12/25. -/
theorem c75_ada_increase :
    exAaabb.InRange 2 [0, 1, 2, 3, 4] ∧ ∃ s t : ℚ,
      ((adaTarget [.fin (8 / 10), .fin (1 / 20), .fin (1 / 20), .fin (1 / 20), .fin (1 / 20)] exAaabb).splitImpurity
        ⟨[0, 0], [0, 0], [0, 0], .fin 0, .fin 0, .fin 0, .fin 0, .fin 0, .fin 0⟩ [0, 3, 4] [1, 2] none).map
          Prod.fst = some (.fin s) ∧
      ((adaTarget [.fin (8 / 10), .fin (1 / 20), .fin (1 / 20), .fin (1 / 20), .fin (1 / 20)] exAaabb).impurity
        ⟨[0, 0], [0, 0], [0, 0], .fin 0, .fin 0, .fin 0, .fin 0, .fin 0, .fin 0⟩ [0, 1, 2, 3, 4]).map
          Prod.fst = some (.fin t) ∧ t < s := by
  refine ⟨fun c hc => ?_, 12 / 25, 1 / 10, by decide +kernel, by decide +kernel, by norm_num⟩
  fin_cases hc <;> simp [exAaabb]

example : ∃ s t a' a'', (adaTarget (finList 3 fun _ => (1 / 3 : ℚ)) exAbb).splitImpurity
    ⟨[0, 0], [0, 0], [0, 0], .fin 0, .fin 0, .fin 0, .fin 0, .fin 0, .fin 0⟩ [0] [1, 2] none = some (.fin s, a') ∧
    (adaTarget (finList 3 fun _ => (1 / 3 : ℚ)) exAbb).impurity
      ⟨[0, 0], [0, 0], [0, 0], .fin 0, .fin 0, .fin 0, .fin 0, .fin 0, .fin 0⟩ [0, 1, 2] = some (.fin t, a'') ∧ s ≤ t :=
  c75_ada_partial exAbb 3 (1 / 3) (by norm_num) _ (by decide +kernel) [0] [1, 2] none [0, 1, 2]
    (exAbb_inRange _ (by decide)) (by decide) (by decide) (by simp)

/-! ## C16 for these targets -/

/-- `c16_three_way` applies to the entropy target. -/
theorem c16_entropy_weighted (f : CatFeature) (n : Nat) (cases : List Nat) (h : f.InRange n cases) :
    (countLaws (K := ℝ) f (entropyFromCounts realLog) n cases h).Weighted (f.entropy n) where
  finite l hl _ := entropyFromCounts_eq f n l hl
  nonneg l hl _ := entropy_nonneg f n l hl
  mean l r hl hr _ := by
    show wavg _ _ _ _ = _
    rw [entropyFromCounts_eq f n l hl, entropyFromCounts_eq f n r hr, wavg_fin _ _ _ _ (by simpa using hl)]

/-- And to the weighted random forest target with positive weights. -/
theorem c16_wrf_weighted (f : CatFeature) (n : Nat) (w : Nat → K) (hw : ∀ k, 0 < w k) (cases : List Nat)
    (h : f.InRange n cases) :
    (countLaws f (wrfFromCounts (finList n w)) n cases h).Weighted (f.weightedGini n w) where
  finite l hl hc := wrfFromCounts_eq f n w l (fun c hx => h c (hc c hx)) (weight_pos f w hw l hl).ne' l.length
  nonneg l hl hc := (c71_wrf_partial f n w hw ⟨List.replicate n 0, [], [], .fin 0, .fin 0, .fin 0, .fin 0, .fin 0,
    .fin 0⟩ (by simp) l (fun c hx => h c (hc c hx)) hl).2.1
  mean l r hl hr hc := by
    show wavg _ _ _ _ = _
    rw [wrfFromCounts_eq f n w l (fun c hx => h c (hc c (by simp [hx]))) (weight_pos f w hw l hl).ne',
      wrfFromCounts_eq f n w r (fun c hx => h c (hc c (by simp [hx]))) (weight_pos f w hw r hr).ne',
      wavg_fin _ _ _ _ (by simpa using hl)]

end CloudForest
