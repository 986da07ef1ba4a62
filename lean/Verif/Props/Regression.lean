import Verif.Lemmas.NumAda
import Verif.Props.AdaBoost
import Verif.Props.Values
import Verif.Props.Splitter
import Mathlib.Tactic.IntervalCases

/-!
# C77 to C80: absolute error, ordinal and adaptively boosted regression
-/

set_option linter.unusedSectionVars false

namespace CloudForest
variable {K : Type} [Field K] [LinearOrder K] [IsStrictOrderedRing K]

/-! ## Examples -/

/-- A feature with these values, none missing. -/
def exReg (l : List ℚ) : NumFeature ℚ := ⟨l.map .fin, l.map fun _ => false, "N:y", false⟩

theorem exReg_finite (l : List ℚ) (cases : List Nat) (h : ∀ c ∈ cases, c < l.length) : (exReg l).Finite cases := by
  intro c hc
  exact ⟨l[c]'(h c hc), by simp [exReg, h c hc]⟩

/-- Rounding toward zero. -/
def exTrunc : XF ℚ → Int
  | .fin x => if 0 ≤ x then ⌊x⌋ else ⌈x⌉
  | _ => -1

theorem exTrunc_whole : KeepsWhole exTrunc := by
  intro k
  simp [exTrunc]

/-- Scratch values. -/
def exScratch : Allocs ℚ := ⟨[], [], [], .fin 0, .fin 0, .fin 0, .fin 0, .fin 0, .fin 0⟩

/-! ## C77: absolute error -/

/-- **C77**, what holds: the impurity is the mean absolute error of predicting the mean of the known values, which is
what a leaf predicts. It is at most twice the error of any other prediction, and zero exactly if the values are all
the same.

Missing from the full property: the mean does not have the least absolute error, `c77_not_least`. -/
theorem c77_impurity_partial (f : NumFeature K) (hl : f.numData.length = f.missing.length) (a : Allocs K)
    (nt : NumText K) (cases : List Nat) (h : ∀ c ∈ cases, c < f.missing.length)
    (hfin : f.Finite (knownOf f.missing cases)) (hne : knownOf f.missing cases ≠ []) :
    ∃ p e : K, f.findPredicted nt cases = some (String.ofList (nt.fmt (.fin p))) ∧
      (l1Target f).impurity a cases = some (.fin e, a) ∧ e = f.absError p (knownOf f.missing cases) ∧
      (∀ q, e ≤ 2 * f.absError q (knownOf f.missing cases)) ∧
      (e = 0 ↔ ∀ c ∈ knownOf f.missing cases, ∀ d ∈ knownOf f.missing cases, f.value c = f.value d) := by
  refine ⟨f.meanOf (knownOf f.missing cases), _, ?_, ?_, rfl, absError_mean_le f _ hne, ?_⟩
  · unfold NumFeature.findPredicted
    rw [mean_eq f cases h hl hfin hne]
    rfl
  · show (f.l1Impurity cases).map _ = _
    rw [l1Impurity_eq f cases h hl hfin hne]
    rfl
  · rw [absError_zero f _ _ hne]
    constructor
    · intro h0 c hc d hd
      rw [h0 c hc, h0 d hd]
    · intro h0 c hc
      exact (meanOf_const f _ hne _ fun d hd => h0 d hd c hc).symm

/-- Values 0, 0 and 3: the mean is 1, the impurity 4/3. -/
example : (exReg [0, 0, 3]).Finite (knownOf (exReg [0, 0, 3]).missing [0, 1, 2]) ∧
    knownOf (exReg [0, 0, 3]).missing [0, 1, 2] ≠ [] ∧
    (l1Target (exReg [0, 0, 3])).impurity exScratch [0, 1, 2] = some (.fin (4 / 3), exScratch) :=
  ⟨exReg_finite _ _ (by decide), by decide, by decide +kernel⟩

/-- **C77 is false of the code.** For the values 0, 0 and 3 the target predicts 1 with mean absolute error 4/3, while
0 would have error 1: the absolute error is measured about the mean, not the median. -/
theorem c77_not_least : ∃ (f : NumFeature ℚ) (cases : List Nat),
    f.mean cases = some (.fin 1) ∧ (l1Target f).impurity exScratch cases = some (.fin (4 / 3), exScratch) ∧
    f.absError 0 cases = 1 ∧ f.l1Error cases (.fin 0) = some (.fin 1) :=
  ⟨exReg [0, 0, 3], [0, 1, 2], by decide +kernel, by decide +kernel, by decide +kernel, by decide +kernel⟩

/-! ## C78: dividing cases -/

/-- **C78**, what holds: with all values known, the impurity of a division by the absolute error, whether worked out
at once or after moving cases, is at most twice the impurity of the undivided cases.

Missing from the full property: it may be larger than the impurity of the undivided cases, `c78_l1_increase`. -/
theorem c78_l1_partial (f : NumFeature K) (hl : f.numData.length = f.missing.length) (a : Allocs K)
    (l r cases moved : List Nat) (hp : cases.Perm (l ++ r)) (hk : ∀ c ∈ cases, f.missing[c]? = some false)
    (hfin : f.Finite cases) (hnl : l ≠ []) (hnr : r ≠ []) :
    ∃ I S : K, (l1Target f).impurity a cases = some (.fin I, a) ∧
      (l1Target f).splitImpurity a l r none = some (.fin S, a) ∧
      (l1Target f).updateSImp a l r none moved = some (.fin S, a) ∧ S ≤ 2 * I := by
  have hlt : ∀ c ∈ cases, c < f.missing.length := by
    intro c hc
    by_contra hcon
    have := hk c hc
    rw [List.getElem?_eq_none (by omega)] at this
    cases this
  have hmem : ∀ c ∈ l ++ r, c ∈ cases := fun c hc => hp.mem_iff.2 hc
  have hkl := knownOf_self (missing := f.missing) (cases := l) fun c hc => hk c (hmem c (List.mem_append_left _ hc))
  have hkr := knownOf_self (missing := f.missing) (cases := r) fun c hc => hk c (hmem c (List.mem_append_right _ hc))
  have hkc := knownOf_self hk
  have hne : cases ≠ [] := by
    intro h0
    rw [h0] at hp
    exact hnl (List.append_eq_nil_iff.1 hp.nil_eq.symm).1
  have e0 := l1Impurity_eq f cases hlt hl (by rw [hkc]; exact hfin) (by rw [hkc]; exact hne)
  have e1 := l1Impurity_eq f l (fun c hc => hlt c (hmem c (List.mem_append_left _ hc))) hl
    (by rw [hkl]; exact fun c hc => hfin c (hmem c (List.mem_append_left _ hc))) (by rw [hkl]; exact hnl)
  have e2 := l1Impurity_eq f r (fun c hc => hlt c (hmem c (List.mem_append_right _ hc))) hl
    (by rw [hkr]; exact fun c hc => hfin c (hmem c (List.mem_append_right _ hc))) (by rw [hkr]; exact hnr)
  rw [hkc] at e0
  rw [hkl] at e1
  rw [hkr] at e2
  have hlpos : (0 : K) < (l.length : K) := Nat.cast_pos.2 (List.length_pos_of_ne_nil hnl)
  have hrpos : (0 : K) < (r.length : K) := Nat.cast_pos.2 (List.length_pos_of_ne_nil hnr)
  have hS : anewSplit f.l1Impurity l r none =
      some (.fin (sideMean (fun cs => f.absError (f.meanOf cs) cs) l r)) := by
    unfold anewSplit
    rw [e1, e2]
    simp only [Option.bind_eq_bind, Option.bind_some, missBlock, List.length_nil, lt_irrefl, if_false]
    have := wavg_fin_eq (nl := l.length) (nr := r.length) (by
      have := List.length_pos_of_ne_nil hnl
      omega) (f.absError (f.meanOf l) l) (f.absError (f.meanOf r) r)
    unfold wavg at this
    rw [this]
    rfl
  refine ⟨_, _, by show (f.l1Impurity cases).map _ = _; rw [e0]; rfl,
    by show (anewSplit f.l1Impurity l r none).map _ = _; rw [hS]; rfl,
    by show (anewSplit f.l1Impurity l r none).map _ = _; rw [hS]; rfl, ?_⟩
  generalize f.meanOf cases = μ
  have b1 := absError_mean_le f l hnl μ
  have b2 := absError_mean_le f r hnr μ
  have hw : f.absError μ cases = sideMean (f.absError μ) l r := by
    rw [absError_perm f μ hp]
    unfold sideMean NumFeature.absError
    rw [List.map_append, List.sum_append, List.length_append, Nat.cast_add, mul_div_cancel₀ _ hlpos.ne',
      mul_div_cancel₀ _ hrpos.ne']
  rw [hw]
  unfold sideMean
  rw [← mul_div_assoc]
  apply div_le_div_of_nonneg_right _ (by linarith)
  nlinarith

/-- Values 1, 2, 4 and 8 divided in the middle: 5/4 instead of 9/4. -/
example : (∀ c ∈ [0, 1, 2, 3], (exReg [1, 2, 4, 8]).missing[c]? = some false) ∧
    (exReg [1, 2, 4, 8]).Finite [0, 1, 2, 3] ∧
    ((l1Target (exReg [1, 2, 4, 8])).impurity exScratch [0, 1, 2, 3]).map (·.1) = some (.fin (9 / 4)) ∧
    ((l1Target (exReg [1, 2, 4, 8])).splitImpurity exScratch [0, 1] [2, 3] none).map (·.1) = some (.fin (5 / 4)) :=
  ⟨by decide, exReg_finite _ _ (by decide), by decide +kernel, by decide +kernel⟩

/-- **C78**, with cases set aside for a missing value: the impurity of a division into three is the mean of the
impurities of its parts, each weighted by its number of cases, and again at most twice that of the undivided cases. -/
theorem c78_l1_missing_partial (f : NumFeature K) (hl : f.numData.length = f.missing.length) (a : Allocs K)
    (l r m cases moved : List Nat) (hp : cases.Perm (l ++ r ++ m)) (hk : ∀ c ∈ cases, f.missing[c]? = some false)
    (hfin : f.Finite cases) (hnl : l ≠ []) (hnr : r ≠ []) (hnm : m ≠ []) :
    ∃ I Il Ir Im S : K, (l1Target f).impurity a cases = some (.fin I, a) ∧
      (l1Target f).impurity a l = some (.fin Il, a) ∧ (l1Target f).impurity a r = some (.fin Ir, a) ∧
      (l1Target f).impurity a m = some (.fin Im, a) ∧
      (l1Target f).splitImpurity a l r (some m) = some (.fin S, a) ∧
      (l1Target f).updateSImp a l r (some m) moved = some (.fin S, a) ∧
      S = (l.length * Il + r.length * Ir + m.length * Im) / cases.length ∧ S ≤ 2 * I := by
  have hlt : ∀ c ∈ cases, c < f.missing.length := by
    intro c hc
    by_contra hcon
    have := hk c hc
    rw [List.getElem?_eq_none (by omega)] at this
    cases this
  have hmem : ∀ c ∈ l ++ r ++ m, c ∈ cases := fun c hc => hp.mem_iff.2 hc
  have hml : ∀ c ∈ l, c ∈ cases := fun c hc => hmem c (by simp [hc])
  have hmr : ∀ c ∈ r, c ∈ cases := fun c hc => hmem c (by simp [hc])
  have hmm : ∀ c ∈ m, c ∈ cases := fun c hc => hmem c (by simp [hc])
  have himp : ∀ cs, (∀ c ∈ cs, c ∈ cases) → cs ≠ [] →
      f.l1Impurity cs = some (.fin (f.absError (f.meanOf cs) cs)) := by
    intro cs hcs hne
    have hkc := knownOf_self (missing := f.missing) (cases := cs) fun c hc => hk c (hcs c hc)
    have := l1Impurity_eq f cs (fun c hc => hlt c (hcs c hc)) hl
      (by rw [hkc]; exact fun c hc => hfin c (hcs c hc)) (by rw [hkc]; exact hne)
    rwa [hkc] at this
  have hne : cases ≠ [] := by
    intro h0
    rw [h0] at hp
    exact hnl (List.append_eq_nil_iff.1 (List.append_eq_nil_iff.1 hp.nil_eq.symm).1).1
  have hlpos : (0 : K) < (l.length : K) := Nat.cast_pos.2 (List.length_pos_of_ne_nil hnl)
  have hrpos : (0 : K) < (r.length : K) := Nat.cast_pos.2 (List.length_pos_of_ne_nil hnr)
  have hmpos : (0 : K) < (m.length : K) := Nat.cast_pos.2 (List.length_pos_of_ne_nil hnm)
  have hcount : (cases.length : K) = l.length + r.length + m.length := by
    rw [hp.length_eq, List.length_append, List.length_append, Nat.cast_add, Nat.cast_add]
  have hS : anewSplit f.l1Impurity l r (some m) =
      some (.fin ((l.length * f.absError (f.meanOf l) l + r.length * f.absError (f.meanOf r) r +
        m.length * f.absError (f.meanOf m) m) / cases.length)) := by
    unfold anewSplit
    rw [himp l hml hnl, himp r hmr hnr]
    simp only [Option.bind_eq_bind, Option.bind_some]
    rw [if_pos (show 0 < (missBlock (some m)).length from List.length_pos_of_ne_nil hnm), hcount]
    unfold missBlock
    rw [himp m hmm hnm]
    unfold XF.ofNat
    simp only [Option.bind_some, XF.fin_mul, XF.fin_add]
    rw [XF.fin_div _ (by positivity)]
  refine ⟨_, _, _, _, _, by show (f.l1Impurity cases).map _ = _; rw [himp cases (fun _ h => h) hne]; rfl,
    by show (f.l1Impurity l).map _ = _; rw [himp l hml hnl]; rfl,
    by show (f.l1Impurity r).map _ = _; rw [himp r hmr hnr]; rfl,
    by show (f.l1Impurity m).map _ = _; rw [himp m hmm hnm]; rfl,
    by show (anewSplit f.l1Impurity l r (some m)).map _ = _; rw [hS]; rfl,
    by show (anewSplit f.l1Impurity l r (some m)).map _ = _; rw [hS]; rfl, rfl, ?_⟩
  generalize f.meanOf cases = μ
  have b1 := absError_mean_le f l hnl μ
  have b2 := absError_mean_le f r hnr μ
  have b3 := absError_mean_le f m hnm μ
  have hw : f.absError μ cases =
      (l.length * f.absError μ l + r.length * f.absError μ r + m.length * f.absError μ m) / cases.length := by
    rw [absError_perm f μ hp, hcount]
    unfold NumFeature.absError
    rw [List.map_append, List.sum_append, List.map_append, List.sum_append, List.length_append, List.length_append,
      Nat.cast_add, Nat.cast_add, mul_div_cancel₀ _ hlpos.ne', mul_div_cancel₀ _ hrpos.ne',
      mul_div_cancel₀ _ hmpos.ne']
  rw [hw, ← mul_div_assoc]
  apply div_le_div_of_nonneg_right _ (Nat.cast_nonneg _)
  nlinarith

/-- The same values with a fifth and sixth case set aside. -/
example : (∀ c ∈ [0, 1, 2, 3, 4, 5], (exReg [1, 2, 4, 8, 0, 6]).missing[c]? = some false) ∧
    (exReg [1, 2, 4, 8, 0, 6]).Finite [0, 1, 2, 3, 4, 5] ∧
    ((l1Target (exReg [1, 2, 4, 8, 0, 6])).splitImpurity exScratch [0, 1] [2, 3] (some [4, 5])).map (·.1) =
      some (.fin (11 / 6)) :=
  ⟨by decide, exReg_finite _ _ (by decide), by decide +kernel⟩

/-- **C78 is false of the code**, absolute error: dividing the values into 0, 0, 3 and -3/2, 3/2, 3/2 raises the
impurity from 5/4 to 4/3. -/
theorem c78_l1_increase : ∃ (f : NumFeature ℚ) (l r : List Nat),
    (l1Target f).impurity exScratch (l ++ r) = some (.fin (5 / 4), exScratch) ∧
    (l1Target f).splitImpurity exScratch l r none = some (.fin (4 / 3), exScratch) :=
  ⟨exReg [0, 0, 3, -3 / 2, 3 / 2, 3 / 2], [0, 1, 2], [3, 4, 5], by decide +kernel, by decide +kernel⟩

/-- **C78 is false of the code**, ordinal regression: dividing the values into 0, 0, 9 and 5, 5, 5 raises the impurity
from 11 to 27/2. -/
theorem c78_ordinal_increase : ∃ (f : NumFeature ℚ) (o : Ordinal ℚ) (l r : List Nat), f.Whole ∧
    newOrdinal exTrunc f = some o ∧
    (ordinalTarget exTrunc o).impurity exScratch (l ++ r) = some (.fin 11, exScratch) ∧
    (ordinalTarget exTrunc o).splitImpurity exScratch l r none = some (.fin (27 / 2), exScratch) := by
  refine ⟨exReg [0, 0, 9, 5, 5, 5], ⟨exReg [0, 0, 9, 5, 5, 5], 10⟩, [0, 1, 2], [3, 4, 5], ?_, by kernel_refl,
    by decide +kernel, by decide +kernel⟩
  intro i hi
  have : i < 6 := hi
  interval_cases i
  · exact ⟨0, by decide +kernel⟩
  · exact ⟨0, by decide +kernel⟩
  · exact ⟨9, by decide +kernel⟩
  · exact ⟨5, by decide +kernel⟩
  · exact ⟨5, by decide +kernel⟩
  · exact ⟨5, by decide +kernel⟩

/-! ## C79: ordinal regression -/

/-- **C79.** For an ordinal target of whole numbers, a leaf predicts a value that no other occurs more often than
among its known cases, and one that does occur among them. The impurity is the mean squared distance of the known
values from it. -/
theorem c79_ordinal (trunc : XF K → Int) (ht : KeepsWhole trunc) (f : NumFeature K) (hw : f.Whole) (a : Allocs K)
    (nt : NumText K) (cases : List Nat) (h : ∀ c ∈ cases, c < f.missing.length)
    (hne : knownOf f.missing cases ≠ []) :
    ∃ (o : Ordinal K) (p : K), newOrdinal trunc f = some o ∧
      o.findPredicted trunc nt cases = some (String.ofList (nt.fmt (.fin p))) ∧
      (∀ x : K, f.valueCount (knownOf f.missing cases) x ≤ f.valueCount (knownOf f.missing cases) p) ∧
      (∃ c ∈ knownOf f.missing cases, f.value c = p) ∧
      (ordinalTarget trunc o).impurity a cases = some (.fin (f.sqError p (knownOf f.missing cases)), a) := by
  obtain ⟨o, m, h1, h2, h3, h4⟩ := mode_eq trunc ht f hw cases h
  refine ⟨o, (m : K), h1, ?_, h4, ?_, ?_⟩
  · unfold Ordinal.findPredicted
    rw [h3]
    rfl
  · obtain ⟨c, hc⟩ := List.exists_mem_of_ne_nil _ hne
    have hpos : 0 < f.valueCount (knownOf f.missing cases) (f.value c) :=
      List.countP_pos_iff.2 ⟨c, hc, by simp⟩
    obtain ⟨d, hd, he⟩ := List.countP_pos_iff.1 (lt_of_lt_of_le hpos (h4 (f.value c)))
    exact ⟨d, hd, by simpa using he⟩
  · show (o.impurity trunc cases).map _ = _
    unfold Ordinal.impurity
    rw [h3, h2, Option.bind_eq_bind, Option.bind_some, error_eq f cases h ?_ hne]
    · rfl
    · intro c hc
      obtain ⟨k, hk⟩ := hw c (h c (mem_knownOf.1 hc).1)
      exact ⟨_, hk⟩

/-- 4, 1, 4, 7 and a missing value: the prediction is 4, the impurity 6. -/
example : (newOrdinal exTrunc ⟨[.fin 4, .fin 1, .fin 4, .fin 7, .fin 1], [false, false, false, false, true], "", true⟩).bind
    (fun o => (o.mode exTrunc [0, 1, 2, 3, 4]).bind fun p => (o.impurity exTrunc [0, 1, 2, 3, 4]).map fun e => (p, e)) =
      some (.fin 4, .fin (9 / 2)) := by decide +kernel

/-! ## C80: adaptive boosting of regression -/

/-- **C80**, one round, what holds: if two known values in some leaf differ, `Boost` returns positive weights with sum
one. With the error at most the norm, each known case of a leaf is reweighed by the exponential of the tree's weight
times its distance from the leaf's mean less the error, and the others keep their weight, up to one common factor.
With a larger error nothing changes and the tree has weight zero.

Missing from the full property: with no error at all the weights are lost, `c80_perfect`. -/
theorem c80_step_partial (el : ExpLog K) {E L : K → K} (law : el.Lawful E L) (f : NumFeature K)
    (hlen : f.numData.length = f.missing.length) (N : K) (w : Nat → K) (hw : ∀ i < f.missing.length, 0 < w i)
    (hs : ((List.range f.missing.length).map w).sum = 1) (leaves : List (List Nat)) (hl : f.Leaves leaves)
    (hx : ∃ leaf ∈ leaves, ∃ c ∈ knownOf f.missing leaf, ∃ d ∈ knownOf f.missing leaf, f.value c ≠ f.value d) :
    ∃ (w' : Nat → K) (α Z : K),
      NumAda.boost el ⟨f, finList f.missing.length w, .fin N⟩ leaves =
        some (⟨f, finList f.missing.length w', .fin N⟩, .fin α) ∧
      (∀ i < f.missing.length, 0 < w' i) ∧ ((List.range f.missing.length).map w').sum = 1 ∧
      (N < f.weightedAbs w leaves → α = 0 ∧ w' = w) ∧
      (f.weightedAbs w leaves ≤ N → α = L (N / f.weightedAbs w leaves) ∧ 0 < Z ∧
        (∀ leaf ∈ leaves, ∀ c ∈ knownOf f.missing leaf, w' c * Z =
          w c * E (α * (|f.value c - f.meanOf (knownOf f.missing leaf)| - f.weightedAbs w leaves))) ∧
        ∀ c < f.missing.length, c ∉ knownOf f.missing leaves.flatten → w' c * Z = w c) := by
  have hpos := weightedAbs_pos f hw hl.cases hx
  have key := numAdaBoost_eq el law f hlen N w hw leaves hl hpos
  have hn : f.missing.length ≠ 0 := by
    intro h0
    rw [h0] at hs
    simp at hs
  by_cases hlt : N < f.weightedAbs w leaves
  · rw [if_pos hlt] at key
    exact ⟨w, 0, 1, key, hw, hs, fun _ => ⟨rfl, rfl⟩, fun h => absurd hlt (not_lt.2 h)⟩
  · rw [if_neg hlt] at key
    simp only at key
    generalize f.weightedAbs w leaves = W at *
    have hg : 0 < ((List.range f.missing.length).map fun i => w i * numAdaFactor f E (L (N / W)) W leaves i).sum :=
      sum_range_pos hn fun i hi => mul_pos (hw i hi) (numAdaFactor_pos f law.pos _ _ leaves i)
    refine ⟨_, _, _, key,
      fun i hi => div_pos (mul_pos (hw i hi) (numAdaFactor_pos f law.pos _ _ leaves i)) hg, ?_,
      fun h => absurd h hlt, fun _ => ⟨rfl, hg, ?_, ?_⟩⟩
    · rw [sum_range_div, div_self hg.ne']
    · intro leaf hlf c hc
      rw [div_mul_cancel₀ _ hg.ne', numAdaFactor_of_mem f E _ W leaves hl.disjoint leaf hlf c (mem_knownOf.1 hc).1]
      unfold numAdaFac
      rw [if_pos hc]
    · intro c _ hc
      rw [div_mul_cancel₀ _ hg.ne', numAdaFactor_not f E _ W leaves c hc, mul_one]

/-- **C80**, all rounds, what holds: `NewNumAdaBoostTarget` succeeds, and from the weights it starts with, any sequence
of partitions in each of which some leaf has two different known values keeps the weights positive with sum one. The
norm it compares errors to is the total absolute deviation of the known values from their mean.

Missing from the full property: partitions without error, `c80_perfect`. -/
theorem c80_rounds_partial (el : ExpLog K) {E L : K → K} (law : el.Lawful E L) (f : NumFeature K)
    (hlen : f.numData.length = f.missing.length) (hn : f.missing ≠ [])
    (hfin : f.Finite (knownOf f.missing (List.range f.missing.length)))
    (parts : List (List (List Nat))) (hp : ∀ leaves ∈ parts, f.Leaves leaves ∧
      ∃ leaf ∈ leaves, ∃ c ∈ knownOf f.missing leaf, ∃ d ∈ knownOf f.missing leaf, f.value c ≠ f.value d) :
    ∃ (w : Nat → K) (N : K), N = ((knownOf f.missing (List.range f.missing.length)).map fun c =>
        |f.value c - f.meanOf (knownOf f.missing (List.range f.missing.length))|).sum ∧
      (do let t ← newNumAda f
          parts.foldlM (fun (t : NumAda K) leaves => (t.boost el leaves).map (·.1)) t) =
        some ⟨f, finList f.missing.length w, .fin N⟩ ∧
      (∀ i < f.missing.length, 0 < w i) ∧ ((List.range f.missing.length).map w).sum = 1 := by
  have h0 : (f.missing.length : K) ≠ 0 := by simpa using hn
  have hpos : (0 : K) < (f.missing.length : K) := lt_of_le_of_ne (Nat.cast_nonneg _) (Ne.symm h0)
  have hstart : List.replicate f.missing.length (XF.fin 1 / XF.ofNat f.missing.length : XF K) =
      finList f.missing.length fun _ => 1 / (f.missing.length : K) := by
    unfold finList
    rw [List.map_const', List.length_range]
    congr 1
    unfold XF.ofNat
    rw [XF.fin_div _ h0]
  obtain ⟨N, hN⟩ : ∃ N, N = ((knownOf f.missing (List.range f.missing.length)).map fun c =>
        |f.value c - f.meanOf (knownOf f.missing (List.range f.missing.length))|).sum := ⟨_, rfl⟩
  have hnew : newNumAda f = some ⟨f, finList f.missing.length fun _ => 1 / (f.missing.length : K), .fin N⟩ := by
    unfold newNumAda
    simp only
    rw [hstart, numAdaImp_eq f (.fin 0) _ (List.range f.missing.length) (fun c hc => List.mem_range.1 hc) hlen hfin]
    simp only [Option.bind_eq_bind, Option.bind_some, XF.ofNat]
    have : ∀ x y : K, (XF.fin x * XF.fin y : XF K) = .fin (x * y) := fun _ _ => rfl
    rw [this, hN]
    have e : ∀ l : List Nat, ∀ μ : K, (l.map fun c => 1 / (f.missing.length : K) * |f.value c - μ|).sum *
        (f.missing.length : K) = (l.map fun c => |f.value c - μ|).sum := by
      intro l μ
      induction l with
      | nil => simp
      | cons c cs ih =>
        rw [List.map_cons, List.sum_cons, List.map_cons, List.sum_cons, add_mul, ih]
        congr 1
        field_simp
    rw [e]
  have hgen : ∀ w : Nat → K, (∀ i < f.missing.length, 0 < w i) → ((List.range f.missing.length).map w).sum = 1 →
      ∃ w' : Nat → K, parts.foldlM (fun (t : NumAda K) leaves => (t.boost el leaves).map (·.1))
        ⟨f, finList f.missing.length w, .fin N⟩ = some ⟨f, finList f.missing.length w', .fin N⟩ ∧
      (∀ i < f.missing.length, 0 < w' i) ∧ ((List.range f.missing.length).map w').sum = 1 := by
    clear hnew
    induction parts with
    | nil => intro w h1 h2; exact ⟨w, rfl, h1, h2⟩
    | cons leaves ps ih =>
      intro w h1 h2
      obtain ⟨hl, hx⟩ := hp leaves (by simp)
      obtain ⟨w', α, Z, e, p1, p2, -⟩ := c80_step_partial el law f hlen N w h1 h2 leaves hl hx
      obtain ⟨w'', e', q⟩ := ih (fun l h => hp l (by simp [h])) w' p1 p2
      refine ⟨w'', ?_, q⟩
      rw [List.foldlM_cons, e]
      exact e'
  obtain ⟨w', e, q1, q2⟩ := hgen (fun _ => 1 / (f.missing.length : K)) (fun i _ => one_div_pos.2 hpos) (by
    rw [List.map_const', List.sum_replicate, List.length_range, nsmul_eq_mul]
    field_simp)
  exact ⟨w', N, hN, by rw [hnew]; exact e, q1, q2⟩

/-- Values 1, 3, 8 and 9 with a missing one, and a partition into two leaves each of which has two values: the laws
hold for the real exponential and logarithm, the hypotheses for this partition, and the error is 3/5 of a norm
of 13. -/
example : ((⟨[.fin 1, .fin 3, .fin 8, .fin 9, .fin 0], [false, false, false, false, true], "N:y", true⟩ :
      NumFeature ℚ).Leaves [[0, 1, 4], [2, 3]]) ∧
    (newNumAda (⟨[.fin 1, .fin 3, .fin 8, .fin 9, .fin 0], [false, false, false, false, true], "N:y", true⟩ :
      NumFeature ℚ)).map (fun t => (t.weights, t.norm, t.impurity [0, 1, 4], t.impurity [2, 3])) =
      some ([.fin (1 / 5), .fin (1 / 5), .fin (1 / 5), .fin (1 / 5), .fin (1 / 5)], .fin 13, some (.fin (2 / 5)),
        some (.fin (1 / 5))) := by
  refine ⟨⟨by decide, by decide, ?_⟩, by decide +kernel⟩
  intro leaf hl c hc
  have h1 := (mem_knownOf.1 hc).1
  simp only [List.mem_cons, List.not_mem_nil, or_false] at hl
  rcases hl with rfl | rfl
  · simp only [List.mem_cons, List.not_mem_nil, or_false] at h1
    rcases h1 with rfl | rfl | rfl <;> exact ⟨_, rfl⟩
  · simp only [List.mem_cons, List.not_mem_nil, or_false] at h1
    rcases h1 with rfl | rfl <;> exact ⟨_, rfl⟩

/-- **C80 is false of the code**: when every leaf is pure the tree gets an infinite weight and, as infinity times zero
is not a number, neither is any weight afterwards. `log` and `exp` are as in Go at infinity and for what is not a
number. -/
theorem c80_perfect (el : ExpLog ℚ) (hlog : el.log .pinf = .pinf) (hexp : el.exp .nan = .nan) :
    ∃ f : NumFeature ℚ, ((newNumAda f).bind fun t => t.boost el [[0, 1], [2]]).map (fun r => (r.1.weights, r.2)) =
      some ([.nan, .nan, .nan], .pinf) := by
  refine ⟨exReg [1, 1, 4], ?_⟩
  have h1 : newNumAda (exReg [1, 1, 4]) = some ⟨exReg [1, 1, 4], [.fin (1 / 3), .fin (1 / 3), .fin (1 / 3)], .fin 4⟩ := by
    kernel_refl
  have h2 : NumAda.impurity ⟨exReg [1, 1, 4], [.fin (1 / 3), .fin (1 / 3), .fin (1 / 3)], .fin 4⟩ [0, 1] =
      some (.fin 0) := by decide +kernel
  have h3 : NumAda.impurity ⟨exReg [1, 1, 4], [.fin (1 / 3), .fin (1 / 3), .fin (1 / 3)], .fin 4⟩ [2] =
      some (.fin 0) := by decide +kernel
  have h4 : (exReg [1, 1, 4]).mean [0, 1] = some (.fin 1) := by decide +kernel
  have h5 : (exReg [1, 1, 4]).mean [2] = some (.fin 4) := by decide +kernel
  rw [h1, Option.bind_some]
  unfold NumAda.boost
  simp only [List.foldlM_cons, List.foldlM_nil, h2, h3, h4, h5, List.length_cons, List.length_nil, Option.bind_eq_bind,
    Option.bind_some, pure]
  have h6 : (XF.fin 0 + XF.fin 0 + XF.fin 0 : XF ℚ) = .fin 0 := by decide +kernel
  have h7 : (XF.fin 4 / XF.fin 0 : XF ℚ) = .pinf := by decide +kernel
  have h8 : ¬ ((XF.fin 4 : XF ℚ) < .fin 0) := by decide +kernel
  rw [h6]
  simp only [h7, hlog, h8, if_false]
  have h9 : ∀ x : ℚ, (XF.pinf * ((XF.fin x - XF.fin x).abs - XF.fin 0) : XF ℚ) = .nan := by
    intro x
    have e : (XF.fin x - XF.fin x : XF ℚ) = .fin 0 := by rw [XF.fin_sub, sub_self]
    rw [e]
    decide +kernel
  have hn : (XF.fin (1 / 3) * XF.nan : XF ℚ) = .nan := by decide +kernel
  simp only [NumAda.reweigh, exReg, List.map_cons, List.map_nil, List.getElem?_cons_zero, List.getElem?_cons_succ,
    Option.bind_eq_bind, Option.bind_some, Bool.false_eq_true, if_false, h9, hexp, wr, List.length_cons,
    List.length_nil, List.set_cons_zero, List.set_cons_succ, hn]
  decide +kernel

example : realExpLog.log .pinf = .pinf ∧ realExpLog.exp .nan = .nan := ⟨rfl, rfl⟩

end CloudForest
