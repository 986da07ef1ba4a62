import Verif.Lemmas.Impurity2
import Verif.Props.Split
import Mathlib.Tactic.FinCases
import Mathlib.Tactic.NormNum

/-!
# C13, C14, C15, C46: impurities
-/

set_option linter.unusedSectionVars false

namespace CloudForest
variable {K : Type} [Field K] [LinearOrder K] [IsStrictOrderedRing K]

/-! ## C13: incremental = recomputed -/

/-- Move the blocks `bs` from the right to the left one after another, with an incremental update
after each; `rest` stays on the right. -/
def moveBlocks (T : Target K) (m : Option (List Nat)) (rest : List Nat) :
    List (List Nat) → List Nat → XF K × Allocs K → Option (XF K × Allocs K)
  | [], _, st => some st
  | b :: bs, l, st => do
    let st ← T.updateSImp st.2 (l ++ b) (bs.flatten ++ rest) m b
    moveBlocks T m rest bs (l ++ b) st

theorem count_step (f : CatFeature) (imp : Nat → List Int → XF K) (n : Nat) (a : Allocs K)
    (ha : a.counter.length = n ∧ a.lcounter.length = n ∧ a.rcounter.length = n)
    (l r mv r' : List Nat) (m : Option (List Nat)) (hl : f.InRange n l) (hr : f.InRange n r)
    (hm : f.InRange n (missBlock m)) (e : r = mv ++ r') :
    ∃ st, (countTarget f imp).splitImpurity a l r m = some st ∧
      (countTarget f imp).updateSImp st.2 (l ++ mv) r' m mv =
        (countTarget f imp).splitImpurity a (l ++ mv) r' m := by
  obtain ⟨h1, h2, h3⟩ := ha
  have hmv : f.InRange n mv := fun c hc => hr c (by rw [e]; exact List.mem_append_left _ hc)
  have hr' : f.InRange n r' := fun c hc => hr c (by rw [e]; exact List.mem_append_right _ hc)
  have hl' : f.InRange n (l ++ mv) := fun c hc => (List.mem_append.1 hc).elim (hl c) (hmv c)
  have cl := countPerCat_eq f l a.lcounter (by rw [h2]; exact hl)
  have cr := countPerCat_eq f r a.rcounter (by rw [h3]; exact hr)
  have cl' := countPerCat_eq f (l ++ mv) a.lcounter (by rw [h2]; exact hl')
  have cr' := countPerCat_eq f r' a.rcounter (by rw [h3]; exact hr')
  have cm := countPerCat_eq f (missBlock m) a.counter (by rw [h1]; exact hm)
  have hmove := moveCounts_eq f n mv l r r' hmv (by rw [e])
  rw [h2] at cl cl'; rw [h3] at cr cr'; rw [h1] at cm
  simp only [countTarget, countSplitImpurity, countUpdateSImp, cl, cr, cm, cl', cr',
    Option.bind_eq_bind, Option.bind_some]
  by_cases h0 : 0 < (missBlock m).length
  · simp only [if_pos h0, Option.some.injEq, exists_eq_left', hmove, Option.bind_some]
  · simp only [if_neg h0, Option.some.injEq, exists_eq_left', hmove, Option.bind_some]

/-- **C13** for every count based target (Gini, entropy): after any chain of block moves the
incremental updates return the split impurity a computation from scratch returns, and leave the
same counters behind; neither panics. Missing target values (stored as category 0) included. -/
theorem c13_counts (f : CatFeature) (imp : Nat → List Int → XF K) (n : Nat) (a : Allocs K)
    (ha : a.counter.length = n ∧ a.lcounter.length = n ∧ a.rcounter.length = n)
    (l rest : List Nat) (bs : List (List Nat)) (m : Option (List Nat))
    (hl : f.InRange n l) (hr : f.InRange n (bs.flatten ++ rest))
    (hm : f.InRange n (missBlock m)) :
    ∃ st, (countTarget f imp).splitImpurity a l (bs.flatten ++ rest) m = some st ∧
      moveBlocks (countTarget f imp) m rest bs l st =
        (countTarget f imp).splitImpurity a (l ++ bs.flatten) rest m := by
  induction bs generalizing l with
  | nil =>
    obtain ⟨st, h1, -⟩ := count_step f imp n a ha l rest [] rest m hl hr hm rfl
    exact ⟨st, h1, by simp [moveBlocks, h1]⟩
  | cons b bs ih =>
    have e : (b :: bs).flatten ++ rest = b ++ (bs.flatten ++ rest) := by simp
    rw [e] at hr
    obtain ⟨st, h1, h2⟩ := count_step f imp n a ha l _ b (bs.flatten ++ rest) m hl hr hm rfl
    have hl' : f.InRange n (l ++ b) := fun c hc => (List.mem_append.1 hc).elim (hl c)
      fun h => hr c (List.mem_append_left _ h)
    obtain ⟨st', h3, h4⟩ := ih (l ++ b) hl' (fun c hc => hr c (List.mem_append_right _ hc))
    rw [e]
    refine ⟨st, h1, ?_⟩
    rw [moveBlocks, h2, h3]
    simp only [Option.bind_eq_bind, Option.bind_some]
    rw [h4]; simp

/-- **C13**, Gini. -/
theorem c13_gini (f : CatFeature) (n : Nat) (a : Allocs K)
    (ha : a.counter.length = n ∧ a.lcounter.length = n ∧ a.rcounter.length = n)
    (l rest : List Nat) (bs : List (List Nat)) (m : Option (List Nat))
    (hl : f.InRange n l) (hr : f.InRange n (bs.flatten ++ rest))
    (hm : f.InRange n (missBlock m)) :
    ∃ st, (giniTarget f : Target K).splitImpurity a l (bs.flatten ++ rest) m = some st ∧
      moveBlocks (giniTarget f) m rest bs l st =
        (giniTarget f).splitImpurity a (l ++ bs.flatten) rest m :=
  c13_counts f giniFromCounts n a ha l rest bs m hl hr hm

theorem sse_step (f : NumFeature K) (a : Allocs K)
    (l r mv r' : List Nat) (m : Option (List Nat)) (hl : f.Finite l) (hr : f.Finite r)
    (hm : f.Finite (missBlock m)) (e : r = mv ++ r') :
    ∃ st, (sseTarget f).splitImpurity a l r m = some st ∧
      (sseTarget f).updateSImp st.2 (l ++ mv) r' m mv =
        (sseTarget f).splitImpurity a (l ++ mv) r' m := by
  have hmv : f.Finite mv := fun c hc => hr c (by rw [e]; exact List.mem_append_left _ hc)
  have hr' : f.Finite r' := fun c hc => hr c (by rw [e]; exact List.mem_append_right _ hc)
  have hl' : f.Finite (l ++ mv) := fun c hc => (List.mem_append.1 hc).elim (hl c) (hmv c)
  have er : (r.map f.value).sum = (mv.map f.value).sum + (r'.map f.value).sum := by
    rw [e, List.map_append, List.sum_append]
  have er2 : (r.map fun c => f.value c ^ 2).sum =
      (mv.map fun c => f.value c ^ 2).sum + (r'.map fun c => f.value c ^ 2).sum := by
    rw [e, List.map_append, List.sum_append]
  simp only [sseTarget, NumFeature.splitImpurity, NumFeature.updateSImp, sums_eq f l hl,
    sums_eq f r hr, sums_eq f _ hl', sums_eq f r' hr', sums_eq f _ hm, sums_eq f mv hmv,
    Option.bind_eq_bind, Option.bind_some]
  by_cases h0 : 0 < (missBlock m).length
  · simp only [if_pos h0, Option.some.injEq, exists_eq_left', XF.fin_add, XF.fin_sub, er, er2,
      add_sub_cancel_left, List.map_append, List.sum_append]
  · simp only [if_neg h0, Option.some.injEq, exists_eq_left', XF.fin_add, XF.fin_sub, er, er2,
      add_sub_cancel_left, List.map_append, List.sum_append]

/-- **C13**, numerical targets with finite values (missing ones are stored as zero). -/
theorem c13_sse (f : NumFeature K) (a : Allocs K)
    (l rest : List Nat) (bs : List (List Nat)) (m : Option (List Nat))
    (hl : f.Finite l) (hr : f.Finite (bs.flatten ++ rest)) (hm : f.Finite (missBlock m)) :
    ∃ st, (sseTarget f).splitImpurity a l (bs.flatten ++ rest) m = some st ∧
      moveBlocks (sseTarget f) m rest bs l st =
        (sseTarget f).splitImpurity a (l ++ bs.flatten) rest m := by
  induction bs generalizing l with
  | nil =>
    obtain ⟨st, h1, -⟩ := sse_step f a l rest [] rest m hl hr hm rfl
    exact ⟨st, h1, by simp [moveBlocks, h1]⟩
  | cons b bs ih =>
    have e : (b :: bs).flatten ++ rest = b ++ (bs.flatten ++ rest) := by simp
    rw [e] at hr
    obtain ⟨st, h1, h2⟩ := sse_step f a l _ b (bs.flatten ++ rest) m hl hr hm rfl
    have hl' : f.Finite (l ++ b) := fun c hc => (List.mem_append.1 hc).elim (hl c)
      fun h => hr c (List.mem_append_left _ h)
    obtain ⟨st', h3, h4⟩ := ih (l ++ b) hl' (fun c hc => hr c (List.mem_append_right _ hc))
    rw [e]
    refine ⟨st, h1, ?_⟩
    rw [moveBlocks, h2, h3]
    simp only [Option.bind_eq_bind, Option.bind_some]
    rw [h4]; simp

/-- A class target: four cases, classes 0, 1, 2, 1. -/
def exClass : CatFeature := ⟨.empty, [0, 1, 2, 1], [false, false, false, false], "t", false, false⟩
/-- A number target: 1, 3, 5, and a missing value stored as 0. -/
def exNum : NumFeature ℚ :=
  ⟨[.fin 1, .fin 3, .fin 5, .fin 0], [false, false, false, true], "y", true⟩
/-- Fresh scratch values. -/
def exAllocs : Allocs ℚ :=
  ⟨[0, 0, 0], [9, 9, 9], [0, 7, 0], .fin 0, .fin 0, .fin 0, .fin 0, .fin 0, .fin 0⟩

theorem exClass_inRange : exClass.InRange 3 [0, 1, 2, 3] := by
  intro c hc; fin_cases hc <;> simp [exClass]

theorem exNum_finite : exNum.Finite [0, 1, 2, 3] := by
  intro c hc; fin_cases hc <;> simp [exNum]

example : ∃ st, (giniTarget exClass : Target ℚ).splitImpurity exAllocs [0] [1, 3, 2] none = some st ∧
    moveBlocks (giniTarget exClass) none [2] [[1], [3]] [0] st =
      (giniTarget exClass).splitImpurity exAllocs [0, 1, 3] [2] none :=
  c13_gini exClass 3 exAllocs ⟨rfl, rfl, rfl⟩ [0] [2] [[1], [3]] none
    (fun c hc => exClass_inRange c (by simp at hc; simp [hc]))
    (fun c hc => exClass_inRange c (by simp at hc; rcases hc with h | h | h <;> simp [h]))
    (by intro c hc; cases hc)

example : ∃ st, (sseTarget exNum).splitImpurity exAllocs [0] [1, 2] (some [3]) = some st ∧
    moveBlocks (sseTarget exNum) (some [3]) [2] [[1]] [0] st =
      (sseTarget exNum).splitImpurity exAllocs [0, 1] [2] (some [3]) :=
  c13_sse exNum exAllocs [0] [2] [[1]] (some [3])
    (fun c hc => exNum_finite c (by simp at hc; simp [hc]))
    (fun c hc => exNum_finite c (by simp at hc; rcases hc with h | h <;> simp [h]))
    (fun c hc => exNum_finite c (by simp [missBlock] at hc; simp [hc]))

/-! ## C14: Gini -/

/-- **C14**: the target's impurity is the textbook Gini impurity, which lies in [0,1) and is
zero exactly for cases of one category. -/
theorem c14_gini (f : CatFeature) (n : Nat) (a : Allocs K) (ha : a.counter.length = n)
    (cases : List Nat) (hc : f.InRange n cases) (hne : cases ≠ []) :
    (∃ a', (giniTarget f).impurity a cases = some (.fin (f.gini K n cases), a')) ∧
      0 ≤ f.gini K n cases ∧ f.gini K n cases < 1 ∧
      (f.gini K n cases = 0 ↔ ∀ c ∈ cases, ∀ d ∈ cases, f.catData[c]? = f.catData[d]?) := by
  refine ⟨⟨{ a with counter := f.counts n cases }, ?_⟩, gini_nonneg f n cases hc hne,
    gini_lt_one f n cases hc hne, gini_eq_zero f n cases hc hne⟩
  show countImpurity f giniFromCounts a cases = _
  unfold countImpurity
  rw [countPerCat_eq f cases a.counter (by rw [ha]; exact hc), ha]
  simp only [Option.bind_eq_bind, Option.bind_some]
  rw [giniFromCounts_eq f n cases hne]

/-- **C14**: neither the order of the cases nor the numbering (or number) of the categories
matters. -/
theorem c14_invariant (f g : CatFeature) (n m : Nat) (cases cases' : List Nat)
    (σ : Nat → Nat) (hf : f.InRange n cases) (hg : g.InRange m cases)
    (hσ : ∀ i j, i < n → j < n → σ i = σ j → i = j)
    (hren : ∀ c ∈ cases, g.catData[c]? = (f.catData[c]?).map σ) (hp : cases.Perm cases')
    (hne : cases ≠ []) : g.gini K m cases' = f.gini K n cases := by
  rw [← gini_perm g m hp]
  refine gini_congr g f m n cases hg hf hne fun c hc d hd => ?_
  rw [hren c hc, hren d hd]
  obtain ⟨i, hi, hin⟩ := hf c hc
  obtain ⟨j, hj, hjn⟩ := hf d hd
  rw [hi, hj]
  simp only [Option.map_some, Option.some.injEq]
  exact ⟨hσ i j hin hjn, fun e => by rw [e]⟩

/-- **C14**: no three-way division (with a missing block that may be absent or empty) increases
Gini impurity on average: the value `SplitImpurity` returns is at most the parent's. -/
theorem c14_split (f : CatFeature) (n : Nat) (a : Allocs K)
    (ha : a.counter.length = n ∧ a.lcounter.length = n ∧ a.rcounter.length = n)
    (l r : List Nat) (m : Option (List Nat)) (parent : List Nat)
    (hc : f.InRange n parent) (hp : parent.Perm (l ++ r ++ missBlock m))
    (hl : l ≠ []) (hr : r ≠ []) :
    ∃ s a', (giniTarget f).splitImpurity a l r m = some (.fin s, a') ∧
      s = ((l.length : K) * f.gini K n l + r.length * f.gini K n r +
        (missBlock m).length * f.gini K n (missBlock m)) / parent.length ∧
      s ≤ f.gini K n parent := by
  obtain ⟨h1, h2, h3⟩ := ha
  have hmem : ∀ c, c ∈ l ∨ c ∈ r ∨ c ∈ missBlock m → c ∈ parent := fun c h =>
    hp.mem_iff.2 (by simpa using h)
  have cl := countPerCat_eq f l a.lcounter (by rw [h2]; exact fun c h => hc c (hmem c (.inl h)))
  have cr := countPerCat_eq f r a.rcounter
    (by rw [h3]; exact fun c h => hc c (hmem c (.inr (.inl h))))
  have cm := countPerCat_eq f (missBlock m) a.counter
    (by rw [h1]; exact fun c h => hc c (hmem c (.inr (.inr h))))
  rw [h2] at cl; rw [h3] at cr; rw [h1] at cm
  have hlen : (parent.length : K) = l.length + r.length + (missBlock m).length := by
    have := hp.length_eq; simp only [List.length_append] at this
    rw [this]; push_cast; ring
  have pl := length_pos' (K := K) hl
  have pr := length_pos' (K := K) hr
  have pm : (0 : K) ≤ (missBlock m).length := Nat.cast_nonneg _
  have hpos : (0 : K) < parent.length := by rw [hlen]; linarith
  have hbound : ((l.length : K) * f.gini K n l + r.length * f.gini K n r +
      (missBlock m).length * f.gini K n (missBlock m)) / parent.length ≤ f.gini K n parent := by
    rw [div_le_iff₀ hpos, gini_perm f n hp]
    have a1 := giniMass_superadd (K := K) f n l r
    have a2 := giniMass_superadd (K := K) f n (l ++ r) (missBlock m)
    unfold giniMass at a1 a2
    have : ((l ++ r ++ missBlock m).length : K) = parent.length := by rw [hp.length_eq]
    rw [this] at a2
    linarith
  have hx : ∃ a', (giniTarget f).splitImpurity a l r m = some (.fin
      (((l.length : K) * f.gini K n l + r.length * f.gini K n r +
        (missBlock m).length * f.gini K n (missBlock m)) / parent.length), a') := by
    simp only [giniTarget, countTarget, countSplitImpurity, cl, cr, cm, Option.bind_eq_bind,
      Option.bind_some, giniFromCounts_eq f n l hl, giniFromCounts_eq f n r hr, XF.ofNat]
    by_cases h0 : 0 < (missBlock m).length
    · rw [if_pos h0, giniFromCounts_eq f n _ (List.length_pos_iff.1 h0)]
      simp only [XF.fin_mul, XF.fin_add]
      rw [XF.fin_div _ (by rw [← hlen]; exact hpos.ne'), ← hlen]
      exact ⟨_, rfl⟩
    · have : (missBlock m).length = 0 := by omega
      rw [if_neg h0, this]
      rw [this] at hlen
      simp only [XF.fin_mul, XF.fin_add]
      have e : (l.length : K) + r.length + 0 = parent.length := by rw [hlen]; simp
      rw [XF.fin_div _ (by rw [e]; exact hpos.ne'), e]
      simp only [Nat.cast_zero, zero_mul, add_zero]
      exact ⟨_, rfl⟩
  obtain ⟨a', hx⟩ := hx
  exact ⟨_, a', hx, rfl, hbound⟩

example : ∃ a', (giniTarget exClass).impurity exAllocs [0, 1, 2, 3] =
    some (.fin (5 / 8), a') := by
  obtain ⟨⟨a', h⟩, -⟩ := c14_gini exClass 3 exAllocs rfl [0, 1, 2, 3] exClass_inRange (by simp)
  refine ⟨a', h.trans ?_⟩
  have : exClass.gini ℚ 3 [0, 1, 2, 3] = 5 / 8 := by
    simp [CatFeature.gini, CatFeature.catCount, exClass, List.range, List.range.loop]; norm_num
  rw [this]

example : ∃ s a', (giniTarget exClass).splitImpurity exAllocs [0] [1, 3] (some [2]) =
    some (.fin s, a') ∧ s ≤ exClass.gini ℚ 3 [0, 1, 2, 3] := by
  obtain ⟨s, a', h, -, h'⟩ := c14_split exClass 3 exAllocs ⟨rfl, rfl, rfl⟩ [0] [1, 3] (some [2])
    [0, 1, 2, 3] exClass_inRange (by decide) (by simp) (by simp)
  exact ⟨s, a', h, h'⟩

/-- The classes of `exClass` with the numbers 0 and 2 exchanged and a fourth, unused one. -/
example : ({ exClass with catData := [2, 1, 0, 1] } : CatFeature).gini ℚ 4 [3, 1, 2, 0] =
    exClass.gini ℚ 3 [0, 1, 2, 3] := by
  refine c14_invariant exClass _ 3 4 [0, 1, 2, 3] _ (fun i => 2 - i) exClass_inRange ?_ ?_ ?_
    (by decide) (by simp)
  · intro c hc; fin_cases hc <;> simp
  · intro i j hi hj h; omega
  · intro c hc; fin_cases hc <;> rfl

/-! ## C15: sum of squares -/

/-- **C15**, for cases with known finite values (`_partial`: the property says that missing
target values do not count, see `c15_missing_counted`): the impurity is the sum of squared
deviations from the mean, never negative, zero exactly when the values agree. -/
theorem c15_sse_partial (f : NumFeature K) (a : Allocs K) (cases : List Nat)
    (hc : f.Finite cases) (hne : cases ≠ []) :
    (∃ a', (sseTarget f).impurity a cases = some (.fin (f.sse cases), a')) ∧
      0 ≤ f.sse cases ∧
      (f.sse cases = 0 ↔ ∀ c ∈ cases, ∀ d ∈ cases, f.value c = f.value d) := by
  refine ⟨⟨a, ?_⟩, sse_nonneg f cases, sse_eq_zero f cases⟩
  show f.impurity a cases = _
  unfold NumFeature.impurity
  rw [sums_eq f cases hc]
  simp only [Option.bind_eq_bind, Option.bind_some]
  rw [← sseX_eq f cases hne]; rfl

/-- **C15**, `_partial` as above: no three-way division increases it: the value `SplitImpurity`
returns is the average of the blocks' sums of squares weighted by size, and at most the
parent's. -/
theorem c15_split_partial (f : NumFeature K) (a : Allocs K) (l r : List Nat)
    (m : Option (List Nat)) (parent : List Nat) (hc : f.Finite parent)
    (hp : parent.Perm (l ++ r ++ missBlock m)) (hl : l ≠ []) (hr : r ≠ []) :
    ∃ s a', (sseTarget f).splitImpurity a l r m = some (.fin s, a') ∧
      s = ((l.length : K) * f.sse l + r.length * f.sse r +
        (missBlock m).length * f.sse (missBlock m)) / parent.length ∧
      s ≤ f.sse parent := by
  have hmem : ∀ c, c ∈ l ∨ c ∈ r ∨ c ∈ missBlock m → c ∈ parent := fun c h =>
    hp.mem_iff.2 (by simpa using h)
  have cl := sums_eq f l (fun c h => hc c (hmem c (.inl h)))
  have cr := sums_eq f r (fun c h => hc c (hmem c (.inr (.inl h))))
  have cm := sums_eq f (missBlock m) (fun c h => hc c (hmem c (.inr (.inr h))))
  have hlen : (parent.length : K) = l.length + r.length + (missBlock m).length := by
    have := hp.length_eq; simp only [List.length_append] at this
    rw [this]; push_cast; ring
  have pl := length_pos' (K := K) hl
  have pr := length_pos' (K := K) hr
  have pm : (0 : K) ≤ (missBlock m).length := Nat.cast_nonneg _
  have hpos : (0 : K) < parent.length := by rw [hlen]; linarith
  have hbound : ((l.length : K) * f.sse l + r.length * f.sse r +
      (missBlock m).length * f.sse (missBlock m)) / parent.length ≤ f.sse parent := by
    rw [div_le_iff₀ hpos, sse_perm f hp, hlen]
    have a1 := sse_superadd f l r
    have a2 := sse_superadd f (l ++ r) (missBlock m)
    have b1 := sse_nonneg f l
    have b2 := sse_nonneg f r
    have b3 := sse_nonneg f (missBlock m)
    have c1 : (l.length : K) * f.sse l ≤ l.length * f.sse (l ++ r ++ missBlock m) :=
      mul_le_mul_of_nonneg_left (by linarith) pl.le
    have c2 : (r.length : K) * f.sse r ≤ r.length * f.sse (l ++ r ++ missBlock m) :=
      mul_le_mul_of_nonneg_left (by linarith) pr.le
    have c3 : ((missBlock m).length : K) * f.sse (missBlock m) ≤
        (missBlock m).length * f.sse (l ++ r ++ missBlock m) :=
      mul_le_mul_of_nonneg_left (by linarith) pm
    linarith
  have hx : ∃ a', (sseTarget f).splitImpurity a l r m = some (.fin
      (((l.length : K) * f.sse l + r.length * f.sse r +
        (missBlock m).length * f.sse (missBlock m)) / parent.length), a') := by
    have el := sseX_eq f l hl
    have er := sseX_eq f r hr
    unfold sseX at el er
    simp only [sseTarget, NumFeature.splitImpurity, cl, cr, cm, Option.bind_eq_bind,
      Option.bind_some, el, er, XF.ofNat]
    by_cases h0 : 0 < (missBlock m).length
    · have em := sseX_eq f (missBlock m) (List.length_pos_iff.1 h0)
      unfold sseX at em
      rw [if_pos h0, em]
      simp only [XF.fin_mul, XF.fin_add]
      rw [XF.fin_div _ (by rw [← hlen]; exact hpos.ne'), ← hlen]
      exact ⟨_, rfl⟩
    · have : (missBlock m).length = 0 := by omega
      rw [if_neg h0, this]
      rw [this] at hlen
      simp only [XF.fin_mul, XF.fin_add]
      have e : (l.length : K) + r.length + 0 = parent.length := by rw [hlen]; simp
      rw [XF.fin_div _ (by rw [e]; exact hpos.ne'), e]
      simp only [Nat.cast_zero, zero_mul, add_zero]
      exact ⟨_, rfl⟩
  obtain ⟨a', hx⟩ := hx
  exact ⟨_, a', hx, rfl, hbound⟩

/-- **C15**, negation of the claim about missing target values: they are counted as zeros. The
known values of `exNum` are 1, 3 and 5 with sum of squared deviations 8, but the impurity of all
four cases is larger. -/
theorem c15_missing_counted :
    exNum.missing[3]? = some true ∧ exNum.sse [0, 1, 2] = 8 ∧
      ∃ s a', (sseTarget exNum).impurity exAllocs [0, 1, 2, 3] = some (.fin s, a') ∧ 8 < s := by
  refine ⟨rfl, by decide +kernel, 59 / 4, exAllocs, ?_, by norm_num⟩
  decide +kernel

example : ∃ s a', (sseTarget exNum).splitImpurity exAllocs [0, 1] [2] (some [3]) =
    some (.fin s, a') ∧ s ≤ exNum.sse [0, 1, 2, 3] := by
  obtain ⟨s, a', h, -, h'⟩ := c15_split_partial exNum exAllocs [0, 1] [2] (some [3]) [0, 1, 2, 3]
    exNum_finite (by decide) (by simp) (by simp)
  exact ⟨s, a', h, h'⟩

example : 0 ≤ exNum.sse [0, 1, 2] := (c15_sse_partial exNum exAllocs [0, 1, 2]
  (fun c hc => exNum_finite c (by simp at hc; rcases hc with h | h | h <;> simp [h])) (by simp)).2.1

/-! ## C46: splits that separate nothing -/

/-- **C46** (categorical): if both sides have the class fractions of the parent, the split
impurity is the parent's. -/
theorem c46_gini_uninformative_partial (f : CatFeature) (n : Nat) (a : Allocs K)
    (ha : a.counter.length = n ∧ a.lcounter.length = n ∧ a.rcounter.length = n)
    (l r : List Nat) (hc : f.InRange n (l ++ r)) (hl : l ≠ []) (hr : r ≠ [])
    (hsame : ∀ k, f.catCount l k * r.length = f.catCount r k * l.length) :
    ∃ a', (giniTarget f).splitImpurity a l r none = some (.fin (f.gini K n (l ++ r)), a') := by
  obtain ⟨s, a', h1, h2, -⟩ := c14_split f n a ha l r none (l ++ r) hc (by simp [missBlock]) hl hr
  refine ⟨a', ?_⟩
  rw [h1, h2]
  have pl := length_pos' (K := K) hl
  have pr := length_pos' (K := K) hr
  have key : ∀ k, (f.catCount l k : K) / l.length =
        (f.catCount (l ++ r) k : K) / (l ++ r).length ∧
      (f.catCount r k : K) / r.length = (f.catCount (l ++ r) k : K) / (l ++ r).length := by
    intro k
    have hk : (f.catCount l k : K) * r.length = f.catCount r k * l.length := by
      exact_mod_cast hsame k
    rw [catCount_append, List.length_append]
    push_cast
    constructor
    · rw [div_eq_div_iff pl.ne' (by linarith)]; linarith
    · rw [div_eq_div_iff pr.ne' (by linarith)]; linarith
  have gl : f.gini K n l = f.gini K n (l ++ r) := by
    unfold CatFeature.gini
    congr 2
    exact List.map_congr_left fun k _ => by rw [(key k).1]
  have gr : f.gini K n r = f.gini K n (l ++ r) := by
    unfold CatFeature.gini
    congr 2
    exact List.map_congr_left fun k _ => by rw [(key k).2]
  rw [gl, gr, List.length_append]
  congr 3
  simp only [missBlock, List.length_nil, Nat.cast_zero, zero_mul, add_zero]
  push_cast
  field_simp

/-- Values 0, 1, 0, 1. -/
def exFlat : NumFeature ℚ :=
  ⟨[.fin 0, .fin 1, .fin 0, .fin 1], [false, false, false, false], "y", false⟩

/-- **C46** (numerical), negation: the parent impurity is a sum over cases while the split
impurity is a weighted mean of sums, so a split whose sides have the same values, in the same
proportions, still shows a decrease. -/
theorem c46_sse_uninformative :
    [0, 1].map exFlat.value = [2, 3].map exFlat.value ∧
    ∃ a' a'', (sseTarget exFlat).impurity exAllocs [0, 1, 2, 3] = some (.fin 1, a') ∧
      (sseTarget exFlat).splitImpurity exAllocs [0, 1] [2, 3] none = some (.fin (1 / 2), a'') := by
  refine ⟨by decide +kernel, exAllocs, { exAllocs with
    lsum := .fin 1, lsumSqr := .fin 1, rsum := .fin 1, rsumSqr := .fin 1 }, ?_, ?_⟩ <;>
    decide +kernel

/-- Classes 0, 1 on the left and 0, 1, 0, 1 on the right. -/
example : ∃ a', (giniTarget ⟨.empty, [0, 1, 0, 1, 0, 1], [], "t", false, false⟩ :
    Target ℚ).splitImpurity ⟨[0, 0], [0, 0], [0, 0], .fin 0, .fin 0, .fin 0, .fin 0, .fin 0, .fin 0⟩
    [0, 1] [2, 3, 4, 5] none = some (.fin (1 / 2), a') := by
  obtain ⟨a', h⟩ := c46_gini_uninformative_partial (K := ℚ)
    ⟨.empty, [0, 1, 0, 1, 0, 1], [], "t", false, false⟩ 2
    ⟨[0, 0], [0, 0], [0, 0], .fin 0, .fin 0, .fin 0, .fin 0, .fin 0, .fin 0⟩ ⟨rfl, rfl, rfl⟩
    [0, 1] [2, 3, 4, 5]
    (by intro c hc; simp at hc; rcases hc with h | h | h | h | h | h <;> subst h <;> simp)
    (by simp) (by simp)
    (by
      intro k
      match k with
      | 0 => rfl
      | 1 => rfl
      | k + 2 => simp [CatFeature.catCount])
  refine ⟨a', h.trans ?_⟩
  congr 2
  decide +kernel

end CloudForest
