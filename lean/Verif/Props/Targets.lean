import Verif.Lemmas.Targets2
import Verif.Props.Impurity
import Verif.Props.Search
import Verif.Props.Values

/-!
# C38, C41, C66–C73: the other targets
-/

set_option linter.unusedSectionVars false

namespace CloudForest
variable {K : Type} [Field K] [LinearOrder K] [IsStrictOrderedRing K]

/-! ## C41, C66: entropy -/

/-- **C41**: the impurity is the Shannon entropy of the class fractions, never negative, and zero exactly for cases of
one category. -/
theorem c41_entropy (f : CatFeature) (n : Nat) (a : Allocs ℝ) (ha : a.counter.length = n) (cases : List Nat)
    (hc : f.InRange n cases) (hne : cases ≠ []) :
    (∃ a', (entropyTarget realLog f).impurity a cases = some (.fin (f.entropy n cases), a')) ∧
      0 ≤ f.entropy n cases ∧
      (f.entropy n cases = 0 ↔ ∀ c ∈ cases, ∀ d ∈ cases, f.catData[c]? = f.catData[d]?) := by
  refine ⟨⟨{ a with counter := f.counts n cases }, ?_⟩, entropy_nonneg f n cases hne, entropy_eq_zero f n cases hc hne⟩
  show countImpurity f (entropyFromCounts realLog) a cases = _
  unfold countImpurity
  rw [countPerCat_eq f cases a.counter (by rw [ha]; exact hc), ha]
  simp only [Option.bind_eq_bind, Option.bind_some]
  rw [entropyFromCounts_eq f n cases hne]

/-- **C41**: after any chain of block moves the incremental updates return what a computation from scratch returns,
and leave the same counters behind. Any logarithm. -/
theorem c41_incremental (log : XF K → XF K) (f : CatFeature) (n : Nat) (a : Allocs K)
    (ha : a.counter.length = n ∧ a.lcounter.length = n ∧ a.rcounter.length = n)
    (l rest : List Nat) (bs : List (List Nat)) (m : Option (List Nat))
    (hl : f.InRange n l) (hr : f.InRange n (bs.flatten ++ rest)) (hm : f.InRange n (missBlock m)) :
    ∃ st, (entropyTarget log f).splitImpurity a l (bs.flatten ++ rest) m = some st ∧
      moveBlocks (entropyTarget log f) m rest bs l st =
        (entropyTarget log f).splitImpurity a (l ++ bs.flatten) rest m :=
  c13_counts f (entropyFromCounts log) n a ha l rest bs m hl hr hm

/-- **C66**: entropy is at most the logarithm of the number of categories, and no three-way division (with a missing
block that may be absent or empty) increases it on average. -/
theorem c66_information_gain (f : CatFeature) (n : Nat) (a : Allocs ℝ)
    (ha : a.counter.length = n ∧ a.lcounter.length = n ∧ a.rcounter.length = n)
    (l r : List Nat) (m : Option (List Nat)) (parent : List Nat) (hc : f.InRange n parent)
    (hp : parent.Perm (l ++ r ++ missBlock m)) (hl : l ≠ []) (hr : r ≠ []) :
    f.entropy n parent ≤ Real.log n ∧
    ∃ s a', (entropyTarget realLog f).splitImpurity a l r m = some (.fin s, a') ∧
      s = ((l.length : ℝ) * f.entropy n l + r.length * f.entropy n r +
        (missBlock m).length * f.entropy n (missBlock m)) / parent.length ∧
      s ≤ f.entropy n parent := by
  have hne : parent ≠ [] := by
    rintro rfl
    have := hp.length_eq
    simp only [List.length_nil, List.length_append] at this
    have := List.length_pos_iff.2 hl
    omega
  refine ⟨entropy_le_log f n parent hc hne, ?_⟩
  have hpos := length_pos' (K := ℝ) hne
  obtain ⟨a', h⟩ := count_split_eq f (entropyFromCounts realLog) (f.entropy n) n a ha l r m
    (InRange.of_perm hc hp.symm) hl hr fun cs h _ => entropyFromCounts_eq f n cs h
  rw [← hp.length_eq] at h
  refine ⟨_, a', h, rfl, ?_⟩
  rw [div_le_iff₀ hpos, entropy_perm f n hp]
  have a1 := entropy_superadd f n l r
  have a2 := entropy_superadd f n (l ++ r) (missBlock m)
  have : ((l ++ r ++ missBlock m).length : ℝ) = parent.length := by rw [hp.length_eq]
  rw [this] at a2
  linarith

/-- Scratch values over the reals. -/
noncomputable def exAllocsR : Allocs ℝ :=
  ⟨[0, 0, 0], [9, 9, 9], [0, 7, 0], .fin 0, .fin 0, .fin 0, .fin 0, .fin 0, .fin 0⟩

/-- Three categories, the second twice: entropy `3/2 log 2`. -/
example : ∃ a', (entropyTarget realLog exClass).impurity exAllocsR [0, 1, 2, 3] =
    some (.fin (3 / 2 * Real.log 2), a') := by
  obtain ⟨⟨a', h⟩, -⟩ := c41_entropy exClass 3 exAllocsR rfl [0, 1, 2, 3] exClass_inRange (by simp)
  refine ⟨a', h.trans ?_⟩
  have h4 : Real.log (4 : ℝ) = 2 * Real.log 2 := by
    rw [show (4 : ℝ) = 2 ^ 2 by norm_num, Real.log_pow]
    norm_num
  have : exClass.entropy 3 [0, 1, 2, 3] = 3 / 2 * Real.log 2 := by
    simp [CatFeature.entropy, CatFeature.catCount, exClass, List.range, List.range.loop]
    rw [h4, Real.log_div (by norm_num) (by norm_num), h4]
    ring
  rw [this]

example : ∃ s a', (entropyTarget realLog exClass).splitImpurity exAllocsR [0] [1, 3] (some [2]) =
    some (.fin s, a') ∧ s ≤ exClass.entropy 3 [0, 1, 2, 3] := by
  obtain ⟨-, s, a', h, -, h'⟩ := c66_information_gain exClass 3 exAllocsR ⟨rfl, rfl, rfl⟩ [0] [1, 3] (some [2])
    [0, 1, 2, 3] exClass_inRange (by decide) (by simp) (by simp)
  exact ⟨s, a', h, h'⟩

example : ∃ st, (entropyTarget id exClass : Target ℚ).splitImpurity exAllocs [0] [1, 3, 2] none = some st ∧
    moveBlocks (entropyTarget id exClass) none [2] [[1], [3]] [0] st =
      (entropyTarget id exClass).splitImpurity exAllocs [0, 1, 3] [2] none :=
  c41_incremental id exClass 3 exAllocs ⟨rfl, rfl, rfl⟩ [0] [2] [[1], [3]] none
    (fun c hc => exClass_inRange c (by simp at hc; simp [hc]))
    (fun c hc => exClass_inRange c (by simp at hc; rcases hc with h | h | h <;> simp [h]))
    (by intro c hc; cases hc)

/-! ## C67: the incremental updates of the other targets -/

theorem moves_of_step (T : Target K) (a : Allocs K) (m : Option (List Nat)) (P : Nat → Prop)
    (hstep : ∀ l mv r', (∀ c ∈ l ++ (mv ++ r'), P c) → ∃ st, T.splitImpurity a l (mv ++ r') m = some st ∧
      T.updateSImp st.2 (l ++ mv) r' m mv = T.splitImpurity a (l ++ mv) r' m)
    (bs : List (List Nat)) (l rest : List Nat) (h : ∀ c ∈ l ++ (bs.flatten ++ rest), P c) :
    ∃ st, T.splitImpurity a l (bs.flatten ++ rest) m = some st ∧
      moveBlocks T m rest bs l st = T.splitImpurity a (l ++ bs.flatten) rest m := by
  induction bs generalizing l with
  | nil =>
    obtain ⟨st, h1, -⟩ := hstep l [] rest h
    exact ⟨st, h1, by simpa [moveBlocks] using h1.symm⟩
  | cons b bs ih =>
    have e : (b :: bs).flatten ++ rest = b ++ (bs.flatten ++ rest) := by simp
    rw [e] at h
    obtain ⟨st, h1, h2⟩ := hstep l b (bs.flatten ++ rest) h
    obtain ⟨st', h3, h4⟩ := ih (l ++ b) (by rw [List.append_assoc]; exact h)
    rw [e]
    refine ⟨st, h1, ?_⟩
    rw [moveBlocks, h2, h3]
    simp only [Option.bind_eq_bind, Option.bind_some]
    rw [h4]; simp

/-- **C67** (`_partial`: `DEntropyTarget` is different, see `c67_dentropy`), weighted random forests, regret and
Neyman-Pearson: whatever the weights, after any chain of block moves the incremental updates return what a computation
from scratch returns. -/
theorem c67_counts_partial (f : CatFeature) (n : Nat) (a : Allocs K)
    (ha : a.counter.length = n ∧ a.lcounter.length = n ∧ a.rcounter.length = n)
    (l rest : List Nat) (bs : List (List Nat)) (m : Option (List Nat))
    (hl : f.InRange n l) (hr : f.InRange n (bs.flatten ++ rest)) (hm : f.InRange n (missBlock m))
    (weights : List (XF K)) (posi : Nat) (alpha kappa : XF K) :
    ∀ T ∈ [wrfTarget weights f, regretTarget weights f, npTarget posi alpha kappa f],
      ∃ st, T.splitImpurity a l (bs.flatten ++ rest) m = some st ∧
        moveBlocks T m rest bs l st = T.splitImpurity a (l ++ bs.flatten) rest m := by
  intro T hT
  simp only [List.mem_cons, List.not_mem_nil, or_false] at hT
  rcases hT with rfl | rfl | rfl
  · exact c13_counts f (wrfFromCounts weights) n a ha l rest bs m hl hr hm
  · exact c13_counts f (regretFromCounts weights) n a ha l rest bs m hl hr hm
  · exact c13_counts f (npFromCounts posi alpha kappa) n a ha l rest bs m hl hr hm

/-- **C67** (`_partial` as above), adaptive boosting with and without costs. -/
theorem c67_ada_partial (f : CatFeature) (n N : Nat) (w x : Nat → K) (a : Allocs K)
    (ha : a.counter.length = n ∧ a.lcounter.length = n ∧ a.rcounter.length = n)
    (l rest : List Nat) (bs : List (List Nat)) (m : Option (List Nat))
    (h : f.InRange n (l ++ (bs.flatten ++ rest) ++ missBlock m))
    (hN : ∀ c ∈ l ++ (bs.flatten ++ rest) ++ missBlock m, c < N) :
    ∀ T ∈ [adaTarget (finList N w) f, adaCostTarget (finList N w) (finList n x) f],
      ∃ st, T.splitImpurity a l (bs.flatten ++ rest) m = some st ∧
        moveBlocks T m rest bs l st = T.splitImpurity a (l ++ bs.flatten) rest m := by
  intro T hT
  simp only [List.mem_cons, List.not_mem_nil, or_false] at hT
  rcases hT with rfl | rfl
  all_goals
    refine moves_of_step _ a m (fun c => c ∈ l ++ (bs.flatten ++ rest) ++ missBlock m) ?_ bs l rest
      fun c hc => List.mem_append_left _ hc
    intro l' mv r' hc
  · exact case_step f n _ (ada_caseImp f n N w _ h hN) h a ha l' mv r' m
      fun c hx => (List.mem_append.1 hx).elim (hc c) fun hx => List.mem_append_right _ hx
  · exact case_step f n _ (adaCost_caseImp f n N w x _ h hN) h a ha l' mv r' m
      fun c hx => (List.mem_append.1 hx).elim (hc c) fun hx => List.mem_append_right _ hx

/-- **C67** (`_partial` as above), Hellinger distance with at least two categories. -/
theorem c67_hdist_partial (f : CatFeature) (n : Nat) (hn : 2 ≤ n) (a : Allocs K)
    (ha : a.counter.length = n ∧ a.lcounter.length = n ∧ a.rcounter.length = n)
    (l rest : List Nat) (bs : List (List Nat)) (m : Option (List Nat)) (h : f.InRange n (l ++ (bs.flatten ++ rest))) :
    ∃ st, (hDistTarget f).splitImpurity a l (bs.flatten ++ rest) m = some st ∧
      moveBlocks (hDistTarget f) m rest bs l st = (hDistTarget f).splitImpurity a (l ++ bs.flatten) rest m := by
  refine moves_of_step _ a m (fun c => f.InRange n [c]) ?_ bs l rest fun c hc d hd => ?_
  · intro l mv r' hc
    have hin : ∀ cs : List Nat, (∀ c ∈ cs, c ∈ l ++ (mv ++ r')) → f.InRange n cs :=
      fun cs hcs c hx => hc c (hcs c hx) c (by simp)
    have cl := countPerCat_eq f l a.lcounter (by rw [ha.2.1]; exact hin _ fun c h => by simp [h])
    have cr := countPerCat_eq f (mv ++ r') a.rcounter (by rw [ha.2.2]; exact hin _ fun c h => by simp at h; simp [h])
    have cl' := countPerCat_eq f (l ++ mv) a.lcounter
      (by rw [ha.2.1]; exact hin _ fun c h => by simp at h; rcases h with h | h <;> simp [h])
    have cr' := countPerCat_eq f r' a.rcounter (by rw [ha.2.2]; exact hin _ fun c h => by simp [h])
    rw [ha.2.1] at cl cl'; rw [ha.2.2] at cr cr'
    have hmove := moveCounts_eq f n mv l (mv ++ r') r' (hin _ fun c h => by simp [h]) (List.Perm.refl _)
    simp only [hDistTarget, cl, cr, cl', cr', Option.bind_eq_bind, Option.bind_some, hDist_counts f n hn,
      Option.some.injEq, exists_eq_left', hmove]
  · rw [List.mem_singleton.1 hd]
    exact h c hc

/-- **C67** (`_partial` as above), gradient boosting on finite values. -/
theorem c67_grad_partial (f : NumFeature K) (a : Allocs K) (l rest : List Nat) (bs : List (List Nat))
    (m : Option (List Nat)) (h : f.Finite (l ++ (bs.flatten ++ rest))) :
    ∃ st, (gradTarget f).splitImpurity a l (bs.flatten ++ rest) m = some st ∧
      moveBlocks (gradTarget f) m rest bs l st = (gradTarget f).splitImpurity a (l ++ bs.flatten) rest m := by
  refine moves_of_step _ a m (fun c => f.Finite [c]) ?_ bs l rest fun c hc d hd => ?_
  · intro l mv r' hc
    have hin : ∀ cs : List Nat, (∀ c ∈ cs, c ∈ l ++ (mv ++ r')) → f.Finite cs :=
      fun cs hcs c hx => hc c (hcs c hx) c (by simp)
    have cl := sum_eq f l (hin _ fun c h => by simp [h])
    have cr := sum_eq f (mv ++ r') (hin _ fun c h => by simp at h; simp [h])
    have cl' := sum_eq f (l ++ mv) (hin _ fun c h => by simp at h; rcases h with h | h <;> simp [h])
    have cr' := sum_eq f r' (hin _ fun c h => by simp [h])
    have cm := sum_eq f mv (hin _ fun c h => by simp [h])
    simp only [gradTarget, cl, cr, cl', cr', cm, Option.bind_eq_bind, Option.bind_some, Option.some.injEq,
      exists_eq_left', XF.fin_add, XF.fin_sub, List.map_append, List.sum_append, add_sub_cancel_left]
  · rw [List.mem_singleton.1 hd]
    exact h c hc

theorem dEntropy_zero (f : CatFeature) (n m : Nat) (cs : List Nat) (hne : cs ≠ []) :
    dEntropyFromCounts realLog (List.replicate m (.fin 0)) cs.length (f.counts n cs) = .fin 0 := by
  have hN := length_pos' (K := ℝ) hne
  unfold dEntropyFromCounts
  have key : ∀ (l : List (Int × XF ℝ)), (∀ ic ∈ l, ic.2 = .fin 0) →
      l.foldl (fun (e : XF ℝ) (ic : Int × XF ℝ) =>
        if 0 < ic.1 then
          let p := XF.ofInt ic.1 / .ofNat cs.length
          e - ic.2 * p * realLog p
        else e) (.fin 0) = .fin 0 := by
    intro l
    induction l with
    | nil => intro _; rfl
    | cons ic l ih =>
      intro h
      have h2 := h ic (by simp)
      rw [List.foldl_cons]
      by_cases hi : 0 < ic.1
      · have hi' : (0 : ℝ) < ic.1 := by exact_mod_cast hi
        have hp : (XF.ofInt ic.1 / .ofNat cs.length : XF ℝ) = .fin (ic.1 / cs.length) := by
          unfold XF.ofInt XF.ofNat
          rw [XF.fin_div _ hN.ne']
        simp only [if_pos hi, h2, hp, realLog_pos (div_pos hi' hN), XF.fin_mul, XF.fin_sub, zero_mul, sub_zero]
        exact ih fun ic h' => h ic (by simp [h'])
      · simp only [if_neg hi]
        exact ih fun ic h' => h ic (by simp [h'])
  exact key _ fun ic h => (List.mem_replicate.1 (List.of_mem_zip h).2).2

/-- **C67**, negation for `DEntropyTarget` with the costs `NewDEntropyTarget` makes (all zero): moving a block from
right to left gives the score 0 whatever the cases, and a computation from scratch gives a positive score as soon as
the cases of one side are not all of one category. -/
theorem c67_dentropy (f : CatFeature) (n : Nat) (a : Allocs ℝ)
    (ha : a.counter.length = n ∧ a.lcounter.length = n ∧ a.rcounter.length = n) (l mv r : List Nat)
    (h : f.InRange n (l ++ mv ++ r)) (hl : l ++ mv ≠ []) (hr : r ≠ []) (c d : Nat)
    (hcd : c ∈ r ∧ d ∈ r ∧ f.catData[c]? ≠ f.catData[d]?) :
    ∃ x a', (dEntropyTarget realLog (List.replicate n (.fin 0)) f).splitImpurity a l (mv ++ r) none = some (x, a') ∧
      (∃ a'', (dEntropyTarget realLog (List.replicate n (.fin 0)) f).updateSImp a' (l ++ mv) r none mv =
        some (.fin 0, a'')) ∧
      ∃ s a'', (dEntropyTarget realLog (List.replicate n (.fin 0)) f).splitImpurity a (l ++ mv) r none =
        some (.fin s, a'') ∧ 0 < s := by
  obtain ⟨a', h1, h2, h3, h4⟩ := (countLaws f (entropyFromCounts realLog) n _ h).split a l (mv ++ r) ha
    (fun c hc => by simpa using hc)
  refine ⟨_, a', h1, ?_, ?_⟩
  · have hmv : f.InRange n mv := fun c hc => h c (by simp [hc])
    have e := moveCounts_eq f n mv l (mv ++ r) r hmv (List.Perm.refl _)
    refine ⟨{ a' with lcounter := f.counts n (l ++ mv), rcounter := f.counts n r }, ?_⟩
    have pl := length_pos' (K := ℝ) hl
    have pr := length_pos' (K := ℝ) hr
    have hpos : ((l ++ mv).length : ℝ) + r.length + 0 ≠ 0 := by linarith
    simp only [dEntropyTarget, countUpdateSImp, h3, h4, e, Option.bind_eq_bind, Option.bind_some, missBlock,
      List.length_nil, lt_irrefl, if_false, dEntropy_zero f n n _ hl, dEntropy_zero f n n _ hr, XF.ofNat, XF.fin_mul,
      XF.fin_add, mul_zero, add_zero]
    rw [XF.fin_div _ (by linarith), zero_div]
  · obtain ⟨a'', h5⟩ := count_split_eq f (entropyFromCounts realLog) (f.entropy n) n a ha (l ++ mv) r none
      (by simpa [missBlock] using h) hl hr fun cs h _ => entropyFromCounts_eq f n cs h
    refine ⟨_, a'', h5, div_pos ?_ (length_pos' (by simp [hr]))⟩
    have b1 := entropy_nonneg f n (l ++ mv) hl
    have b2 := entropy_nonneg f n r hr
    have b3 : f.entropy n r ≠ 0 := by
      rw [Ne, entropy_eq_zero f n r (fun c hc => h c (by simp [hc])) hr]
      exact fun H => hcd.2.2 (H c hcd.1 d hcd.2.1)
    have b4 : 0 < f.entropy n r := lt_of_le_of_ne b2 b3.symm
    have pl := length_pos' (K := ℝ) hl
    have pr := length_pos' (K := ℝ) hr
    have := mul_nonneg pl.le b1
    have := mul_pos pr b4
    simp only [missBlock, List.length_nil, Nat.cast_zero, zero_mul, add_zero]
    linarith

example : ∃ x a', (dEntropyTarget realLog (List.replicate 3 (.fin 0)) exClass).splitImpurity exAllocsR [0] [1, 2, 3]
    none = some (x, a') ∧ ∃ a'', (dEntropyTarget realLog (List.replicate 3 (.fin 0)) exClass).updateSImp a' [0, 1] [2, 3]
      none [1] = some (.fin 0, a'') := by
  obtain ⟨x, a', h1, h2, -⟩ := c67_dentropy exClass 3 exAllocsR ⟨rfl, rfl, rfl⟩ [0] [1] [2, 3] exClass_inRange
    (by simp) (by simp) 2 3 ⟨by simp, by simp, by simp [exClass]⟩
  exact ⟨x, a', h1, h2⟩

theorem exClass_inRange' (cs : List Nat) (h : ∀ c ∈ cs, c < 4) : exClass.InRange 3 cs := fun c hc =>
  exClass_inRange c (by have := h c hc; simp; omega)

theorem exNum_finite' (cs : List Nat) (h : ∀ c ∈ cs, c < 4) : exNum.Finite cs := fun c hc =>
  exNum_finite c (by have := h c hc; simp; omega)

example : ∃ st, (wrfTarget [.fin 1, .fin 2, .fin 3] exClass : Target ℚ).splitImpurity exAllocs [0] [1, 3, 2] none =
    some st ∧ moveBlocks (wrfTarget [.fin 1, .fin 2, .fin 3] exClass) none [2] [[1], [3]] [0] st =
      (wrfTarget [.fin 1, .fin 2, .fin 3] exClass).splitImpurity exAllocs [0, 1, 3] [2] none :=
  c67_counts_partial exClass 3 exAllocs ⟨rfl, rfl, rfl⟩ [0] [2] [[1], [3]] none (exClass_inRange' _ (by decide))
    (exClass_inRange' _ (by decide)) (exClass_inRange' _ (by decide)) [.fin 1, .fin 2, .fin 3] 0 (.fin 1) (.fin 1) _
    (by simp)

example : ∃ st, (adaTarget (finList 4 fun i => (i + 1 : ℚ) / 10) exClass).splitImpurity exAllocs [0] [1, 3] (some [2]) =
    some st ∧ moveBlocks (adaTarget (finList 4 fun i => (i + 1 : ℚ) / 10) exClass) (some [2]) [3] [[1]] [0] st =
      (adaTarget (finList 4 fun i => (i + 1 : ℚ) / 10) exClass).splitImpurity exAllocs [0, 1] [3] (some [2]) :=
  c67_ada_partial exClass 3 4 _ (fun _ => 1) exAllocs ⟨rfl, rfl, rfl⟩ [0] [3] [[1]] (some [2])
    (exClass_inRange' _ (by decide)) (by decide) _ (List.mem_cons_self ..)

example : ∃ st, (hDistTarget exClass : Target ℚ).splitImpurity exAllocs [0] [1, 3, 2] none = some st ∧
    moveBlocks (hDistTarget exClass) none [2] [[1], [3]] [0] st =
      (hDistTarget exClass).splitImpurity exAllocs [0, 1, 3] [2] none :=
  c67_hdist_partial exClass 3 (by decide) exAllocs ⟨rfl, rfl, rfl⟩ [0] [2] [[1], [3]] none
    (exClass_inRange' _ (by decide))

example : ∃ st, (gradTarget exNum).splitImpurity exAllocs [0] [1, 2] none = some st ∧
    moveBlocks (gradTarget exNum) none [2] [[1]] [0] st = (gradTarget exNum).splitImpurity exAllocs [0, 1] [2] none :=
  c67_grad_partial exNum exAllocs [0] [2] [[1]] none (exNum_finite' _ (by decide))

end CloudForest
