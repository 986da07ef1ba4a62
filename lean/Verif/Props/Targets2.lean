import Verif.Props.Targets
import Mathlib.Tactic.IntervalCases

/-!
# C38, C68–C73: weights, costs, distances and gradients
-/

set_option linter.unusedSectionVars false

namespace CloudForest
variable {K : Type} [Field K] [LinearOrder K] [IsStrictOrderedRing K]

/-! ## C38: leaf predictions -/

/-- **C38**, `WRFTarget`: the prediction is a category whose known cases at the leaf weigh at least as much as those
of any other. -/
theorem c38_wrf (f : CatFeature) (hf : f.Consistent) (w : Nat → K) (hw : ∀ k, 0 ≤ w k) (cases : List Nat)
    (hc : ∀ c ∈ cases, c < f.missing.length) (hk : knownOf f.missing cases ≠ []) :
    ∃ m, wrfPredict (finList f.cm.nCats w) f cases = some m ∧ m < f.cm.nCats ∧
      ∀ k, f.weightOf w (knownOf f.missing cases) k ≤ f.weightOf w (knownOf f.missing cases) m := by
  refine ⟨_, ?_, heaviest f f.cm.nCats hw _ (hf.inRange cases) hk⟩
  unfold wrfPredict
  rw [modeCounts_eq hf cases hc]
  rfl

/-- **C38**, `RegretTarget` (`_partial`: the property is about all leaves with a known case, this is about leaves with
known cases only, see `c38_regret_missing`): the prediction is a category for which misclassification of the cases at
the leaf costs least. -/
theorem c38_regret_partial (f : CatFeature) (w : Nat → K) (hw : ∀ k, 0 ≤ w k) (cases : List Nat)
    (hc : f.InRange f.cm.nCats cases) (hne : cases ≠ []) :
    ∃ m, regretPredict (finList f.cm.nCats w) f cases = some m ∧ m < f.cm.nCats ∧
      ∀ k, f.costOf w cases m ≤ f.costOf w cases k := by
  obtain ⟨h1, h2⟩ := heaviest f f.cm.nCats hw cases hc hne
  refine ⟨_, ?_, h1, fun k => ?_⟩
  · unfold regretPredict
    rw [countPerCat_eq f cases _ (by rw [List.length_replicate]; exact hc), List.length_replicate]
    rfl
  · rw [costOf_eq f w cases _ hc.get, costOf_eq f w cases k hc.get]
    linarith [h2 k]

/-- A class target: a, b, and two missing cases (stored as category 0). -/
def exHalf : CatFeature := ((((CatFeature.new "C:t").append "a").append "b").append "NA").append "NA"

theorem exHalf_consistent : exHalf.Consistent :=
  (((consistent_new "C:t").append _ |>.append _).append _).append _

/-- **C38**, negation for `RegretTarget` with missing cases at the leaf: the only known case is of category 1, so
predicting 1 costs nothing, but 0 is predicted. -/
theorem c38_regret_missing :
    exHalf.Consistent ∧ knownOf exHalf.missing [1, 2, 3] = [1] ∧
      regretPredict [(.fin 1 : XF ℚ), .fin 1] exHalf [1, 2, 3] = some 0 ∧
      exHalf.costOf (fun _ => (1 : ℚ)) [1] 1 = 0 ∧ exHalf.costOf (fun _ => (1 : ℚ)) [1] 0 = 1 :=
  ⟨exHalf_consistent, by decide +kernel, by decide +kernel, by decide +kernel, by decide +kernel⟩

/-- a, b, b -/
def exAbb : CatFeature := (((CatFeature.new "C:t").append "a").append "b").append "b"

theorem exAbb_consistent : exAbb.Consistent := ((consistent_new "C:t").append _ |>.append _).append _

/-- **C38**, negation for `AdaBoostTarget`: it has no `FindPredicted` of its own (adaboosttarget.go), so a leaf
predicts the plain mode. With case weights 8/10, 1/10, 1/10 the case of category a outweighs the two of category b,
but b is predicted. -/
theorem c38_ada_plain_mode :
    exAbb.Consistent ∧ exAbb.findPredicted [0, 1, 2] = some "b" ∧ exAbb.cm.back[0]? = some "a" ∧
      (([0, 1, 2].filter fun c => exAbb.catData[c]? == some 1).map fun c => ([8 / 10, 1 / 10, 1 / 10] : List ℚ)[c]?) =
        [some (1 / 10), some (1 / 10)] ∧
      (([0, 1, 2].filter fun c => exAbb.catData[c]? == some 0).map fun c => ([8 / 10, 1 / 10, 1 / 10] : List ℚ)[c]?) =
        [some (8 / 10)] :=
  ⟨exAbb_consistent, by decide +kernel, by decide +kernel, by decide +kernel, by decide +kernel⟩

example : ∃ m, wrfPredict (finList exAbb.cm.nCats fun k => if k = 0 then (3 : ℚ) else 1) exAbb [0, 1, 2] = some m ∧
    m < exAbb.cm.nCats := by
  obtain ⟨m, h1, h2, -⟩ := c38_wrf exAbb exAbb_consistent (fun k => if k = 0 then (3 : ℚ) else 1)
    (fun k => by split_ifs <;> norm_num) [0, 1, 2] (by decide +kernel) (by decide +kernel)
  exact ⟨m, h1, h2⟩

/-- The heavier category wins although it is the rarer one. -/
example : wrfPredict [(.fin 3 : XF ℚ), .fin 1] exAbb [0, 1, 2] = some 0 := by decide +kernel

theorem exAbb_inRange (cs : List Nat) (h : ∀ c ∈ cs, c < 3) : exAbb.InRange exAbb.cm.nCats cs := by
  have : exAbb.cm.nCats = 2 := by decide +kernel
  have e : exAbb.catData = [0, 1, 1] := by decide +kernel
  intro c hc
  rw [e, this]
  have := h c hc
  interval_cases c <;> simp

example : ∃ m, regretPredict (finList exAbb.cm.nCats fun k => if k = 0 then (3 : ℚ) else 1) exAbb [0, 1, 2] = some m ∧
    ∀ k, exAbb.costOf (fun k => if k = 0 then (3 : ℚ) else 1) [0, 1, 2] m ≤
      exAbb.costOf (fun k => if k = 0 then (3 : ℚ) else 1) [0, 1, 2] k := by
  obtain ⟨m, h1, -, h2⟩ := c38_regret_partial exAbb (fun k => if k = 0 then (3 : ℚ) else 1)
    (fun k => by split_ifs <;> norm_num) [0, 1, 2] (exAbb_inRange _ (by decide)) (by simp)
  exact ⟨m, h1, h2⟩

/-! ## C68: regret -/

/-- **C68** (`_partial`: it is half of what the property says): the impurity of a non-empty set of cases is the total
cost of a cheapest prediction divided by twice their number. -/
theorem c68_regret_partial (f : CatFeature) (n : Nat) (w : Nat → K) (hw : ∀ k, 0 ≤ w k) (a : Allocs K)
    (ha : a.counter.length = n) (cases : List Nat) (hc : f.InRange n cases) (hne : cases ≠ []) :
    ∃ p a', (∀ q, f.costOf w cases p ≤ f.costOf w cases q) ∧
      (regretTarget (finList n w) f).impurity a cases = some (.fin (f.costOf w cases p / (2 * cases.length)), a') := by
  obtain ⟨p, h1, h2⟩ := regretFromCounts_eq f n hw cases hc hne
  refine ⟨p, { a with counter := f.counts n cases }, h1, ?_⟩
  show countImpurity f _ a cases = _
  unfold countImpurity
  rw [countPerCat_eq f cases a.counter (by rw [ha]; exact hc), ha]
  simp only [Option.bind_eq_bind, Option.bind_some]
  rw [h2]

/-- **C68**: no three-way division increases regret on average. -/
theorem c68_split (f : CatFeature) (n : Nat) (w : Nat → K) (hw : ∀ k, 0 ≤ w k) (a : Allocs K)
    (ha : a.counter.length = n ∧ a.lcounter.length = n ∧ a.rcounter.length = n)
    (l r : List Nat) (m : Option (List Nat)) (parent : List Nat) (hc : f.InRange n parent)
    (hp : parent.Perm (l ++ r ++ missBlock m)) (hl : l ≠ []) (hr : r ≠ []) :
    ∃ s t a' a'', (regretTarget (finList n w) f).splitImpurity a l r m = some (.fin s, a') ∧
      (regretTarget (finList n w) f).impurity a parent = some (.fin t, a'') ∧ s ≤ t := by
  have hne : parent ≠ [] := by
    rintro rfl
    have := hp.length_eq
    simp only [List.length_nil, List.length_append] at this
    have := List.length_pos_iff.2 hl
    omega
  obtain ⟨p, a'', h1, h2⟩ := c68_regret_partial f n w hw a ha.1 parent hc hne
  have hin : f.InRange n (l ++ r ++ missBlock m) := InRange.of_perm hc hp.symm
  -- the best prediction of each block
  have hbest : ∀ cs : List Nat, ∃ i : K, 0 ≤ i ∧ (cs ≠ [] → (∀ c ∈ cs, c ∈ l ++ r ++ missBlock m) →
      regretFromCounts (finList n w) cs.length (f.counts n cs) = .fin i ∧
        (cs.length : K) * i ≤ f.costOf w cs p / 2) := by
    intro cs
    by_cases h : cs ≠ [] ∧ ∀ c ∈ cs, c ∈ l ++ r ++ missBlock m
    · obtain ⟨q, h3, h4⟩ := regretFromCounts_eq f n hw cs (fun c hc => hin c (h.2 c hc)) h.1
      have hN := length_pos' (K := K) h.1
      refine ⟨_, div_nonneg ?_ (by linarith), fun _ _ => ⟨h4, ?_⟩⟩
      · unfold CatFeature.costOf
        exact sum_nonneg' _ _ fun c _ => by split_ifs; exacts [le_refl _, hw _]
      · have := h3 p
        have e : (cs.length : K) * (f.costOf w cs q / (2 * cs.length)) = f.costOf w cs q / 2 := by
          field_simp
        rw [e]
        linarith
    · exact ⟨0, le_refl _, fun h1 h2 => absurd ⟨h1, h2⟩ h⟩
  choose i hi0 hi using hbest
  obtain ⟨a', h5⟩ := count_split_eq f (regretFromCounts (finList n w)) i n a ha l r m hin hl hr
    fun cs h h' => (hi cs h h').1
  rw [← hp.length_eq] at h5
  refine ⟨_, _, a', a'', h5, h2, ?_⟩
  have hpos := length_pos' (K := K) hne
  have e : f.costOf w parent p / (2 * parent.length) = (f.costOf w parent p / 2) / parent.length := by
    field_simp
  rw [e]
  refine div_le_div_of_nonneg_right ?_ hpos.le
  have hsum : f.costOf w parent p = f.costOf w l p + f.costOf w r p + f.costOf w (missBlock m) p := by
    unfold CatFeature.costOf
    rw [(hp.map _).sum_eq, List.map_append, List.sum_append, List.map_append, List.sum_append]
  have b1 := (hi l hl fun c h => by simp [h]).2
  have b2 := (hi r hr fun c h => by simp [h]).2
  have b3 : ((missBlock m).length : K) * i (missBlock m) ≤ f.costOf w (missBlock m) p / 2 := by
    by_cases h : missBlock m = []
    · rw [h]
      simp [CatFeature.costOf]
    · exact (hi _ h fun c h => by simp [h]).2
  rw [hsum]
  linarith

/-- **C68**, negation of the property as stated: for the cases a, b, b with costs 3 and 1 the cheapest prediction (a)
costs 2 in total, 2/3 on average; the impurity is 1/3. -/
theorem c68_half :
    exAbb.costOf (fun k => if k = 0 then (3 : ℚ) else 1) [0, 1, 2] 0 = 2 ∧
    exAbb.costOf (fun k => if k = 0 then (3 : ℚ) else 1) [0, 1, 2] 1 = 3 ∧
    ((regretTarget [(.fin 3 : XF ℚ), .fin 1] exAbb).impurity { exAllocs with counter := [0, 0] } [0, 1, 2]).map
      Prod.fst = some (.fin (1 / 3)) := by
  decide +kernel

example : ∃ s t a' a'', (regretTarget (finList 3 fun k => (k + 1 : ℚ)) exClass).splitImpurity exAllocs [0] [1, 3]
    (some [2]) = some (.fin s, a') ∧
      (regretTarget (finList 3 fun k => (k + 1 : ℚ)) exClass).impurity exAllocs [0, 1, 2, 3] = some (.fin t, a'') ∧
      s ≤ t :=
  c68_split exClass 3 _ (fun k => by positivity) exAllocs ⟨rfl, rfl, rfl⟩ [0] [1, 3] (some [2]) [0, 1, 2, 3]
    exClass_inRange (by decide) (by simp) (by simp)

/-! ## C69: Friedman's score -/

/-- **C69**: the score of a division into two non-empty blocks is the decrease of the sum of squared deviations it
brings, and never negative. The missing block does not count. -/
theorem c69_score (f : NumFeature K) (a : Allocs K) (l r : List Nat) (m : Option (List Nat)) (h : f.Finite (l ++ r))
    (hl : l ≠ []) (hr : r ≠ []) :
    (∃ a', (gradTarget f).splitImpurity a l r m = some (.fin (f.sse (l ++ r) - f.sse l - f.sse r), a')) ∧
      0 ≤ f.sse (l ++ r) - f.sse l - f.sse r := by
  constructor
  · refine ⟨{ a with lsum := .fin (l.map f.value).sum, rsum := .fin (r.map f.value).sum }, ?_⟩
    rw [← fScore_eq f l r hl hr]
    simp only [gradTarget]
    rw [sum_eq f l fun c hc => h c (List.mem_append_left _ hc), sum_eq f r fun c hc => h c (List.mem_append_right _ hc)]
    rfl
  · linarith [sse_superadd f l r]

/-- **C69**: searching a numerical feature without missing values for a gradient boosting target at a node whose target values
differ (sum of squared deviations above `minImp`): if a threshold is found, the reported decrease is the decrease of
the sum of squared deviations, and no threshold leaving `leafSize` cases on the left and more on the right brings a
larger one. -/
theorem c69_search (f t : NumFeature K) (cases : List Nat) (ht : t.Finite cases) (hfin : f.Finite cases)
    (hties : (Feature.num f).NoNearTies cases) {leafSize : Nat} (hls : 1 ≤ leafSize) (w : Work K)
    (hcs : ∀ c ∈ w.cases, c ∈ cases) (hne : w.cases ≠ []) (hbig : 1 / 10000000 < t.sse w.cases) :
    ∃ p a', (gradTarget t).impurity w.allocs w.cases = some (p, a') ∧
    ∃ r w', f.bestNumSplit (gradTarget t) p leafSize false w = some (r, w') ∧
      (r.imp = minImp ∨ minImp < r.imp ∧ ∃ x : K, r.code = some (.num (.fin x)) ∧
        r.imp = .fin (t.sse w.cases - t.sse ((Feature.num f).lefts (.num (.fin x)) w.cases) -
          t.sse ((Feature.num f).rights (.num (.fin x)) w.cases))) ∧
      ∀ x : K, leafSize ≤ ((Feature.num f).lefts (.num (.fin x)) w.cases).length →
        leafSize < ((Feature.num f).rights (.num (.fin x)) w.cases).length →
        ¬ r.imp < .fin (t.sse w.cases - t.sse ((Feature.num f).lefts (.num (.fin x)) w.cases) -
          t.sse ((Feature.num f).rights (.num (.fin x)) w.cases)) := by
  have hI : (gradLaws t cases ht).I w.cases = .fin (-1) := by
    show (if sseX t w.cases ≤ minImp then sseX t w.cases else .fin (-1)) = _
    rw [sseX_eq t w.cases hne, if_neg]
    unfold minImp
    rw [XF.fin_le]
    exact not_le.2 hbig
  obtain ⟨a', ha', -⟩ := (gradLaws t cases ht).impurity w.allocs w.cases trivial hcs
  rw [hI] at ha'
  refine ⟨_, a', ha', ?_⟩
  obtain ⟨r, w', h1, -, h2, h3⟩ := c10_num_search f (gradLaws t cases ht) hfin hties (.fin (-1)) hls false w hcs trivial
  have hdec : ∀ x : K, leafSize ≤ ((Feature.num f).lefts (.num (.fin x)) w.cases).length →
      leafSize < ((Feature.num f).rights (.num (.fin x)) w.cases).length →
      decrease (.fin (-1)) ((gradLaws t cases ht).S ((Feature.num f).lefts (.num (.fin x)) w.cases)
        ((Feature.num f).rights (.num (.fin x)) w.cases)) =
      .fin (t.sse w.cases - t.sse ((Feature.num f).lefts (.num (.fin x)) w.cases) -
          t.sse ((Feature.num f).rights (.num (.fin x)) w.cases)) := by
    intro x hx1 hx2
    unfold decrease
    rw [if_pos (by rw [XF.fin_lt]; norm_num)]
    refine (fScore_eq t _ _ (fun h => by rw [h] at hx1; simp at hx1; omega)
      fun h => by rw [h] at hx2; simp at hx2).trans ?_
    have hperm : (((Feature.num f).lefts (.num (.fin x)) w.cases) ++
        ((Feature.num f).rights (.num (.fin x)) w.cases)).Perm w.cases := by
      unfold Feature.lefts Feature.rights
      have : w.cases.filter (fun c => (Feature.num f).codedLeft (.num (.fin x)) c == some false) =
          w.cases.filter fun c => !((Feature.num f).codedLeft (.num (.fin x)) c == some true) := by
        apply List.filter_congr
        intro c hc
        obtain ⟨v, hv⟩ := hfin c (hcs c hc)
        simp only [Feature.codedLeft, hv]
        cases hb : decide (XF.fin v ≤ XF.fin x) <;> simp_all
      rw [this]
      exact List.filter_append_perm _ _
    rw [sse_perm t hperm]
  refine ⟨r, w', h1, ?_, ?_⟩
  · rcases h2 with h2 | ⟨h2, x, h4, h5, h6, h7⟩
    · exact .inl h2
    · exact .inr ⟨h2, x, h4, by rw [h7, hdec x h5 h6]⟩
  · intro x hx1 hx2
    have := h3 rfl x hx1 hx2
    rwa [hdec x hx1 hx2] at this

/-- Target values for the six cases of `exSplit`. -/
def exGrad6 : NumFeature ℚ :=
  ⟨[.fin 2, .fin 0, .fin 0, .fin 3, .fin 2, .fin 1], List.replicate 6 false, "t", false⟩

theorem exGrad6_finite : exGrad6.Finite [0, 1, 2, 3, 4, 5] := by
  intro c hc; fin_cases hc <;> simp [exGrad6]

example : ∃ p a', (gradTarget exGrad6).impurity exWork.allocs exWork.cases = some (p, a') ∧
    ∃ r w', exSplit.bestNumSplit (gradTarget exGrad6) p 1 false exWork = some (r, w') := by
  obtain ⟨p, a', h1, r, w', h2, -⟩ := c69_search exSplit exGrad6 _ exGrad6_finite exSplit_finite exSplit_ties (le_refl 1)
    exWork (fun _ h => h) (by simp [exWork]) (by decide +kernel)
  exact ⟨p, a', h1, r, w', h2⟩

/-- The best threshold is between 2 and 3; it takes 6 off the sum of squared deviations. -/
example : (exSplit.bestNumSplit (gradTarget exGrad6) (.fin (-1)) 1 false exWork).map Prod.fst =
    some ⟨some (.num (.fin (5 / 2))), .fin 6, false⟩ := by
  decide +kernel

end CloudForest
