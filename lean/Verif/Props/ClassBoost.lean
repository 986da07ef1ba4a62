import Verif.Lemmas.ClassBoost
import Verif.Spec.Targets
import Verif.Props.Splitter
import Mathlib.Analysis.Complex.ExponentialBounds
import Mathlib.Tactic.IntervalCases

/-!
# C81 to C84: gradient boosting for two classes
-/

set_option linter.unusedSectionVars false

namespace CloudForest
variable {K : Type} [Field K] [LinearOrder K] [IsStrictOrderedRing K]

theorem realTanh_fin (x : ℝ) : realTanh (.fin x) = .fin (Real.tanh x) := rfl

theorem realLog_fin (x : ℝ) (h : 0 < x) : realLog (.fin x) = .fin (Real.log x) := by
  unfold realLog
  simp [h]

/-! ## C81: the state and the forest agree -/

/-- **C81.** A target of two classes, both of which occur, is boosted by any sequence of trees. Afterwards, for every
case, the log odds the target holds are what `applyforest -sum` predicts with the target's intercept: the prior plus
the learning rate times the sum of what the trees predict. The residual of the case is its label, one or zero, less
the logistic function of its log odds. -/
theorem c81_rounds (parse : String → Option (XF ℝ)) (fm : FeatureMatrix ℝ) (f : CatFeature) (pos : String) (lr : ℝ)
    (n : Nat) (lab : Nat → String) (trees : List (Tree ℝ)) (hc : fm.allCases = some (List.range n))
    (hm : f.missing.length = n) (hd : f.catData.length = n) (hf : f.Labels n lab) (h0 : 0 < hotCount pos lab n)
    (h1 : hotCount pos lab n < n) (hlr : 0 ≤ lr)
    (ht : ∀ t ∈ trees, Usable fm (List.range n) t.root ∧ t.FinitePreds parse) :
    ∃ (g : ClassBoost ℝ) (f' : CatFeature) (g' : ClassBoost ℝ) (trees' : List (Tree ℝ)) (preds : List (XF ℝ))
      (prior : ℝ), newClassBoost realTanh realLog f (.fin lr) pos = some (g, f') ∧
      g.rounds realTanh parse fm trees = some (g', trees') ∧ g'.prior = .fin prior ∧
      applySum parse g'.prior trees' fm = some preds ∧ preds.length = n ∧
      ∀ i < n, ∃ s : ℝ, preds[i]? = some (.fin s) ∧ g'.pred.numData[i]? = some (.fin s) ∧
        s = prior + lr * (trees.map fun t => treeValue parse fm t i).sum ∧
        g'.actual.numData[i]? = some (.fin (if lab i = pos then 1 else 0)) ∧
        g'.res.numData[i]? = some (.fin ((if lab i = pos then 1 else 0) - 1 / (1 + Real.exp (-s)))) := by
  obtain ⟨fr, fa, fp, e⟩ := newClassBoost_eq realTanh_fin realLog_fin f lr pos hm hd lab hf h0 h1
  generalize Real.log ((hotCount pos lab n : ℝ) / ((n : ℝ) - hotCount pos lab n)) = prior at e
  have e2 := classRounds_eq realTanh_fin parse fm fr fa fp (hot pos lab) lr (.fin prior) pos hc trees ht fun _ => prior
  refine ⟨_, _, _, _, _, prior, e, e2, rfl, applySum_eq parse fm n lr prior trees hc hlr (fun t h => ⟨(ht t h).1, (ht t h).2.for fm n⟩), by simp, fun i hi => ?_⟩
  refine ⟨_, finList_get _ hi, finList_get _ hi, rfl, finList_get _ hi, ?_⟩
  refine (finList_get _ hi).trans ?_
  rw [expitOf_tanh]
  rfl

/-! ## C82: the prior and the leaves -/

/-- **C82**, the start: each case begins with the probability of the positive class among all cases, and the residuals
add up to zero. -/
theorem c82_start (f : CatFeature) (pos : String) (lr : ℝ) (n : Nat) (lab : Nat → String)
    (hm : f.missing.length = n) (hd : f.catData.length = n) (hf : f.Labels n lab) (h0 : 0 < hotCount pos lab n)
    (h1 : hotCount pos lab n < n) :
    ∃ (g : ClassBoost ℝ) (f' : CatFeature) (prior : ℝ) (r : Nat → ℝ),
      newClassBoost realTanh realLog f (.fin lr) pos = some (g, f') ∧ g.prior = .fin prior ∧
      1 / (1 + Real.exp (-prior)) = (hotCount pos lab n : ℝ) / n ∧
      (∀ i < n, g.pred.numData[i]? = some (.fin prior) ∧ g.res.numData[i]? = some (.fin (r i)) ∧
        r i = (if lab i = pos then 1 else 0) - (hotCount pos lab n : ℝ) / n) ∧
      ((List.range n).map r).sum = 0 := by
  obtain ⟨fr, fa, fp, e⟩ := newClassBoost_eq realTanh_fin realLog_fin f lr pos hm hd lab hf h0 h1
  have hp0 : (0 : ℝ) < (hotCount pos lab n : ℝ) := Nat.cast_pos.2 h0
  have hp1 : (0 : ℝ) < (n : ℝ) - (hotCount pos lab n : ℝ) := sub_pos.2 (Nat.cast_lt.2 h1)
  have hl := logistic_log hp0 hp1
  rw [add_sub_cancel] at hl
  refine ⟨_, _, _, fun i => hot pos lab i - (hotCount pos lab n : ℝ) / n, e, rfl, hl, fun i hi => ?_, ?_⟩
  · refine ⟨finList_get _ hi, (finList_get _ hi).trans ?_, rfl⟩
    rw [expitOf_tanh, hl]
  · have : ∀ (l : List Nat) (q : ℝ), (l.map fun i => (hot pos lab i : ℝ) - q).sum =
        (l.map (hot pos lab : Nat → ℝ)).sum - l.length * q := by
      intro l q
      induction l with
      | nil => simp
      | cons c cs ih =>
        rw [List.map_cons, List.sum_cons, ih, List.map_cons, List.sum_cons, List.length_cons]
        push_cast
        ring
    rw [this, hot_sum, List.length_range]
    have hn : (n : ℝ) ≠ 0 := by
      have : 0 < n := by omega
      exact_mod_cast this.ne'
    have e : ((List.range n).countP fun i => lab i = pos) = hotCount pos lab n := rfl
    rw [e]
    field_simp
    ring

theorem predicted_eq (g : ClassBoost K) (cases : List Nat) (y r : Nat → K)
    (hy : ∀ c ∈ cases, g.actual.numData[c]? = some (.fin (y c))) (hr : ∀ c ∈ cases, g.res.numData[c]? = some (.fin (r c)))
    (hne : (cases.map fun c => (y c - r c) * (1 - y c + r c)).sum ≠ 0) :
    g.predicted cases = some (.fin ((cases.map r).sum / (cases.map fun c => (y c - r c) * (1 - y c + r c)).sum)) := by
  have key : ∀ (cs : List Nat) (a b : K), (∀ c ∈ cs, c ∈ cases) → cs.foldlM (fun (nd : XF K × XF K) c => do
      let r ← g.res.numData[c]?
      let y ← g.actual.numData[c]?
      some (nd.1 + r, nd.2 + (y - r) * (.fin 1 - y + r))) (.fin a, .fin b) =
      some (.fin (a + (cs.map r).sum), .fin (b + (cs.map fun c => (y c - r c) * (1 - y c + r c)).sum)) := by
    intro cs
    induction cs with
    | nil => intro a b _; simp
    | cons c cs ih =>
      intro a b h
      rw [List.foldlM_cons, hr c (h c (by simp)), hy c (h c (by simp))]
      simp only [Option.bind_eq_bind, Option.bind_some, XF.fin_sub] at ih ⊢
      have e1 : (XF.fin a + XF.fin (r c) : XF K) = .fin (a + r c) := rfl
      have e2 : (XF.fin b + XF.fin (y c - r c) * (XF.fin (1 - y c) + XF.fin (r c)) : XF K) =
          .fin (b + (y c - r c) * (1 - y c + r c)) := rfl
      rw [e1, e2, ih _ _ fun x hx => h x (by simp [hx])]
      simp only [List.map_cons, List.sum_cons, add_assoc]
  unfold ClassBoost.predicted
  have := key cases 0 0 fun c h => h
  simp only [Option.bind_eq_bind] at this ⊢
  rw [this]
  simp only [Option.bind_some, zero_add]
  rw [XF.fin_div _ hne]

theorem hasDerivAt_logLik (y v : Nat → ℝ) (cases : List Nat) (d : ℝ) :
    HasDerivAt (fun d => logLik y (fun c => v c + d) cases) ((cases.map fun c => y c - logistic (v c + d)).sum) d := by
  unfold logLik
  induction cases with
  | nil => simpa using hasDerivAt_const d (0 : ℝ)
  | cons c cs ih =>
    simp only [List.map_cons, List.sum_cons]
    refine HasDerivAt.add ?_ ih
    have hs : HasDerivAt (fun d => logistic (v c + d)) (logistic (v c + d) * (1 - logistic (v c + d))) d :=
      (hasDerivAt_logistic (v c + d)).comp_const_add (v c) d
    have p1 := logistic_pos (v c + d)
    have p2 := sub_pos.2 (logistic_lt_one (v c + d))
    have h1 := (hs.log p1.ne').const_mul (y c)
    have h2 := ((hs.const_sub 1).log p2.ne').const_mul (1 - y c)
    refine (h1.add h2).congr_deriv ?_
    generalize logistic (v c + d) = p at *
    field_simp
    ring

theorem hasDerivAt_gradient (y v : Nat → ℝ) (cases : List Nat) (d : ℝ) :
    HasDerivAt (fun d => (cases.map fun c => y c - logistic (v c + d)).sum)
      (-(cases.map fun c => logistic (v c + d) * (1 - logistic (v c + d))).sum) d := by
  induction cases with
  | nil => simpa using hasDerivAt_const d (0 : ℝ)
  | cons c cs ih =>
    simp only [List.map_cons, List.sum_cons]
    have hs : HasDerivAt (fun d => logistic (v c + d)) (logistic (v c + d) * (1 - logistic (v c + d))) d :=
      (hasDerivAt_logistic (v c + d)).comp_const_add (v c) d
    refine ((hs.const_sub (y c)).add ih).congr_deriv ?_
    ring

theorem curvature_pos (v : Nat → ℝ) (cases : List Nat) (hne : cases ≠ []) :
    0 < (cases.map fun c => logistic (v c) * (1 - logistic (v c))).sum := by
  have nonneg : ∀ cs : List Nat, 0 ≤ (cs.map fun c => logistic (v c) * (1 - logistic (v c))).sum := by
    intro cs
    apply List.sum_nonneg
    intro x hx
    obtain ⟨c, -, rfl⟩ := List.mem_map.1 hx
    exact (mul_pos (logistic_pos _) (sub_pos.2 (logistic_lt_one _))).le
  cases cases with
  | nil => exact absurd rfl hne
  | cons c cs =>
    rw [List.map_cons, List.sum_cons]
    have := mul_pos (logistic_pos (v c)) (sub_pos.2 (logistic_lt_one (v c)))
    linarith [nonneg cs]

/-- **C82**, the leaves: what a leaf predicts is one step of Newton's method for the logarithm of the likelihood of the
labels of its cases, as a function of a number `d` added to the log odds of each of them: minus the first derivative
over the second, at zero. -/
theorem c82_newton (g : ClassBoost ℝ) (cases : List Nat) (hne : cases ≠ []) (y v : Nat → ℝ)
    (hy : ∀ c ∈ cases, g.actual.numData[c]? = some (.fin (y c)))
    (hr : ∀ c ∈ cases, g.res.numData[c]? = some (.fin (y c - 1 / (1 + Real.exp (-(v c)))))) :
    ∃ (D : ℝ → ℝ) (D2 : ℝ), (∀ d, HasDerivAt (fun d => logLik y (fun c => v c + d) cases) (D d) d) ∧
      HasDerivAt D D2 0 ∧ D2 < 0 ∧ g.predicted cases = some (.fin (-D 0 / D2)) := by
  have h2 := hasDerivAt_gradient y v cases 0
  simp only [add_zero] at h2
  have hc := curvature_pos v cases hne
  refine ⟨_, _, hasDerivAt_logLik y v cases, h2, neg_neg_of_pos hc, ?_⟩
  have e : (cases.map fun c => (y c - (y c - 1 / (1 + Real.exp (-(v c))))) *
      (1 - y c + (y c - 1 / (1 + Real.exp (-(v c)))))).sum =
      (cases.map fun c => logistic (v c) * (1 - logistic (v c))).sum := by
    congr 1
    apply List.map_congr_left
    intro c _
    unfold logistic
    ring
  rw [predicted_eq g cases y _ hy hr (by rw [e]; exact hc.ne'), e]
  simp only [add_zero, neg_div_neg_eq]
  rfl

/-! ## An example -/

/-- Five cases, three of them of class "yes". -/
def exYes : CatFeature where
  cm := ⟨fun s => if s = "no" then some 0 else if s = "yes" then some 1 else none, ["no", "yes"]⟩
  catData := [1, 0, 1, 0, 1]
  missing := [false, false, false, false, false]
  name := "C:y"
  hasMissing := false
  randomSearch := false

/-- Their labels. -/
def exYesLab (i : Nat) : String := if i % 2 = 0 then "yes" else "no"

theorem exYes_labels : exYes.Labels 5 exYesLab ∧ hotCount "yes" exYesLab 5 = 3 := by
  refine ⟨fun i hi => ?_, by decide⟩
  interval_cases i
  · exact ⟨rfl, 1, rfl, rfl⟩
  · exact ⟨rfl, 0, rfl, rfl⟩
  · exact ⟨rfl, 1, rfl, rfl⟩
  · exact ⟨rfl, 0, rfl, rfl⟩
  · exact ⟨rfl, 1, rfl, rfl⟩

/-- A leaf of the first three cases, before any tree, predicts (2/5 + 2/5 - 3/5) / (3 · 6/25) = 5/18. -/
example : ∃ g f', newClassBoost realTanh realLog exYes (.fin (1 / 10)) "yes" = some (g, f') ∧
    g.predicted [0, 1, 2] = some (.fin (5 / 18)) := by
  obtain ⟨hf, hc⟩ := exYes_labels
  obtain ⟨fr, fa, fp, e⟩ := newClassBoost_eq realTanh_fin realLog_fin exYes (1 / 10) "yes" (n := 5) rfl rfl exYesLab hf
    (by omega) (by omega)
  have hl := logistic_log (a := 3) (b := 2) (by norm_num) (by norm_num)
  rw [hc] at e
  norm_num at e hl
  refine ⟨_, _, by norm_num; exact e, ?_⟩
  have hr : ∀ c ∈ ([0, 1, 2] : List Nat), (classState Real.tanh fr fa fp 5 (hot "yes" exYesLab) (fun _ => Real.log (3 / 2)) (1 / 10)
      (.fin (Real.log (3 / 2))) "yes").res.numData[c]? = some (.fin (hot "yes" exYesLab c - 3 / 5)) := by
    intro c hcm
    have : c < 5 := by
      simp only [List.mem_cons, List.not_mem_nil, or_false] at hcm
      omega
    show (finList 5 fun i => (hot "yes" exYesLab i : ℝ) - expitOf Real.tanh (Real.log (3 / 2)))[c]? = _
    rw [finList_get _ this]
    rw [show expitOf Real.tanh (Real.log (3 / 2)) = 3 / 5 from (expitOf_tanh _).trans hl]
  have hy : ∀ c ∈ ([0, 1, 2] : List Nat), (classState Real.tanh fr fa fp 5 (hot "yes" exYesLab) (fun _ => Real.log (3 / 2)) (1 / 10)
      (.fin (Real.log (3 / 2))) "yes").actual.numData[c]? = some (.fin (hot "yes" exYesLab c)) := by
    intro c hcm
    have : c < 5 := by
      simp only [List.mem_cons, List.not_mem_nil, or_false] at hcm
      omega
    exact finList_get _ this
  have h0 : (hot "yes" exYesLab 0 : ℝ) = 1 := if_pos (by decide)
  have h1 : (hot "yes" exYesLab 1 : ℝ) = 0 := if_neg (by decide)
  have h2 : (hot "yes" exYesLab 2 : ℝ) = 1 := if_pos (by decide)
  have := predicted_eq (K := ℝ) _ [0, 1, 2] _ _ hy hr (by
    simp only [List.map_cons, List.map_nil, List.sum_cons, List.sum_nil, h0, h1, h2]
    norm_num)
  norm_num at this ⊢
  rw [this]
  simp only [h0, h1, h2]
  norm_num

/-- The classes and a number for each case. -/
noncomputable def exYesFM : FeatureMatrix ℝ where
  data := [.cat exYes, .num ⟨[.fin 1, .fin 0, .fin 1, .fin 0, .fin 0], List.replicate 5 false, "N:x", true⟩]
  map s := if s = "N:x" then some 1 else if s = "C:y" then some 0 else none
  caseLabels := ["a", "b", "c", "d", "e"]

/-- A tree that splits on the number. -/
noncomputable def exYesTree : Tree ℝ :=
  ⟨.mk none 0 (.mk none 0 .nil .nil .nil "low" none) (.mk none 0 .nil .nil .nil "high" none) .nil ""
    (some ⟨"N:x", true, .fin (1 / 2), []⟩), "C:y", .fin (-1)⟩

/-- The numbers its leaves stand for. -/
noncomputable def exYesParse (s : String) : Option (XF ℝ) :=
  if s = "low" then some (.fin (-10 / 9)) else if s = "high" then some (.fin (5 / 3)) else none

/-- The hypotheses of `c81_rounds` hold for two rounds of this tree. -/
example : exYesFM.allCases = some (List.range 5) ∧ exYes.Labels 5 exYesLab ∧ 0 < hotCount "yes" exYesLab 5 ∧
    hotCount "yes" exYesLab 5 < 5 ∧ ∀ t ∈ [exYesTree, exYesTree],
      Usable exYesFM (List.range 5) t.root ∧ t.FinitePreds exYesParse := by
  obtain ⟨hl, hc⟩ := exYes_labels
  refine ⟨rfl, hl, by omega, by omega, fun t ht => ?_⟩
  have : t = exYesTree := by simpa using ht
  subst this
  refine ⟨⟨⟨.num ⟨[.fin 1, .fin 0, .fin 1, .fin 0, .fin 0], List.replicate 5 false, "N:x", true⟩, rfl,
    (fun _ _ => rfl), fun c hc => ⟨List.mem_range.1 hc, List.mem_range.1 hc⟩⟩, ⟨rfl, rfl⟩, ⟨rfl, rfl⟩, .inl rfl⟩, ?_⟩
  intro x hx y hy
  unfold exYesParse at hy
  split at hy
  · exact ⟨_, (Option.some.inj hy).symm⟩
  · split at hy
    · exact ⟨_, (Option.some.inj hy).symm⟩
    · cases hy

/-! ## C83: the likelihood of the training labels -/

theorem logistic_curvature_le (x : ℝ) : logistic x * (1 - logistic x) ≤ 1 / 4 := by
  nlinarith [sq_nonneg (logistic x - 1 / 2)]

/-- A function with zero value and derivative at zero and a derivative that does not fall is not negative. -/
theorem nonneg_of_deriv {G G' : ℝ → ℝ} (hG : ∀ d, HasDerivAt G (G' d) d) (hm : Monotone G') (h0 : G 0 = 0)
    (h0' : G' 0 = 0) (d : ℝ) : 0 ≤ G d := by
  have hc : Continuous G := continuous_iff_continuousAt.2 fun x => (hG x).continuousAt
  have hd : ∀ x, deriv G x = G' x := fun x => (hG x).deriv
  rcases le_total 0 d with h | h
  · have := monotoneOn_of_deriv_nonneg (convex_Ici (0 : ℝ)) hc.continuousOn
      (fun x _ => (hG x).differentiableAt.differentiableWithinAt) (fun x hx => by
        rw [hd, ← h0']
        rw [interior_Ici] at hx
        exact hm (le_of_lt hx)) (Set.mem_Ici.2 le_rfl) (Set.mem_Ici.2 h) h
    rwa [h0] at this
  · have := antitoneOn_of_deriv_nonpos (convex_Iic (0 : ℝ)) hc.continuousOn
      (fun x _ => (hG x).differentiableAt.differentiableWithinAt) (fun x hx => by
        rw [hd, ← h0']
        rw [interior_Iic] at hx
        exact hm (le_of_lt hx)) (Set.mem_Iic.2 h) (Set.mem_Iic.2 le_rfl) h
    rwa [h0] at this

/-- The logarithm of the likelihood is not below a parabola. -/
theorem logLik_parabola (y v : Nat → ℝ) (cases : List Nat) (d : ℝ) :
    logLik y v cases + (cases.map fun c => y c - logistic (v c)).sum * d - cases.length / 8 * d ^ 2 ≤
      logLik y (fun c => v c + d) cases := by
  have hG : ∀ x : ℝ, HasDerivAt (fun x => logLik y (fun c => v c + x) cases - logLik y v cases -
      (cases.map fun c => y c - logistic (v c)).sum * x + cases.length / 8 * x ^ 2)
      ((cases.map fun c => y c - logistic (v c + x)).sum - (cases.map fun c => y c - logistic (v c)).sum +
        cases.length / 4 * x) x := by
    intro x
    have h1 := (hasDerivAt_logLik y v cases x).sub_const (logLik y v cases)
    have h2 := (hasDerivAt_id x).const_mul (cases.map fun c => y c - logistic (v c)).sum
    have h3 := ((hasDerivAt_id x).pow 2).const_mul ((cases.length : ℝ) / 8)
    refine ((h1.sub h2).add h3).congr_deriv ?_
    simp
    ring
  have hG' : ∀ x : ℝ, HasDerivAt (fun x => (cases.map fun c => y c - logistic (v c + x)).sum -
      (cases.map fun c => y c - logistic (v c)).sum + cases.length / 4 * x)
      (-(cases.map fun c => logistic (v c + x) * (1 - logistic (v c + x))).sum + cases.length / 4) x := by
    intro x
    have h1 := (hasDerivAt_gradient y v cases x).sub_const (cases.map fun c => y c - logistic (v c)).sum
    have h2 := (hasDerivAt_id x).const_mul ((cases.length : ℝ) / 4)
    refine (h1.add h2).congr_deriv ?_
    simp
  have hle : ∀ x : ℝ, (cases.map fun c => logistic (v c + x) * (1 - logistic (v c + x))).sum ≤ cases.length / 4 := by
    intro x
    induction cases with
    | nil => simp
    | cons c cs ih =>
      rw [List.map_cons, List.sum_cons, List.length_cons]
      push_cast
      have h1 := logistic_curvature_le (v c + x)
      have h2 : (cs.map fun c => logistic (v c + x) * (1 - logistic (v c + x))).sum ≤ (cs.length : ℝ) / 4 := by
        have : ∀ l : List Nat, (l.map fun c => logistic (v c + x) * (1 - logistic (v c + x))).sum ≤
            (l.length : ℝ) / 4 := by
          intro l
          induction l with
          | nil => simp
          | cons a l ihl =>
            rw [List.map_cons, List.sum_cons, List.length_cons]
            push_cast
            have := logistic_curvature_le (v a + x)
            linarith
        exact this cs
      linarith
  have hmono := monotone_of_deriv_nonneg (fun x => (hG' x).differentiableAt) fun x => by
    rw [(hG' x).deriv]
    linarith [hle x]
  have := nonneg_of_deriv hG hmono (by simp) (by simp) d
  linarith

/-- **C83**, what holds: a leaf does not make the labels of its cases less likely if the learning rate is at most eight
times the mean of p(1 - p) over them, where p is the probability the target holds for a case.

Missing from the full property: larger learning rates, among them one, `c83_less_likely`. -/
theorem c83_leaf_partial (g : ClassBoost ℝ) (cases : List Nat) (hne : cases ≠ []) (y v : Nat → ℝ)
    (hy : ∀ c ∈ cases, g.actual.numData[c]? = some (.fin (y c)))
    (hr : ∀ c ∈ cases, g.res.numData[c]? = some (.fin (y c - logistic (v c)))) (lr : ℝ) (h0 : 0 ≤ lr)
    (h1 : lr ≤ 8 * ((cases.map fun c => logistic (v c) * (1 - logistic (v c))).sum / cases.length)) :
    ∃ p, g.predicted cases = some (.fin p) ∧ logLik y v cases ≤ logLik y (fun c => v c + lr * p) cases := by
  have hc := curvature_pos v cases hne
  have e : (cases.map fun c => (y c - (y c - logistic (v c))) * (1 - y c + (y c - logistic (v c)))).sum =
      (cases.map fun c => logistic (v c) * (1 - logistic (v c))).sum := by
    congr 1
    apply List.map_congr_left
    intro c _
    ring
  have hp := predicted_eq g cases y _ hy hr (by rw [e]; exact hc.ne')
  rw [e] at hp
  refine ⟨_, hp, le_trans ?_ (logLik_parabola y v cases _)⟩
  generalize (cases.map fun c => logistic (v c) * (1 - logistic (v c))).sum = h at *
  generalize (cases.map fun c => y c - logistic (v c)).sum = D at *
  have hn : (0 : ℝ) < cases.length := Nat.cast_pos.2 (List.length_pos_of_ne_nil hne)
  generalize (cases.length : ℝ) = n at *
  have h2 : lr * n ≤ 8 * h := by
    have := mul_le_mul_of_nonneg_right h1 hn.le
    rwa [mul_assoc, div_mul_cancel₀ _ hn.ne'] at this
  have key : D * (lr * (D / h)) - n / 8 * (lr * (D / h)) ^ 2 = lr * (D / h) ^ 2 * (h - n * lr / 8) := by
    field_simp
  have : 0 ≤ lr * (D / h) ^ 2 * (h - n * lr / 8) :=
    mul_nonneg (mul_nonneg h0 (sq_nonneg _)) (by linarith)
  linarith

/-- For two cases with even odds, one of each label, eight times the mean is two. -/
example (y : Nat → ℝ) : (1 : ℝ) ≤ 8 * (([0, 1].map fun c : Nat => logistic ((fun _ => 0) c) *
    (1 - logistic ((fun _ => 0) c))).sum / ([0, 1] : List Nat).length) := by
  have : logistic 0 = 1 / 2 := by norm_num [logistic]
  simp only [List.map_cons, List.map_nil, List.sum_cons, List.sum_nil, this, List.length_cons, List.length_nil]
  norm_num

/-- Twenty cases, all but the first of class "yes". -/
def exRare : CatFeature where
  cm := ⟨fun s => if s = "no" then some 0 else if s = "yes" then some 1 else none, ["no", "yes"]⟩
  catData := 0 :: List.replicate 19 1
  missing := List.replicate 20 false
  name := "C:y"
  hasMissing := false
  randomSearch := false

/-- Their labels. -/
def exRareLab (i : Nat) : String := if i = 0 then "no" else "yes"

theorem exRare_labels : exRare.Labels 20 exRareLab ∧ hotCount "yes" exRareLab 20 = 19 := by
  refine ⟨fun i hi => ?_, by decide⟩
  rcases Nat.eq_zero_or_pos i with rfl | h
  · exact ⟨rfl, 0, rfl, rfl⟩
  · refine ⟨(List.getElem?_replicate ..).trans (if_pos hi), 1, ?_, ?_⟩
    · obtain ⟨j, rfl⟩ : ∃ j, i = j + 1 := ⟨i - 1, by omega⟩
      simp only [exRare, List.getElem?_cons_succ, List.getElem?_replicate]
      rw [if_pos (by omega)]
    · unfold exRareLab
      rw [if_neg (by omega)]
      rfl

theorem logLik_le_term (y v : Nat → ℝ) (cases : List Nat) (hy : ∀ c ∈ cases, y c = 0 ∨ y c = 1) (c : Nat)
    (hc : c ∈ cases) (h1 : y c = 1) : logLik y v cases ≤ v c := by
  have hterm : ∀ d, y d = 0 ∨ y d = 1 →
      y d * Real.log (logistic (v d)) + (1 - y d) * Real.log (1 - logistic (v d)) ≤ 0 := by
    intro d hd
    have p1 := logistic_pos (v d)
    have p2 := logistic_lt_one (v d)
    rcases hd with h | h
    · rw [h]
      have := Real.log_nonpos (by linarith : 0 ≤ 1 - logistic (v d)) (by linarith)
      linarith
    · rw [h]
      have := Real.log_nonpos p1.le p2.le
      linarith
  have hone : y c * Real.log (logistic (v c)) + (1 - y c) * Real.log (1 - logistic (v c)) ≤ v c := by
    rw [h1]
    have : Real.log (logistic (v c)) ≤ v c := by
      rw [← Real.log_exp (v c)]
      apply Real.log_le_log (by rw [Real.log_exp]; exact logistic_pos _)
      rw [Real.log_exp]
      unfold logistic
      rw [div_le_iff₀ (by positivity), mul_add, mul_one, ← Real.exp_add]
      simp
      exact (Real.exp_pos _).le
    linarith
  have hnonpos : ∀ l : List Nat, (∀ d ∈ l, y d = 0 ∨ y d = 1) →
      (l.map fun c => y c * Real.log (logistic (v c)) + (1 - y c) * Real.log (1 - logistic (v c))).sum ≤ 0 := by
    intro l
    induction l with
    | nil => simp
    | cons d l ih =>
      intro h
      rw [List.map_cons, List.sum_cons]
      linarith [hterm d (h d (by simp)), ih fun x hx => h x (by simp [hx])]
  unfold logLik
  induction cases with
  | nil => cases hc
  | cons d l ih =>
    rw [List.map_cons, List.sum_cons]
    rcases List.mem_cons.1 hc with rfl | h
    · linarith [hnonpos l fun x hx => hy x (by simp [hx])]
    · linarith [ih (fun x hx => hy x (by simp [hx])) h, hterm d (hy d (by simp))]

/-- **C83 is false of the code**: a tree that puts the one case of class "no" into a leaf with a case of class "yes",
and the 18 others into another, makes the training labels less likely with learning rate one. -/
theorem c83_less_likely : ∃ (g g' : ClassBoost ℝ) (f' : CatFeature) (a b : ℝ) (v v' : Nat → ℝ),
    newClassBoost realTanh realLog exRare (.fin 1) "yes" = some (g, f') ∧
    g.predicted [0, 1] = some (.fin a) ∧ g.predicted (List.range' 2 18) = some (.fin b) ∧
    g.boost realTanh (fun s => if s = "a" then some (.fin a) else some (.fin b)) [[0, 1], List.range' 2 18]
      ["a", "b"] = some (g', .fin 1) ∧
    (∀ i < 20, g.pred.numData[i]? = some (.fin (v i)) ∧ g'.pred.numData[i]? = some (.fin (v' i))) ∧
    logLik (hot "yes" exRareLab) v' (List.range 20) < logLik (hot "yes" exRareLab) v (List.range 20) := by
  obtain ⟨hf, hc⟩ := exRare_labels
  obtain ⟨fr, fa, fp, e⟩ := newClassBoost_eq realTanh_fin realLog_fin exRare 1 "yes" (n := 20) rfl rfl exRareLab hf
    (by omega) (by omega)
  have hl : logistic (Real.log 19) = 19 / 20 := by
    have := logistic_log (a := 19) (b := 1) (by norm_num) (by norm_num)
    norm_num at this
    exact this
  have e19 : ((19 : Nat) : ℝ) / (((20 : Nat) : ℝ) - ((19 : Nat) : ℝ)) = 19 := by norm_num
  rw [hc, e19] at e
  have hr : ∀ c < 20, (classState Real.tanh fr fa fp 20 (hot "yes" exRareLab) (fun _ => Real.log 19) 1
      (.fin (Real.log 19)) "yes").res.numData[c]? = some (.fin (hot "yes" exRareLab c - 19 / 20)) := by
    intro c h
    show (finList 20 fun i => (hot "yes" exRareLab i : ℝ) - expitOf Real.tanh (Real.log 19))[c]? = _
    rw [finList_get _ h, expitOf_tanh, hl]
  have hy : ∀ c < 20, (classState Real.tanh fr fa fp 20 (hot "yes" exRareLab) (fun _ => Real.log 19) 1
      (.fin (Real.log 19)) "yes").actual.numData[c]? = some (.fin (hot "yes" exRareLab c)) :=
    fun c h => finList_get _ h
  have h0 : (hot "yes" exRareLab 0 : ℝ) = 0 := if_neg (by decide)
  have h1 : ∀ c, 0 < c → (hot "yes" exRareLab c : ℝ) = 1 := by
    intro c h
    apply if_pos
    unfold exRareLab
    rw [if_neg (by omega)]
  have hA := predicted_eq (K := ℝ) _ [0, 1] _ _ (fun c h => hy c (by simp at h; omega))
    (fun c h => hr c (by simp at h; omega)) (by
      simp only [List.map_cons, List.map_nil, List.sum_cons, List.sum_nil, h0, h1 1 (by omega)]
      norm_num)
  have hB := predicted_eq (K := ℝ) _ (List.range' 2 18) _ _ (fun c h => hy c (by simp at h; omega))
    (fun c h => hr c (by simp at h; omega)) (by
      simp only [List.range', List.map_cons, List.map_nil, List.sum_cons, List.sum_nil]
      repeat rw [h1 _ (by omega)]
      norm_num)
  have vA : (([0, 1].map fun c : Nat => (hot "yes" exRareLab c : ℝ) - 19 / 20).sum /
      ([0, 1].map fun c : Nat => ((hot "yes" exRareLab c : ℝ) - (hot "yes" exRareLab c - 19 / 20)) *
        (1 - hot "yes" exRareLab c + (hot "yes" exRareLab c - 19 / 20))).sum) = -180 / 19 := by
    simp only [List.map_cons, List.map_nil, List.sum_cons, List.sum_nil, h0, h1 1 (by omega)]
    norm_num
  rw [vA] at hA
  generalize hb : (((List.range' 2 18).map fun c : Nat => (hot "yes" exRareLab c : ℝ) - 19 / 20).sum /
      ((List.range' 2 18).map fun c : Nat => ((hot "yes" exRareLab c : ℝ) - (hot "yes" exRareLab c - 19 / 20)) *
        (1 - hot "yes" exRareLab c + (hot "yes" exRareLab c - 19 / 20))).sum) = b at hB
  have hboost := classBoost_eq realTanh_fin
    (fun s => if s = "a" then some (.fin (-180 / 19)) else some (.fin b)) fr fa fp (n := 20) (hot "yes" exRareLab) 1
    (.fin (Real.log 19)) "yes" [[0, 1], List.range' 2 18] ["a", "b"] (.fin 1) rfl (by
      intro gg hgg
      simp only [List.zip_cons_cons, List.zip_nil_right, List.mem_cons, List.not_mem_nil, or_false] at hgg
      rcases hgg with rfl | rfl
      · exact ⟨by decide, fun _ y h => ⟨_, (Option.some.inj h).symm⟩⟩
      · exact ⟨by decide, fun _ y h => ⟨_, (Option.some.inj h).symm⟩⟩) fun _ => Real.log 19
  refine ⟨_, _, _, _, b, fun _ => Real.log 19, _, e, hA, hB, hboost,
    fun i hi => ⟨finList_get _ hi, finList_get _ hi⟩, ?_⟩
  -- after
  refine lt_of_le_of_lt (logLik_le_term _ _ _ (fun c _ => ?_) 1 (by decide) (h1 1 (by omega))) ?_
  · unfold hot
    split
    · exact .inr rfl
    · exact .inl rfl
  -- before
  have hbefore : logLik (hot "yes" exRareLab) (fun _ => Real.log 19) (List.range 20) =
      Real.log (1 / 20) + 19 * Real.log (19 / 20) := by
    unfold logLik
    simp only [hl]
    rw [show List.range 20 = 0 :: List.range' 1 19 by decide]
    simp only [List.range', List.map_cons, List.map_nil, List.sum_cons, List.sum_nil, h0]
    repeat rw [h1 _ (by omega)]
    have : (1 : ℝ) - 19 / 20 = 1 / 20 := by norm_num
    rw [this]
    ring
  rw [hbefore]
  have hvote : votedSum (fun s => if s = "a" then some (XF.fin (-180 / 19 : ℝ)) else some (.fin b))
      (([[0, 1], List.range' 2 18].zip ["a", "b"]).flatMap fun g => g.1.map fun c => ⟨c, g.2, .fin 1⟩) 1 =
      -180 / 19 := by
    simp only [List.zip_cons_cons, List.zip_nil_right, List.flatMap_cons, List.flatMap_nil, votedSum_append,
      votedSum_group]
    have c1 : ([0, 1] : List Nat).count 1 = 1 := by decide
    have c2 : (List.range' 2 18).count 1 = 0 := by decide
    rw [c1, c2]
    simp [predVal, votedSum]
  rw [hvote]
  have b1 : Real.log 19 < 3 := by
    rw [Real.log_lt_iff_lt_exp (by norm_num)]
    have : Real.exp 3 = Real.exp 1 ^ 3 := by rw [← Real.exp_nat_mul]; norm_num
    rw [this]
    have := Real.exp_one_gt_d9
    have h2 : (2.7182818283 : ℝ) ^ 3 < Real.exp 1 ^ 3 := pow_lt_pow_left₀ this (by norm_num) (by norm_num)
    refine lt_trans ?_ h2
    norm_num
  have b2 : -3 < Real.log (1 / 20) := by
    rw [Real.lt_log_iff_exp_lt (by norm_num), Real.exp_neg, inv_eq_one_div]
    have : Real.exp 3 = Real.exp 1 ^ 3 := by rw [← Real.exp_nat_mul]; norm_num
    rw [this]
    have := Real.exp_one_gt_d9
    have h2 : (2.7182818283 : ℝ) ^ 3 < Real.exp 1 ^ 3 := pow_lt_pow_left₀ this (by norm_num) (by norm_num)
    apply one_div_lt_one_div_of_lt (by norm_num)
    refine lt_trans ?_ h2
    norm_num
  have b3 : -(1 / 19) ≤ Real.log (19 / 20) := by
    have := Real.one_sub_inv_le_log_of_pos (by norm_num : (0 : ℝ) < 19 / 20)
    refine le_trans ?_ this
    norm_num
  linarith

/-! ## C84: cases with unknown class -/

theorem markPositive_missing (pos : String) (n : Nat) (f : CatFeature) (a : NumFeature K) (f' : CatFeature)
    (a' : NumFeature K) (hma : a.missing = f.missing) (h : markPositive pos n f a = some (f', a')) (hn : n ≤ f.missing.length) :
    f'.missing = List.replicate n false ++ f.missing.drop n ∧ a'.missing = f'.missing := by
  unfold markPositive at h
  induction n generalizing f' a' with
  | zero =>
    simp only [List.range_zero, List.foldlM_nil] at h
    cases h
    simp [hma]
  | succ k ih =>
    rw [List.range_succ, List.foldlM_append] at h
    simp only [Option.bind_eq_bind, Option.bind_eq_some_iff, List.foldlM_cons, List.foldlM_nil] at h
    obtain ⟨⟨f1, a1⟩, h1, ⟨f2, a2⟩, ⟨s, -, a3, h3, h4⟩, h5⟩ := h
    cases h4
    cases h5
    obtain ⟨i1, i2⟩ := ih f1 a1 (by simpa using h1) (by omega)
    unfold NumFeature.put wr at h3
    simp only [Option.bind_eq_bind, Option.bind_eq_some_iff] at h3
    obtain ⟨d, -, mm, hm, e4⟩ := h3
    cases e4
    refine ⟨?_, rfl⟩
    split at hm
    · cases hm
      show a1.missing.set k false = _
      rw [i2, i1, List.set_append_right _ _ (by simp), List.length_replicate, Nat.sub_self, List.replicate_succ',
        List.drop_eq_getElem_cons (by omega : k < f.missing.length), List.set_cons_zero]
      simp
    · cases hm

/-- **C84 is false of the code**: whatever classes are missing, the target has no missing case, and neither has the
feature it was made of any more. -/
theorem c84_marks_cleared (tanh log : XF K → XF K) (f : CatFeature) (lr : XF K) (pos : String) (g : ClassBoost K)
    (f' : CatFeature) (h : newClassBoost tanh log f lr pos = some (g, f')) :
    g.actual.missing = List.replicate f.missing.length false ∧ f'.missing = List.replicate f.missing.length false := by
  unfold newClassBoost at h
  simp only [Option.bind_eq_bind, Option.bind_eq_some_iff] at h
  obtain ⟨⟨f1, a1⟩, h1, sum, -, ⟨p, r⟩, -, h4⟩ := h
  cases h4
  have hma : (f.encodeFirst : NumFeature K).missing = f.missing := by
    unfold CatFeature.encodeFirst
    split <;> rfl
  obtain ⟨e1, e2⟩ := markPositive_missing pos _ f _ _ _ hma h1 le_rfl
  simp only
  rw [e2, e1, List.drop_eq_nil_of_le le_rfl, List.append_nil]
  exact ⟨rfl, rfl⟩

/-- A case whose class is not known counts as one that is not of the positive class: with one case of each class and a
missing one the prior is that of one in three. -/
theorem c84_counted_negative (tanh log : XF ℚ → XF ℚ) :
    ∃ f : CatFeature, f.missing = [false, false, true] ∧ f.catData = [1, 0, 0] ∧ f.cm.back = ["no", "yes"] ∧
      (newClassBoost tanh log f (.fin 1) "yes").map (fun r => (r.1.prior, r.1.actual.numData, r.2.missing)) =
        some (log (.fin (1 / 2)), [.fin 1, .fin 0, .fin 0], [false, false, false]) := by
  refine ⟨⟨⟨fun s => if s = "no" then some 0 else if s = "yes" then some 1 else none, ["no", "yes"]⟩, [1, 0, 0],
    [false, false, true], "C:y", true, false⟩, rfl, rfl, rfl, ?_⟩
  kernel_refl

/-- **C84**, what holds: without missing classes the labels, the prior and the residuals are those of the cases, and
the feature stays as it is.

Missing from the full property: missing classes, `c84_marks_cleared`. -/
theorem c84_known_partial (f : CatFeature) (pos : String) (lr : ℝ) (n : Nat) (lab : Nat → String)
    (hm : f.missing.length = n) (hd : f.catData.length = n) (hf : f.Labels n lab) (h0 : 0 < hotCount pos lab n)
    (h1 : hotCount pos lab n < n) :
    ∃ g : ClassBoost ℝ, newClassBoost realTanh realLog f (.fin lr) pos = some (g, f) ∧
      g.prior = .fin (Real.log ((hotCount pos lab n : ℝ) / ((n : ℝ) - hotCount pos lab n))) ∧
      ∀ i < n, g.actual.numData[i]? = some (.fin (if lab i = pos then 1 else 0)) ∧ g.actual.missing[i]? = some false := by
  obtain ⟨fr, fa, fp, e⟩ := newClassBoost_eq realTanh_fin realLog_fin f lr pos hm hd lab hf h0 h1
  have hrep : f.missing = List.replicate n false := by
    apply List.ext_getElem?
    intro j
    by_cases hj : j < n
    · rw [(hf j hj).1, List.getElem?_replicate, if_pos hj]
    · rw [List.getElem?_eq_none (by omega), List.getElem?_eq_none (by simp; omega)]
  rw [← hrep] at e
  refine ⟨_, e, rfl, fun i hi => ⟨finList_get _ hi, ?_⟩⟩
  · show (List.replicate n false)[i]? = _
    simp [hi]

example : exYes.Labels 5 exYesLab ∧ 0 < hotCount "yes" exYesLab 5 ∧ hotCount "yes" exYesLab 5 < 5 := by
  obtain ⟨h, e⟩ := exYes_labels
  exact ⟨h, by omega, by omega⟩

/-- If the positive class does not occur, or no other does, leaves have no number to predict. -/
theorem c82_one_class (tanh log : XF ℚ → XF ℚ) (h0 : log (.fin 0) = .ninf) (hT : tanh .ninf = .fin (-1)) :
    ∃ f : CatFeature, f.missing = [false, false] ∧ f.catData = [1, 0] ∧
      ((newClassBoost tanh log f (.fin 1) "maybe").bind fun r => r.1.predicted [0, 1]) = some .nan := by
  refine ⟨⟨⟨fun s => if s = "no" then some 0 else if s = "yes" then some 1 else none, ["no", "yes"]⟩, [1, 0],
    [false, false], "C:y", false, false⟩, rfl, rfl, ?_⟩
  have h1 : ((newClassBoost tanh log ⟨⟨fun s => if s = "no" then some 0 else if s = "yes" then some 1 else none,
      ["no", "yes"]⟩, [1, 0], [false, false], "C:y", false, false⟩ (.fin 1) "maybe").bind
        fun r => r.1.predicted [0, 1]) =
      (some (⟨⟨[.fin 0 - expit tanh (log (.fin 0)), .fin 0 - expit tanh (log (.fin 0))], [false, false], "C:y", false⟩,
        ⟨[.fin 0, .fin 0], [false, false], "C:y", false⟩,
        ⟨[log (.fin 0), log (.fin 0)], [false, false], "C:y", false⟩, .fin 1, log (.fin 0), "maybe"⟩ : ClassBoost ℚ)).bind
        fun g => g.predicted [0, 1] := by
    kernel_refl
  rw [h1]
  have h2 : (XF.fin 0 - expit tanh (log (.fin 0)) : XF ℚ) = .fin 0 := by
    unfold expit
    rw [h0]
    have e1 : (XF.fin (1 / 2) * XF.ninf : XF ℚ) = .ninf := by decide +kernel
    rw [e1, hT]
    decide +kernel
  rw [h2, Option.bind_some]
  show ClassBoost.predicted _ [0, 1] = some .nan
  kernel_refl

end CloudForest
