import Verif.Props.BoostRun
import Verif.Model.RoundedBoost
import Verif.Model.Rounding
import Verif.Spec.Questions

/-!
# C156: boosting and the origin of the target
-/

set_option linter.unusedSectionVars false

namespace CloudForest
variable {K : Type} [Field K] [LinearOrder K] [IsStrictOrderedRing K] {τ : Type}

theorem update_mean (g : GradBoost K) (m : XF K) (cases : List Nat) (p : XF K) :
    ({ g with mean := m } : GradBoost K).update cases p = (g.update cases p).map fun h => { h with mean := m } := by
  unfold GradBoost.update
  induction cases generalizing g with
  | nil => rfl
  | cons c cs ih =>
    rw [List.foldlM_cons, List.foldlM_cons]
    simp only [Option.bind_eq_bind]
    cases g.f.missing[c]? with
    | none => rfl
    | some b =>
      simp only [Option.bind_some]
      cases b with
      | true => simpa using ih g
      | false =>
        simp only [Bool.false_eq_true, if_false]
        cases g.f.numData[c]? with
        | none => rfl
        | some x =>
          simp only [Option.bind_some]
          cases g.f.put c (x - g.learnRate * p) with
          | none => rfl
          | some f => simpa using ih { g with f := f }

theorem boost_mean (parse : String → Option (XF K)) (g : GradBoost K) (m : XF K) (leaves : List (List Nat)) (preds : List String) :
    ({ g with mean := m } : GradBoost K).boost parse leaves preds =
      (g.boost parse leaves preds).map fun r => ({ r.1 with mean := m }, r.2) := by
  unfold GradBoost.boost
  have key : ∀ (l : List (List Nat × Nat)) (g : GradBoost K),
      l.foldlM (fun (g : GradBoost K) ci => (preds[ci.2]?).bind fun p => g.update ci.1 ((parse p).getD (.fin 0)))
        { g with mean := m } =
      (l.foldlM (fun (g : GradBoost K) ci => (preds[ci.2]?).bind fun p => g.update ci.1 ((parse p).getD (.fin 0))) g).map
        fun (h : GradBoost K) => { h with mean := m } := by
    intro l
    induction l with
    | nil => exact fun g => rfl
    | cons x xs ih =>
      intro g
      rw [List.foldlM_cons, List.foldlM_cons]
      simp only [Option.bind_eq_bind]
      cases preds[x.2]? with
      | none => rfl
      | some p =>
        simp only [Option.bind_some]
        rw [update_mean]
        cases g.update x.1 ((parse p).getD (.fin 0)) with
        | none => rfl
        | some h => exact ih h
  simp only [Option.bind_eq_bind] at key ⊢
  rw [key]
  generalize List.foldlM (m := Option) _ g leaves.zipIdx = o
  cases o <;> rfl

theorem round_mean (parse : String → Option (XF K)) (ti : Nat) (fm : FeatureMatrix K) (g : GradBoost K) (m : XF K) (t : Tree K) :
    GradBoost.round parse ti (fm, { g with mean := m }) t =
      (GradBoost.round parse ti (fm, g) t).map fun r => ((r.1.1, { r.1.2 with mean := m }), r.2) := by
  unfold GradBoost.round
  simp only [Option.bind_eq_bind]
  cases t.partition fm with
  | none => rfl
  | some lp =>
    obtain ⟨ls, ps⟩ := lp
    simp only [Option.bind_some]
    rw [boost_mean]
    cases g.boost parse ls ps <;> rfl

/-- The trees do not depend on the intercept. -/
theorem trees_mean (b : BoostSetup K τ) (nt : NumText K) (fresh : Bool) (m : XF K) : ∀ (bags : List (List Nat)) (old : Node K)
    (fm : FeatureMatrix K) (g : GradBoost K) (st : SplitState K),
    b.trees nt fresh old ⟨fm, { g with mean := m }, st⟩ bags = b.trees nt fresh old ⟨fm, g, st⟩ bags := by
  intro bags
  induction bags with
  | nil => intros; rfl
  | cons bag bags ih =>
    intro old fm g st
    unfold BoostSetup.trees BoostSetup.tree
    simp only [Option.bind_eq_bind]
    cases grow (treeGrower fm (gradTarget g.f) (b.C g.f) b.o (fun S => (g.f.findPredicted nt S).getD "") b.maxDepth
      b.splitmissing) fm (bag.length + 1) old st bag 0 0 with
    | none => rfl
    | some r =>
      obtain ⟨root, st1⟩ := r
      simp only [Option.bind_some]
      rw [round_mean]
      cases GradBoost.round (fun p => nt.parse p.toList) b.ti (fm, g) ⟨root, b.target, .fin (-1)⟩ with
      | none => rfl
      | some r =>
        obtain ⟨⟨fm1, g1⟩, t⟩ := r
        simp only [Option.map_some, Option.bind_some]
        rw [ih]

/-- The residuals of a target do not depend on its origin. -/
theorem newGradBoost_shifted {f : NumFeature K} (lr : XF K) {n : Nat} (y : Nat → K) (c : K) (hm : f.missing.length = n)
    (hl : f.numData.length = n) (hy : ∀ i < n, f.numData[i]? = some (.fin (y i))) (hn : n ≠ 0) :
    ∃ (g : GradBoost K) (m : K), newGradBoost f lr = some g ∧ g.mean = .fin m ∧
      newGradBoost (f.shifted c) lr = some { g with mean := .fin (m + c) } := by
  have hd : f.numData = finList n y := finList_eq hl hy
  have hd' : (f.shifted c).numData = finList n fun i => y i + c := by
    show f.numData.map _ = _
    rw [hd]
    simp [finList, XF.inUnit]
  have hn' : (n : K) ≠ 0 := Nat.cast_ne_zero.2 hn
  have hsum : ((List.range n).map fun i => y i + c).sum / (n : K) = ((List.range n).map y).sum / n + c := by
    have : ((List.range n).map fun i => y i + c).sum = ((List.range n).map y).sum + n * c := by
      rw [List.sum_map_add]; simp
    rw [this, add_div, mul_div_cancel_left₀ _ hn']
  refine ⟨_, _, newGradBoost_values f lr n y hm hd hn, rfl, ?_⟩
  rw [newGradBoost_values (f.shifted c) lr n _ hm hd' hn, hsum]
  congr 2
  unfold withValues
  congr 1
  apply finList_congr
  intro i _
  ring

theorem run_shifted (b : BoostSetup K τ) (nt : NumText K) (fresh : Bool) (fm : FeatureMatrix K) (lr : XF K)
    (st : SplitState K) (bags : List (List Nat)) {f : NumFeature K} {n : Nat} (y : Nat → K) (c : K)
    (hti : fm.data[b.ti]? = some (.num f)) (hm : f.missing.length = n) (hl : f.numData.length = n)
    (hy : ∀ i < n, f.numData[i]? = some (.fin (y i))) (hn : n ≠ 0) :
    ∃ m : K, b.run nt fresh fm lr st bags = ((b.run nt fresh fm lr st bags).map fun r => (.fin m, r.2)) ∧
      b.run nt fresh { fm with data := fm.data.set b.ti (.num (f.shifted c)) } lr st bags =
        (b.run nt fresh fm lr st bags).map fun r => (.fin (m + c), r.2) := by
  obtain ⟨g, m, h1, h2, h3⟩ := newGradBoost_shifted lr y c hm hl hy hn
  have hlt : b.ti < fm.data.length := (List.getElem?_eq_some_iff.1 hti).1
  refine ⟨m, ?_, ?_⟩
  · unfold BoostSetup.run
    simp only [hti, Option.bind_eq_bind, Option.bind_some, h1, h2]
    cases b.trees nt fresh .fresh ⟨{ fm with data := fm.data.set b.ti (.num g.f) }, g, st⟩ bags <;> rfl
  · unfold BoostSetup.run
    simp only [hti, Option.bind_eq_bind, Option.bind_some, h1, List.getElem?_set_self hlt, h3, List.set_set]
    rw [trees_mean]
    cases b.trees nt fresh .fresh ⟨{ fm with data := fm.data.set b.ti (.num g.f) }, g, st⟩ bags <;> rfl

theorem applySum_shifted (parse : String → Option (XF K)) (m c : K) (trees : List (Tree K)) (fm : FeatureMatrix K) :
    applySum parse (.fin (m + c)) trees fm = (applySum parse (.fin m) trees fm).map (List.map (XF.inUnit 1 c)) := by
  unfold applySum
  simp only [Option.bind_eq_bind]
  cases fm.data[0]? with
  | none => rfl
  | some f =>
    simp only [Option.bind_some]
    generalize List.foldlM (m := Option) _ (SumBox.new (K := K) f.length) trees = o
    cases o with
    | none => rfl
    | some bb =>
      simp only [Option.bind_some, Option.map_some, List.map_map]
      congr 1
      apply List.map_congr_left
      intro s _
      cases s with
      | fin x => show XF.fin _ = XF.fin _; rw [one_mul, add_assoc]
      | _ => rfl

/-- **C156, what holds.** Adding the same number to every value of the target of gradient boosting adds it to every
prediction for these or other data and changes nothing else: the run ends for one target if and only if it ends for the
other, with the same trees. Missing: other units and double precision, see `c156_unit` and `c156_rounding`. -/
theorem c156_origin_partial (b : BoostSetup K τ) (nt : NumText K) (fresh : Bool) (fm : FeatureMatrix K) (lr : XF K)
    (st : SplitState K) (bags : List (List Nat)) {f : NumFeature K} {n : Nat} (y : Nat → K) (c : K)
    (hti : fm.data[b.ti]? = some (.num f)) (hm : f.missing.length = n) (hl : f.numData.length = n)
    (hy : ∀ i < n, f.numData[i]? = some (.fin (y i))) (hn : n ≠ 0) :
    (b.run nt fresh { fm with data := fm.data.set b.ti (.num (f.shifted c)) } lr st bags).map (·.2) =
      (b.run nt fresh fm lr st bags).map (·.2) ∧
    ∀ (parse : String → Option (XF K)) (other : FeatureMatrix K),
      ((b.run nt fresh { fm with data := fm.data.set b.ti (.num (f.shifted c)) } lr st bags).bind fun r =>
        applySum parse r.1 r.2 other) =
      ((b.run nt fresh fm lr st bags).bind fun r => applySum parse r.1 r.2 other).map (List.map (XF.inUnit 1 c)) := by
  obtain ⟨m, h1, h2⟩ := run_shifted b nt fresh fm lr st bags y c hti hm hl hy hn
  constructor
  · rw [h2, Option.map_map]; rfl
  · intro parse other
    rw [h2]
    conv_rhs => rw [h1]
    cases b.run nt fresh fm lr st bags with
    | none => rfl
    | some r => exact applySum_shifted parse m c r.2 other

/-- Predictions for the training data after boosting with two trees. -/
def exBoostPreds (y : List ℚ) : Option (List (XF ℚ)) := do
  let fm := exBoostRunFM y [0, 1, 2, 3, 4] [1, 3, 0, 2, 2]
  let (ic, trees) ← (exBoostSetup 1 1).run exFrac true fm (.fin (1 / 2)) ⟨exWork.allocs, fun k => k, [1, 2], []⟩
    [[0, 1, 2, 3, 4], [4, 2, 0, 1, 3]]
  applySum (fun p => exFrac.parse p.toList) ic trees fm

/-- The hypotheses of `c156_origin_partial` are met. -/
example : ((exBoostSetup 1 1).run exFrac true { exBoostRunFM [0, 0, 0, 8, 8] [0, 1, 2, 3, 4] [1, 3, 0, 2, 2] with
      data := (exBoostRunFM [0, 0, 0, 8, 8] [0, 1, 2, 3, 4] [1, 3, 0, 2, 2]).data.set 0
        (.num ((⟨[0, 0, 0, 8, 8].map XF.fin, List.replicate 5 false, "N:y", false⟩ : NumFeature ℚ).shifted 100)) }
      (.fin (1 / 2)) ⟨exWork.allocs, fun k => k, [1, 2], []⟩ [[0, 1, 2, 3, 4], [4, 2, 0, 1, 3]]).map (·.2) =
    ((exBoostSetup 1 1).run exFrac true (exBoostRunFM [0, 0, 0, 8, 8] [0, 1, 2, 3, 4] [1, 3, 0, 2, 2])
      (.fin (1 / 2)) ⟨exWork.allocs, fun k => k, [1, 2], []⟩ [[0, 1, 2, 3, 4], [4, 2, 0, 1, 3]]).map (·.2) :=
  (c156_origin_partial (exBoostSetup 1 1) exFrac true (exBoostRunFM [0, 0, 0, 8, 8] [0, 1, 2, 3, 4] [1, 3, 0, 2, 2])
    (.fin (1 / 2)) ⟨exWork.allocs, fun k => k, [1, 2], []⟩ [[0, 1, 2, 3, 4], [4, 2, 0, 1, 3]] (n := 5)
    (fun i => if i < 3 then 0 else 8) 100 rfl rfl rfl (by intro i hi; interval_cases i <;> rfl) (by decide)).1

/-- And what comes out: predictions for prices counted from a hundred are greater by a hundred. -/
example : ((exBoostPreds [0, 0, 0, 8, 8]).map fun p => p.map (XF.inUnit 1 100)) = exBoostPreds [100, 100, 100, 108, 108] ∧
    (exBoostPreds [0, 0, 0, 8, 8]).any (fun p => decide (p[0]? ≠ p[4]?)) = true := by decide +kernel

/-- **C156 is false of the code** for other units, because a division must decrease the impurity by 1e-7. In dollars the two
groups are told apart, in units of ten thousand dollars all predictions are the mean. -/
theorem c156_unit : ((exBoostPreds [0, 0, 0, 1, 1]).map fun p => p.map (XF.inUnit (1 / 10000) 0)) ≠
      exBoostPreds [0, 0, 0, 1 / 10000, 1 / 10000] ∧
    exBoostPreds [0, 0, 0, 1 / 10000, 1 / 10000] = some (List.replicate 5 (.fin (2 / 50000))) := by decide +kernel

/-- **C156 is false of the code** in double precision: the residuals of the targets 0 and 1 are minus a half and
a half, but those of 2^53 - 1 and 2^53, between which there is no double, minus one and zero. -/
theorem c156_rounding : ([0, 2 ^ 53 - 1].map fun c : ℚ =>
      (newGradBoostR F64.round (⟨[.fin c, .fin (c + 1)], [false, false], "N:y", false⟩ : NumFeature ℚ) (.fin 1)).map
        fun g => g.f.numData) = [some [.fin (-1 / 2), .fin (1 / 2)], some [.fin (-1), .fin 0]] := by decide +kernel

end CloudForest
