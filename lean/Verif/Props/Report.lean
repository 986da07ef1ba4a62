import Verif.Lemmas.Report
import Verif.Lemmas.Impurity
import Mathlib.Tactic.FieldSimp
import Mathlib.Tactic.Ring
import Mathlib.Tactic.Linarith

/-!
# Property C94: the report on test data
-/

set_option linter.unusedSectionVars false

namespace CloudForest
variable {K : Type} [Field K] [LinearOrder K] [IsStrictOrderedRing K]

/-- **C94**, the counts. If no test label is missing and every prediction is "NA" or a label of
the test data: for each label the report counts the cases that have it, those for which it is
predicted, the hits and the wrong predictions; the cases classified correctly, and those without
prediction. -/
theorem c94_counts_partial (f : CatFeature) (hf : LabelsOk f) (hna : "NA" ∉ f.cm.back)
    (tally : Nat → String) (ht : ∀ i < f.missing.length, tally i = "NA" ∨ tally i ∈ f.cm.back) :
    ∃ r, testReport f tally = some r ∧
      r.correct = casesWith f (fun i => f.getStr i == some (tally i)) ∧
      r.nas = predicted f tally "NA" ∧
      ∀ (k : Nat) (v : String), f.cm.back[k]? = some v →
        r.trueTotals[k]? = some (actual f v) ∧ r.predTotals[k]? = some (predicted f tally v) ∧
        r.trueByTrue[k]? = some (hits f tally v) ∧
        r.falsesByPred[k]? = some (predicted f tally v - hits f tally v) ∧
        hits f tally v ≤ predicted f tally v ∧ hits f tally v ≤ actual f v := by
  obtain ⟨r, e, h⟩ := testReport_ok hf hna ht
  refine ⟨r, e, ?_, ?_, ?_⟩
  · rw [h.right, casesWith, List.countP_eq_length_filter]
  · rw [h.nas, predicted, casesWith, List.countP_eq_length_filter]
  · intro k v hk
    simp only [actual, predicted, hits, casesWith, ← List.countP_eq_length_filter]
    have hle : ∀ (is : List Nat), (is.countP fun i => f.getStr i == some v && tally i == v) +
        (is.countP fun i => !(f.getStr i == some v) && tally i == v) =
        is.countP fun i => tally i == v := by
      intro is
      induction is with
      | nil => rfl
      | cons i is ih =>
        simp only [List.countP_cons]
        rw [← ih]
        cases f.getStr i == some v <;> cases tally i == v <;> simp <;> omega
    have h1 := hle (List.range f.missing.length)
    refine ⟨h.totals k v hk, h.preds k v hk, h.trues k v hk, ?_, by omega, ?_⟩
    · rw [h.falses k v hk, ← h1]
      congr 1; omega
    · apply List.countP_mono_left
      intro i _ hi
      simp only [Bool.and_eq_true] at hi
      exact hi.1

/-- **C94**, the rates that are right: the share of cases classified correctly, and for each label
the share of its cases missed. -/
theorem c94_rates_partial (f : CatFeature) (hf : LabelsOk f) (hna : "NA" ∉ f.cm.back)
    (tally : Nat → String) (ht : ∀ i < f.missing.length, tally i = "NA" ∨ tally i ∈ f.cm.back)
    (hpos : f.missing ≠ []) :
    ∃ r, testReport f tally = some r ∧
      (r.classified f : XF K) =
        .fin ((casesWith f fun i => f.getStr i == some (tally i) : Nat) / (f.missing.length : K)) ∧
      ∀ (k : Nat) (v : String), f.cm.back[k]? = some v → 0 < actual f v →
        r.missed (K := K) k = some (.fin (1 - (hits f tally v : K) / actual f v)) := by
  obtain ⟨r, e, h1, -, h3⟩ := c94_counts_partial f hf hna tally ht
  have hn : ((f.missing.length : Nat) : K) ≠ 0 := by
    simpa using hpos
  refine ⟨r, e, ?_, ?_⟩
  · simp only [TestReport.classified, XF.ofNat, XF.fin_div _ hn, h1]
  · intro k v hk hv
    obtain ⟨k1, k2, k3, k4, k5, k6⟩ := h3 k v hk
    have hv' : ((actual f v : Nat) : K) ≠ 0 := by
      have : actual f v ≠ 0 := by omega
      exact_mod_cast this
    simp only [TestReport.missed, k1, k3, Option.bind_eq_bind, Option.bind_some, XF.ofNat,
      XF.fin_sub, XF.fin_div _ hv']
    congr 2
    field_simp

/-- **C94 is false of the code: the precision printed is not the precision.** For a label
predicted at least once, the number printed after "Percision (Actuall/Predicted)" is one minus the
share of hits among its predictions. It is the precision only where that is one half. -/
theorem c94_not_precision (f : CatFeature) (hf : LabelsOk f) (hna : "NA" ∉ f.cm.back)
    (tally : Nat → String) (ht : ∀ i < f.missing.length, tally i = "NA" ∨ tally i ∈ f.cm.back)
    (k : Nat) (v : String) (hk : f.cm.back[k]? = some v) (hp : 0 < predicted f tally v) :
    ∃ r, testReport f tally = some r ∧
      r.precision (K := K) k = some (.fin (1 - (hits f tally v : K) / predicted f tally v)) ∧
      (r.precision (K := K) k = some (.fin ((hits f tally v : K) / predicted f tally v)) ↔
        2 * hits f tally v = predicted f tally v) := by
  obtain ⟨r, e, -, -, h3⟩ := c94_counts_partial f hf hna tally ht
  obtain ⟨-, k2, -, k4, k5, -⟩ := h3 k v hk
  have hv' : ((predicted f tally v : Nat) : K) ≠ 0 := by
    have : predicted f tally v ≠ 0 := by omega
    exact_mod_cast this
  have hpr : r.precision (K := K) k =
      some (.fin (1 - (hits f tally v : K) / predicted f tally v)) := by
    simp only [TestReport.precision, k2, k4, Option.bind_eq_bind, Option.bind_some, XF.ofNat,
      XF.fin_div _ hv', Nat.cast_sub k5]
    congr 2
    field_simp
  refine ⟨r, e, hpr, ?_⟩
  rw [hpr]
  simp only [Option.some.injEq, XF.fin.injEq]
  constructor
  · intro h
    field_simp at h
    have : ((2 * hits f tally v : Nat) : K) = (predicted f tally v : Nat) := by
      push_cast; linarith
    exact_mod_cast this
  · intro h
    have : (2 : K) * (hits f tally v : K) = (predicted f tally v : K) := by exact_mod_cast h
    field_simp
    linarith

/-- **C94 is false of the code: a forest may predict a label that the test data lack.** Then
`growforest` panics in place of the report, wherever the case stands. -/
theorem c94_unseen_label (f : CatFeature) (hf : f.cm.WF) (tally : Nat → String) (i : Nat)
    (hi : i < f.missing.length) (h1 : tally i ≠ "NA") (h2 : tally i ∉ f.cm.back) :
    testReport f tally = none := by
  have hstop : ∀ r : TestReport, r.predTotals.length = f.cm.back.length →
      TestReport.count f tally r i = none := by
    intro r hr
    cases hc : TestReport.count f tally r i with
    | none => rfl
    | some r' =>
      exfalso
      unfold TestReport.count at hc
      obtain ⟨c, -, hc⟩ := Option.bind_eq_some_iff.1 hc
      obtain ⟨tt, -, hc⟩ := Option.bind_eq_some_iff.1 hc
      rw [if_neg h1] at hc
      obtain ⟨pt, e, -⟩ := Option.bind_eq_some_iff.1 hc
      have hn : f.cm.map (tally i) = none := by
        cases hm : f.cm.map (tally i) with
        | none => rfl
        | some n => exact absurd (List.mem_of_getElem? ((hf _ _).1 hm)) h2
      have : (f.cm.catToNum (tally i)).1 = f.cm.back.length := by simp [CatMap.catToNum, hn]
      rw [this] at e
      unfold incr at e
      rw [List.getElem?_eq_none (by omega)] at e
      cases e
  have key : ∀ (is : List Nat) (r : TestReport), r.predTotals.length = f.cm.back.length → i ∈ is →
      is.foldlM (TestReport.count f tally) r = none := by
    intro is
    induction is with
    | nil => intro r _ h; cases h
    | cons j is ih =>
      intro r hr hm
      rw [List.foldlM_cons]
      by_cases hj : i = j
      · subst hj; rw [hstop r hr]; rfl
      · cases hc : TestReport.count f tally r j with
        | none => rfl
        | some r' =>
          exact ih r' (by rw [count_length hc, hr]) ((List.mem_cons.1 hm).resolve_left hj)
  exact key _ _ (by simp [TestReport.new]) (List.mem_range.2 hi)

/-! ## Examples -/

/-- Five test cases with labels "no", "yes", "yes", "yes", "no". -/
def exTest : CatFeature :=
  ⟨(CatMap.empty.run ["no", "yes"]).2, [0, 1, 1, 1, 0], List.replicate 5 false, "C:y", false, false⟩

/-- Predictions for them: "no", "yes", "yes", "NA", "yes". -/
def exTestTally : Nat → String
  | 0 => "no"
  | 3 => "NA"
  | _ => "yes"

theorem exTest_ok : LabelsOk exTest where
  wf := CatMap.run_wf CatMap.wf_empty _
  known := by decide
  inRange := by
    intro i hi
    have : ∀ i < 5, ∃ c < 2, exTest.catData[i]? = some c := by decide
    obtain ⟨c, h1, h2⟩ := this i hi
    exact ⟨c, h2, h1⟩

theorem exTest_tally : ∀ i < exTest.missing.length,
    exTestTally i = "NA" ∨ exTestTally i ∈ exTest.cm.back := by decide +kernel

example : ∃ r, testReport exTest exTestTally = some r ∧
    r.precision (K := ℚ) 1 = some (.fin (1 - (hits exTest exTestTally "yes" : ℚ) / predicted exTest exTestTally "yes")) := by
  obtain ⟨r, h1, h2, -⟩ := c94_not_precision (K := ℚ) exTest exTest_ok (by decide) exTestTally exTest_tally
    1 "yes" (by decide) (by decide +kernel)
  exact ⟨r, h1, h2⟩

/-- Two of three predictions of "yes" are right; the precision printed is 1/3. Of five cases three
are classified correctly, and one of three cases of "yes" is missed. -/
example : (testReport exTest exTestTally).bind (fun r => r.precision 1) = some (.fin (1 / 3 : ℚ)) ∧
    (testReport exTest exTestTally).map (fun r => r.classified exTest) = some (.fin (3 / 5 : ℚ)) ∧
    (testReport exTest exTestTally).bind (fun r => r.missed 1) = some (.fin (1 / 3 : ℚ)) := by
  decide +kernel

example : testReport exTest (fun i => if i = 2 then "perhaps" else "no") = none :=
  c94_unseen_label exTest exTest_ok.wf _ 2 (by decide) (by decide) (by decide +kernel)

/-- The same with the label of the last case missing, as parsing "NA" leaves it
(`Append`, densecatfeature.go:85-97). -/
def exTestGap : CatFeature :=
  { exTest with missing := [false, false, false, false, true], hasMissing := true }

/-- **C94 is false of the code: missing labels.** The last case has no label, and one case is
labelled "no", correctly predicted. The report counts two cases of "no", one of them missed, and
it counts the prediction for the last case as wrong. -/
theorem c94_missing_label :
    actual exTestGap "no" = 1 ∧ hits exTestGap exTestTally "no" = 1 ∧
    (testReport exTestGap exTestTally).map (fun r => r.trueTotals) = some [2, 3] ∧
    (testReport exTestGap exTestTally).bind (fun r => r.missed 0) = some (.fin (1 / 2 : ℚ)) ∧
    (testReport exTestGap exTestTally).map (fun r => r.falsesByPred) = some [0, 1] := by
  decide +kernel

end CloudForest
