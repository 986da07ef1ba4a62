import Verif.Model.Report
import Verif.Spec.Report
import Verif.Lemmas.CatMap

/-! # Lemmas about the report on test data -/

set_option linter.unusedSectionVars false

namespace CloudForest

theorem incr_ok {s : List Nat} {i : Nat} (h : i < s.length) :
    ∃ s', incr s i = some s' ∧ s'.length = s.length ∧
      ∀ k n, s[k]? = some n → s'[k]? = some (n + if i = k then 1 else 0) := by
  refine ⟨s.set i (s[i] + 1), by simp [incr, List.getElem?_eq_getElem h], by simp, ?_⟩
  intro k n hk
  rw [List.getElem?_set]
  by_cases e : i = k
  · subst e
    rw [List.getElem?_eq_getElem h] at hk
    cases hk
    simp [h]
  · simp [e, hk]

theorem CatFeature.getStr_back {f : CatFeature} {i c : Nat} (hm : f.missing[i]? = some false)
    (hc : f.catData[i]? = some c) : f.getStr i = f.cm.back[c]? := by
  simp [CatFeature.getStr, hm, hc]

/-- The counters after the cases `is`. -/
structure CountedSo (f : CatFeature) (tally : Nat → String) (is : List Nat) (r : TestReport) :
    Prop where
  l1 : r.falsesByPred.length = f.cm.back.length
  l2 : r.predTotals.length = f.cm.back.length
  l3 : r.trueByTrue.length = f.cm.back.length
  l4 : r.trueTotals.length = f.cm.back.length
  falses : ∀ (k : Nat) (v : String), f.cm.back[k]? = some v → r.falsesByPred[k]? =
    some (is.countP fun i => !(f.getStr i == some v) && tally i == v)
  preds : ∀ (k : Nat) (v : String), f.cm.back[k]? = some v → r.predTotals[k]? =
    some (is.countP fun i => tally i == v)
  trues : ∀ (k : Nat) (v : String), f.cm.back[k]? = some v → r.trueByTrue[k]? =
    some (is.countP fun i => f.getStr i == some v && tally i == v)
  totals : ∀ (k : Nat) (v : String), f.cm.back[k]? = some v → r.trueTotals[k]? =
    some (is.countP fun i => f.getStr i == some v)
  right : r.correct = is.countP fun i => f.getStr i == some (tally i)
  nas : r.nas = is.countP fun i => tally i == "NA"

theorem count_ok {f : CatFeature} (hf : LabelsOk f) (hna : "NA" ∉ f.cm.back) {tally : Nat → String}
    {is : List Nat} {r : TestReport} (h : CountedSo f tally is r) {i : Nat}
    (hi : i < f.missing.length) (ht : tally i = "NA" ∨ tally i ∈ f.cm.back) :
    ∃ r', TestReport.count f tally r i = some r' ∧ CountedSo f tally (is ++ [i]) r' := by
  obtain ⟨l1, l2, l3, l4, k1, k2, k3, k4, k5, k6⟩ := h
  obtain ⟨c, hc, hcr⟩ := hf.inRange i hi
  have hs := CatFeature.getStr_back (hf.known i hi) hc
  obtain ⟨s, hs'⟩ : ∃ s, f.cm.back[c]? = some s := ⟨_, List.getElem?_eq_getElem hcr⟩
  rw [hs'] at hs
  have hinj : ∀ {k : Nat} {v : String}, f.cm.back[k]? = some v → ∀ {k' : Nat} {v' : String},
      f.cm.back[k']? = some v' →
      (k = k' ↔ v = v') := by
    intro k v hk k' v' hk'
    constructor
    · rintro rfl; rw [hk] at hk'; cases hk'; rfl
    · rintro rfl; exact hf.wf.inj hk hk'
  obtain ⟨tt, e4, ll4, m4⟩ := incr_ok (s := r.trueTotals) (i := c) (by omega)
  have hsna : s ≠ "NA" := by
    rintro rfl; exact hna (List.mem_of_getElem? hs')
  unfold TestReport.count
  rw [hc, Option.bind_some, e4, Option.bind_some]
  by_cases hn : tally i = "NA"
  · rw [if_pos hn]
    refine ⟨_, rfl, l1, l2, l3, by simpa [ll4] using l4, ?_, ?_, ?_, ?_, ?_, ?_⟩
    · intro k v hk
      have : v ≠ "NA" := by rintro rfl; exact hna (List.mem_of_getElem? hk)
      rw [k1 k v hk]; simp [hn, Ne.symm this]
    · intro k v hk
      have : v ≠ "NA" := by rintro rfl; exact hna (List.mem_of_getElem? hk)
      rw [k2 k v hk]; simp [hn, Ne.symm this]
    · intro k v hk
      have : v ≠ "NA" := by rintro rfl; exact hna (List.mem_of_getElem? hk)
      rw [k3 k v hk]; simp [hn, Ne.symm this]
    · intro k v hk
      simp only
      rw [m4 k _ (k4 k v hk)]
      have := hinj hs' hk
      simp [hs, this, List.countP_cons]
    · simp only [k5, List.countP_append, hs, List.countP_singleton, hn]
      simp [hsna]
    · simp [k6, hn]
  · rw [if_neg hn]
    have htb : tally i ∈ f.cm.back := ht.resolve_left hn
    obtain ⟨q, hq⟩ := hf.wf.mem_map htb
    have hqb := (hf.wf _ _).1 hq
    have hcn : (f.cm.catToNum (tally i)).1 = q := by simp [CatMap.catToNum, hq]
    have hql : q < f.cm.back.length := (List.getElem?_eq_some_iff.1 hqb).1
    simp only [hcn]
    obtain ⟨pt, e2, ll2, m2⟩ := incr_ok (s := r.predTotals) (i := q) (by omega)
    rw [e2, Option.bind_some, hs, Option.bind_some]
    by_cases hts : tally i = s
    · rw [if_pos hts]
      obtain ⟨tbt, e3, ll3, m3⟩ := incr_ok (s := r.trueByTrue) (i := c) (by omega)
      rw [e3, Option.bind_some]
      refine ⟨_, rfl, l1, by simpa [ll2] using l2, by simpa [ll3] using l3, by simpa [ll4] using l4,
        ?_, ?_, ?_, ?_, ?_, ?_⟩
      · intro k v hk
        rw [k1 k v hk]
        simp [hs, hts]
      · intro k v hk
        simp only
        rw [m2 k _ (k2 k v hk)]
        have := hinj hqb hk
        simp [this, List.countP_cons]
      · intro k v hk
        simp only
        rw [m3 k _ (k3 k v hk)]
        have := hinj hs' hk
        simp [this, hs, hts, List.countP_cons]
      · intro k v hk
        simp only
        rw [m4 k _ (k4 k v hk)]
        have := hinj hs' hk
        simp [hs, this, List.countP_cons]
      · simp [k5, hs, hts]
      · simp [k6, hn]
    · rw [if_neg hts]
      obtain ⟨fb, e1, ll1, m1⟩ := incr_ok (s := r.falsesByPred) (i := q) (by omega)
      rw [e1, Option.bind_some]
      refine ⟨_, rfl, by simpa [ll1] using l1, by simpa [ll2] using l2, l3, by simpa [ll4] using l4,
        ?_, ?_, ?_, ?_, ?_, ?_⟩
      · intro k v hk
        simp only
        rw [m1 k _ (k1 k v hk)]
        have h1 := hinj hqb hk
        rw [List.countP_append, List.countP_singleton, hs]
        by_cases e : tally i = v
        · have : s ≠ v := fun h => hts (by rw [e, h])
          simp [h1, e, this]
        · simp [h1, e]
      · intro k v hk
        simp only
        rw [m2 k _ (k2 k v hk)]
        have := hinj hqb hk
        simp [this, List.countP_cons]
      · intro k v hk
        simp only
        rw [k3 k v hk, List.countP_append, List.countP_singleton, hs]
        by_cases e : s = v
        · subst e; simp [hts]
        · simp [e]
      · intro k v hk
        simp only
        rw [m4 k _ (k4 k v hk)]
        have := hinj hs' hk
        simp [hs, this, List.countP_cons]
      · simp [k5, hs, Ne.symm hts]
      · simp [k6, hn]

theorem testReport_ok {f : CatFeature} (hf : LabelsOk f) (hna : "NA" ∉ f.cm.back)
    {tally : Nat → String} (ht : ∀ i < f.missing.length, tally i = "NA" ∨ tally i ∈ f.cm.back) :
    ∃ r, testReport f tally = some r ∧ CountedSo f tally (List.range f.missing.length) r := by
  have key : ∀ (rest done : List Nat) (r : TestReport), CountedSo f tally done r →
      (∀ i ∈ rest, i < f.missing.length) →
      ∃ r', rest.foldlM (TestReport.count f tally) r = some r' ∧
        CountedSo f tally (done ++ rest) r' := by
    intro rest
    induction rest with
    | nil => intro done r h _; exact ⟨r, rfl, by simpa using h⟩
    | cons i rest ih =>
      intro done r h hi
      have hi' := hi i List.mem_cons_self
      obtain ⟨r1, e1, h1⟩ := count_ok hf hna h hi' (ht i hi')
      obtain ⟨r', e, h'⟩ := ih _ r1 h1 (fun j hj => hi j (List.mem_cons_of_mem _ hj))
      refine ⟨r', by rw [List.foldlM_cons, e1]; exact e, by simpa using h'⟩
  have hrep : ∀ (k : Nat) (v : String), f.cm.back[k]? = some v →
      (List.replicate f.cm.back.length 0)[k]? = some 0 := by
    intro k v hk
    simp [(List.getElem?_eq_some_iff.1 hk).1]
  obtain ⟨r, e, h⟩ := key (List.range f.missing.length) [] (.new f.cm.back.length)
    ⟨by simp [TestReport.new], by simp [TestReport.new], by simp [TestReport.new],
      by simp [TestReport.new], hrep, hrep, hrep, hrep, rfl, rfl⟩ (by simp)
  exact ⟨r, e, by simpa using h⟩

/-- Counting keeps the number of counters. -/
theorem count_length {f : CatFeature} {tally : Nat → String} {r r' : TestReport} {i : Nat}
    (h : TestReport.count f tally r i = some r') :
    r'.predTotals.length = r.predTotals.length := by
  have hl : ∀ {s s' : List Nat} {i : Nat}, incr s i = some s' → s'.length = s.length := by
    intro s s' i h
    unfold incr at h
    obtain ⟨n, -, rfl⟩ := Option.map_eq_some_iff.1 h
    simp
  unfold TestReport.count at h
  obtain ⟨c, -, h⟩ := Option.bind_eq_some_iff.1 h
  obtain ⟨tt, -, h⟩ := Option.bind_eq_some_iff.1 h
  split at h
  · cases h; rfl
  · obtain ⟨pt, e, h⟩ := Option.bind_eq_some_iff.1 h
    obtain ⟨s, -, h⟩ := Option.bind_eq_some_iff.1 h
    split at h
    · obtain ⟨tbt, -, h⟩ := Option.bind_eq_some_iff.1 h
      cases h; exact hl e
    · obtain ⟨fb, -, h⟩ := Option.bind_eq_some_iff.1 h
      cases h; exact hl e

end CloudForest
