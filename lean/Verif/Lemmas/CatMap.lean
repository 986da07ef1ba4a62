import Verif.Spec.Feature
import Mathlib.Data.List.Dedup

namespace CloudForest
namespace CatMap

theorem wf_empty : empty.WF := by
  intro s n; simp [empty]

theorem WF.map_none {cm : CatMap} (h : cm.WF) {s : String} (hn : cm.map s = none) :
    s ∉ cm.back := by
  intro hmem
  obtain ⟨n, hn', he⟩ := List.mem_iff_getElem.1 hmem
  have := (h s n).2 (by rw [List.getElem?_eq_getElem hn', he])
  rw [hn] at this; cases this

theorem WF.mem_map {cm : CatMap} (h : cm.WF) {s : String} (hm : s ∈ cm.back) :
    ∃ n, cm.map s = some n := by
  obtain ⟨n, hn', he⟩ := List.mem_iff_getElem.1 hm
  exact ⟨n, (h s n).2 (by rw [List.getElem?_eq_getElem hn', he])⟩

theorem wf_catToNum {cm : CatMap} (h : cm.WF) (v : String) : (cm.catToNum v).2.WF := by
  unfold catToNum
  split
  · exact h
  · rename_i hnone
    intro s n
    simp only
    by_cases hs : s = v
    · subst hs
      simp only [if_true]
      constructor
      · intro he; cases he; simp
      · intro he
        rcases Nat.lt_trichotomy n cm.back.length with hlt | heq | hgt
        · rw [List.getElem?_append_left hlt] at he
          have := (h s n).2 he
          rw [hnone] at this; cases this
        · rw [heq]
        · rw [List.getElem?_append_right (by omega)] at he
          have : n - cm.back.length ≠ 0 := by omega
          obtain ⟨m, hm⟩ := Nat.exists_eq_succ_of_ne_zero this
          rw [hm] at he; simp at he
    · simp only [hs, if_false]
      rw [h s n]
      rcases Nat.lt_trichotomy n cm.back.length with hlt | heq | hgt
      · rw [List.getElem?_append_left hlt]
      · subst heq
        simp only [List.getElem?_concat_length]
        simp [Ne.symm hs]
      · rw [List.getElem?_append_right (by omega), List.getElem?_eq_none (by omega)]
        have : n - cm.back.length ≠ 0 := by omega
        obtain ⟨m, hm⟩ := Nat.exists_eq_succ_of_ne_zero this
        rw [hm]; simp

/-- Numbers already assigned keep their meaning. -/
theorem back_catToNum (cm : CatMap) (v : String) : cm.back <+: (cm.catToNum v).2.back := by
  unfold catToNum
  split
  · exact List.prefix_refl _
  · exact List.prefix_append _ _

theorem catToNum_back {cm : CatMap} (h : cm.WF) (v : String) :
    (cm.catToNum v).2.back[(cm.catToNum v).1]? = some v := by
  unfold catToNum
  split
  · rename_i n hn; exact (h v n).1 hn
  · simp

theorem catToNum_mem {cm : CatMap} (h : cm.WF) (v s : String) :
    s ∈ (cm.catToNum v).2.back ↔ s ∈ cm.back ∨ s = v := by
  unfold catToNum
  split
  · rename_i n hn
    have := (h v n).1 hn
    constructor
    · exact Or.inl
    · rintro (h | rfl)
      · exact h
      · exact List.mem_of_getElem? this
  · simp

theorem WF.nodup {cm : CatMap} (h : cm.WF) : cm.back.Nodup := by
  rw [List.nodup_iff_getElem?_ne_getElem?]
  intro i j hij hj he
  have h1 := List.getElem?_eq_getElem (l := cm.back) (i := i) (by omega)
  have h2 := List.getElem?_eq_getElem hj
  have e1 := (h _ _).2 h1
  have e2 := (h _ _).2 h2
  rw [h1, h2] at he
  injection he with he
  rw [he, e2] at e1
  injection e1 with e1
  omega

theorem WF.inj {cm : CatMap} (h : cm.WF) {i j : Nat} {s : String}
    (hi : cm.back[i]? = some s) (hj : cm.back[j]? = some s) : i = j := by
  have e1 := (h _ _).2 hi
  have e2 := (h _ _).2 hj
  rw [e1] at e2; injection e2

theorem run_wf {cm : CatMap} (h : cm.WF) (vs : List String) : (cm.run vs).2.WF := by
  induction vs generalizing cm with
  | nil => exact h
  | cons v vs ih => exact ih (wf_catToNum h v)

theorem run_prefix (cm : CatMap) (vs : List String) : cm.back <+: (cm.run vs).2.back := by
  induction vs generalizing cm with
  | nil => exact List.prefix_refl _
  | cons v vs ih => exact (back_catToNum cm v).trans (ih _)

theorem run_length (cm : CatMap) (vs : List String) : (cm.run vs).1.length = vs.length := by
  induction vs generalizing cm with
  | nil => rfl
  | cons v vs ih => simp [run, ih]

theorem run_get {cm : CatMap} (h : cm.WF) (vs : List String) (i n : Nat)
    (hn : (cm.run vs).1[i]? = some n) : (cm.run vs).2.back[n]? = vs[i]? := by
  induction vs generalizing cm i with
  | nil => simp [run] at hn
  | cons v vs ih =>
    cases i with
    | zero =>
      simp only [run, List.getElem?_cons_zero] at hn
      cases hn
      simp only [run, List.getElem?_cons_zero]
      have h1 := catToNum_back h v
      obtain ⟨t, ht⟩ := run_prefix (cm.catToNum v).2 vs
      rw [← ht]
      rw [List.getElem?_append_left]
      · exact h1
      · by_contra hc
        rw [List.getElem?_eq_none (by omega)] at h1; cases h1
    | succ i =>
      simp only [run, List.getElem?_cons_succ] at hn ⊢
      exact ih (wf_catToNum h v) i hn

theorem run_mem {cm : CatMap} (h : cm.WF) (vs : List String) (s : String) :
    s ∈ (cm.run vs).2.back ↔ s ∈ cm.back ∨ s ∈ vs := by
  induction vs generalizing cm with
  | nil => simp [run]
  | cons v vs ih =>
    simp only [run]
    rw [ih (wf_catToNum h v), catToNum_mem h v s]
    simp only [List.mem_cons]
    tauto

end CatMap
end CloudForest
