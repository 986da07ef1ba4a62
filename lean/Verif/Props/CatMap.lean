import Verif.Lemmas.CatMap

/-!
# C04: category numbering is a stable bijection
-/

namespace CloudForest

/-- C04. After any sequence of `CatToNum` calls on a new map: equal numbers mean equal
categories and conversely, the numbers returned are exactly those below `NCats`, `NumToCat`
inverts `CatToNum`, and `NCats` is the number of different categories seen. -/
theorem c04_bijection (vs : List String) :
    let codes := (CatMap.empty.run vs).1
    let cm := (CatMap.empty.run vs).2
    codes.length = vs.length ∧
    (∀ i j : Nat, i < vs.length → j < vs.length → (codes[i]? = codes[j]? ↔ vs[i]? = vs[j]?)) ∧
    (∀ n, n ∈ codes ↔ n < cm.nCats) ∧
    (∀ i n : Nat, codes[i]? = some n → cm.numToCat n = vs[i]?) ∧
    cm.nCats = vs.dedup.length := by
  intro codes cm
  have hwf : cm.WF := CatMap.run_wf CatMap.wf_empty vs
  have hlen : codes.length = vs.length := CatMap.run_length _ vs
  have hget : ∀ i n : Nat, codes[i]? = some n → cm.back[n]? = vs[i]? :=
    fun i n h => CatMap.run_get CatMap.wf_empty vs i n h
  refine ⟨hlen, ?_, ?_, hget, ?_⟩
  · intro i j hi hj
    have hi' : i < codes.length := by omega
    have hj' : j < codes.length := by omega
    have gi := hget i codes[i] (List.getElem?_eq_getElem hi')
    have gj := hget j codes[j] (List.getElem?_eq_getElem hj')
    rw [List.getElem?_eq_getElem hi', List.getElem?_eq_getElem hj', ← gi, ← gj]
    constructor
    · intro h; injection h with h; rw [h]
    · intro h
      rw [List.getElem?_eq_getElem hi] at gi
      congr 1
      exact hwf.inj gi (h ▸ gi)
  · intro n
    constructor
    · intro hn
      obtain ⟨i, hi, rfl⟩ := List.mem_iff_getElem.1 hn
      have := hget i _ (List.getElem?_eq_getElem hi)
      rw [List.getElem?_eq_getElem (by omega : i < vs.length)] at this
      by_contra hc
      rw [List.getElem?_eq_none (by simpa [CatMap.nCats] using hc)] at this
      cases this
    · intro hn
      have hn' : n < cm.back.length := hn
      have hmem : cm.back[n] ∈ vs := by
        have := (CatMap.run_mem CatMap.wf_empty vs cm.back[n]).1 (List.getElem_mem hn')
        simpa [CatMap.empty] using this
      obtain ⟨i, hi, he⟩ := List.mem_iff_getElem.1 hmem
      have hi' : i < codes.length := by omega
      have gi := hget i codes[i] (List.getElem?_eq_getElem hi')
      rw [List.getElem?_eq_getElem hi, he] at gi
      have := hwf.inj gi (List.getElem?_eq_getElem hn')
      rw [← this]
      exact List.getElem_mem hi'
  · have h1 : cm.back.Perm vs.dedup := by
      rw [List.perm_ext_iff_of_nodup hwf.nodup (List.nodup_dedup vs)]
      intro a
      rw [List.mem_dedup]
      have := CatMap.run_mem CatMap.wf_empty vs a
      rw [show CatMap.empty.back = [] from rfl] at this
      simpa using this
    exact h1.length_eq

/-- C04, stability: whatever is looked up later, a category keeps the number it was given. -/
theorem c04_stable (vs ws : List String) (i n : Nat) (s : String)
    (hs : vs[i]? = some s) (hn : (CatMap.empty.run vs).1[i]? = some n) :
    (((CatMap.empty.run vs).2.run ws).2.catToNum s).1 = n ∧
    ((CatMap.empty.run vs).2.run ws).2.numToCat n = some s := by
  have hwf := CatMap.run_wf CatMap.wf_empty vs
  have hwf2 := CatMap.run_wf hwf ws
  have h1 := CatMap.run_get CatMap.wf_empty vs i n hn
  rw [hs] at h1
  have h2 : ((CatMap.empty.run vs).2.run ws).2.back[n]? = some s := by
    obtain ⟨t, ht⟩ := CatMap.run_prefix (CatMap.empty.run vs).2 ws
    rw [← ht, List.getElem?_append_left]
    · exact h1
    · by_contra hc
      rw [List.getElem?_eq_none (by omega)] at h1; cases h1
  refine ⟨?_, h2⟩
  have h3 := (hwf2 s n).2 h2
  simp [CatMap.catToNum, h3]

/-- The hypotheses of `c04_stable` are met: "b" gets number 1 and keeps it. -/
example : (["a", "b", "a"] : List String)[1]? = some "b" ∧
    (CatMap.empty.run ["a", "b", "a"]).1[1]? = some 1 ∧
    (CatMap.empty.run ["a", "b", "a", "c"]).1 = [0, 1, 0, 2] := by decide

end CloudForest
