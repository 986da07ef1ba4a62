import Verif.Lemmas.Split
import Verif.Lemmas.CatMap

set_option linter.unusedSectionVars false

namespace CloudForest
variable {K : Type} [Field K] [LinearOrder K] [IsStrictOrderedRing K]

/-- The loop only looks at the tests of the listed cases. -/
theorem splitLoop_congr (miss left miss' left' : Nat → Option Bool) (cs : List Nat) (i nl lr : Nat)
    (h : ∀ c ∈ cs, miss c = miss' c ∧ (miss c = some false → left c = left' c)) :
    splitLoop miss left cs i nl lr = splitLoop miss' left' cs i nl lr := by
  fun_induction splitLoop miss left cs i nl lr with
  | case1 cs i nl lr hlt hc => rw [splitLoop, if_pos hlt]; simp [hc]
  | case2 cs i nl lr hlt c hc hm =>
    have := (h c (List.mem_of_getElem? hc)).1
    rw [splitLoop, if_pos hlt]; simp [hc, ← this, hm]
  | case3 cs i nl lr hlt c hc hm ih =>
    have := (h c (List.mem_of_getElem? hc)).1
    rw [ih h]
    conv_rhs => rw [splitLoop, if_pos hlt]
    simp [hc, ← this, hm]
  | case4 cs i nl lr hlt c hc hm hl =>
    have := h c (List.mem_of_getElem? hc)
    conv_rhs => rw [splitLoop, if_pos hlt]
    simp [hc, ← this.1, hm, ← this.2 hm, hl]
  | case5 cs i nl lr hlt c hc hm hl hne hs =>
    have := h c (List.mem_of_getElem? hc)
    conv_rhs => rw [splitLoop, if_pos hlt]
    simp only [hc, ← this.1, hm, ← this.2 hm, hl]
    rw [if_pos hne]
    split
    · rfl
    · rename_i h2; rw [hs] at h2; cases h2
  | case6 cs i nl lr hlt c hc hm hl hne cs' hs ih =>
    have := h c (List.mem_of_getElem? hc)
    rw [ih (fun c hc => h c ((swp_perm hs).mem_iff.1 hc))]
    conv_rhs => rw [splitLoop, if_pos hlt]
    simp only [hc, ← this.1, hm, ← this.2 hm, hl]
    rw [if_pos hne]
    split
    · rename_i h2; rw [hs] at h2; cases h2
    · rename_i h2; rw [hs] at h2; cases h2; rfl
  | case7 cs i nl lr hlt c hc hm hl hne ih =>
    have := h c (List.mem_of_getElem? hc)
    rw [ih h]
    conv_rhs => rw [splitLoop, if_pos hlt]
    simp only [hc, ← this.1, hm, ← this.2 hm, hl]
    rw [if_neg hne]
  | case8 cs i nl lr hlt c hc hm hl hs =>
    have := h c (List.mem_of_getElem? hc)
    conv_rhs => rw [splitLoop, if_pos hlt]
    simp only [hc, ← this.1, hm, ← this.2 hm, hl]
    split
    · rfl
    · rename_i h2; rw [hs] at h2; cases h2
  | case9 cs i nl lr hlt c hc hm hl cs' hs ih =>
    have := h c (List.mem_of_getElem? hc)
    rw [ih (fun c hc => h c ((swp_perm hs).mem_iff.1 hc))]
    conv_rhs => rw [splitLoop, if_pos hlt]
    simp only [hc, ← this.1, hm, ← this.2 hm, hl]
    split
    · rename_i h2; rw [hs] at h2; cases h2
    · rename_i h2; rw [hs] at h2; cases h2; rfl
  | case10 cs i nl lr hlt => rw [splitLoop, if_neg hlt]

theorem missTest_ne_none {f : Feature K} {c : Nat} (h : f.ValidCase c) : f.missTest c ≠ none := by
  unfold Feature.missTest
  split
  · cases f <;> simp_all [Feature.isMissing, Feature.ValidCase]
  · simp

/-- Testing a bit of the code is the same as looking the name up in the decoded set. -/
theorem decode_contains {cm : CatMap} (h : cm.WF) (b k : Nat) (s : String)
    (hk : cm.back[k]? = some s) :
    ((List.range cm.nCats).filterMap
      fun j => if b.testBit j then cm.back[j]? else none).contains s = b.testBit k := by
  rw [Bool.eq_iff_iff, List.contains_iff_mem, List.mem_filterMap]
  constructor
  · rintro ⟨j, _, hj⟩
    split at hj
    · rename_i hb
      rw [h.inj hk hj]; exact hb
    · cases hj
  · intro hb
    refine ⟨k, ?_, by simp [hb, hk]⟩
    rw [List.mem_range]
    by_contra hc
    rw [List.getElem?_eq_none (by simpa [CatMap.nCats] using hc)] at hk; cases hk

theorem isMissing_of_missTest {f : Feature K} {c : Nat} (hs : f.MissingSound)
    (hv : f.ValidCase c) (h : f.missTest c = some false) : f.isMissing c = some false := by
  unfold Feature.missTest at h
  split at h
  · exact h
  · rename_i hm
    have hne : f.isMissing c ≠ none := by
      cases f <;> simp_all [Feature.isMissing, Feature.ValidCase]
    match hq : f.isMissing c with
    | none => exact absurd hq hne
    | some true => exact absurd (hs c hq) hm
    | some false => rfl

theorem coded_eq_decoded {f : Feature K} {code : Coded K} {s : Splitter K} {c : Nat}
    (hwf : f.CatWF) (hfit : f.CodeFits code) (hd : f.decodeSplit code = some s)
    (hv : f.ValidCase c) (hk : f.isMissing c = some false) :
    f.codedLeft code c = f.goesLeft c s := by
  match f, code, hfit with
  | .num f, .num v, _ =>
    simp only [Feature.decodeSplit] at hd
    cases hd
    simp [Feature.codedLeft, Feature.goesLeft]
  | .cat f, .int b, _ =>
    simp only [Feature.decodeSplit] at hd
    cases hd
    simp only [Feature.codedLeft, Feature.goesLeft]
    obtain ⟨hm, hc, hb⟩ := hv
    simp only [Feature.isMissing] at hk
    have hget := List.getElem?_eq_getElem hc
    have hlt := hb _ hk hget
    have hback := List.getElem?_eq_getElem hlt
    rw [hget]
    simp only [Option.bind_eq_bind, Option.bind_some, hback]
    have := decode_contains hwf b _ _ hback
    rw [this]
  | .cat f, .big b, _ =>
    simp only [Feature.decodeSplit] at hd
    cases hd
    simp only [Feature.codedLeft, Feature.goesLeft]
    obtain ⟨hm, hc, hb⟩ := hv
    simp only [Feature.isMissing] at hk
    have hget := List.getElem?_eq_getElem hc
    have hlt := hb _ hk hget
    have hback := List.getElem?_eq_getElem hlt
    rw [hget]
    simp only [Option.bind_eq_bind, Option.bind_some, hback]
    have := decode_contains hwf b _ _ hback
    rw [this]

end CloudForest
