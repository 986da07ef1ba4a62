import Verif.Lemmas.Fair
import Verif.Props.Shuffle
import Mathlib.Data.List.Perm.Subperm

/-!
# Property C120: samples and shuffles are fair
-/

set_option linter.unusedSectionVars false

namespace CloudForest
variable {K : Type} [Field K] [LinearOrder K] [IsStrictOrderedRing K]

/-- **C120, samples.** Of the equally likely sequences of draws exactly one makes `SampleFirstN` return a given sample: any
choice of different cases, in any order. -/
theorem c120_sample_fair (deck sample : List Nat) (hd : deck.Nodup) (hv : sample.Nodup) (hs : ∀ v ∈ sample, v ∈ deck) :
    ways deck.length sample.length (fun rng => (sampleFirstN deck sample.length 0 rng).map fun r => r.2.1) sample = 1 := by
  have hle : sample.length ≤ deck.length := (List.Nodup.subperm hv hs).length_le
  unfold ways
  rw [← choose_count sample deck hd hv hs]
  refine List.countP_congr fun d hm => ?_
  have hdl := mem_drawSeqs hm
  obtain ⟨cards', rng, e, -, e2⟩ := sampleLoop_choose sample.length deck 0 d (by omega) hle (by
    rw [hdl]
    exact hm)
  unfold sampleFirstN
  simp only [Nat.sub_zero, e, Option.bind_eq_bind, Option.bind_some, Option.map_some, decide_eq_true_eq]
  simp only [List.drop_zero] at e2
  rw [e2, hdl]

/-- Three of the cases 4, 7, 9 and 2 in the order 2, 4, 9: one of the 24 sequences of draws. -/
example : ([4, 7, 9, 2] : List Nat).Nodup ∧ ([2, 4, 9] : List Nat).Nodup ∧ (∀ v ∈ [2, 4, 9], v ∈ [4, 7, 9, 2]) ∧
    (drawSeqs 4 3).length = 24 ∧
    ways 4 3 (fun rng => (sampleFirstN [4, 7, 9, 2] 3 0 rng).map fun r => r.2.1) [2, 4, 9] = 1 := by
  decide +kernel

/-- Where the draws take the value of each of `n` cases from, when `cases` are shuffled. -/
def sources (n : Nat) (cases : List Nat) (d : List Nat) : List Nat :=
  match shuffleLoop cases (List.replicate n false) (List.range n) (streamOf d) 0 with
  | some (_, p, _) => p
  | none => []

theorem sources_ok (n : Nat) (cases : List Nat) (hc : ∀ c ∈ cases, c < n) {α : Type} (miss : List Bool) (data : List α)
    (hm : miss.length = n) (hl : data.length = n) (d : List Nat) : ∃ miss' data' rng',
      shuffleLoop cases miss data (streamOf d) 0 = some (miss', data', rng') ∧
      (∀ c : Nat, miss'[c]? = (sources n cases d)[c]?.bind fun s => miss[s]?) ∧
      (∀ c : Nat, data'[c]? = (sources n cases d)[c]?.bind fun s => data[s]?) := by
  obtain ⟨m, p, r, π, e, h1, h2, h3, h4⟩ := shuffleLoop_ok cases n hc _ 0 rfl (List.replicate n false) (List.range n)
    (streamOf d) (by simp) (by simp)
  have hs : sources n cases d = p := by
    unfold sources
    rw [e]
  rw [hs]
  by_cases hn : n = 0
  · subst hn
    have hp : p = [] := List.eq_nil_of_length_eq_zero h2
    obtain ⟨rfl, rfl⟩ : miss = [] ∧ data = [] := ⟨List.eq_nil_of_length_eq_zero hm, List.eq_nil_of_length_eq_zero hl⟩
    have hcs : cases = [] := List.eq_nil_iff_forall_not_mem.2 fun c h => absurd (hc c h) (by omega)
    subst hcs
    refine ⟨[], [], streamOf d, by rw [shuffleLoop]; rfl, fun c => by simp [hp], fun c => by simp [hp]⟩
  · obtain ⟨z, hz⟩ : ∃ z, z ∈ data := by
      cases data with
      | nil => simp at hl; omega
      | cons a l => exact ⟨a, by simp⟩
    have := shuffleLoop_map cases (fun i => miss.getD i false) (fun i => data.getD i z) _ 0 rfl _ _ _ _ _ _ e
    rw [map_get_range _ _ hm, map_get_range _ _ hl] at this
    have hlt : ∀ (c s : Nat), p[c]? = some s → s < n := by
      intro c s h
      rw [(h4 c).2] at h
      have := List.mem_of_getElem? h
      simpa using this
    refine ⟨_, _, _, this, fun c => ?_, fun c => ?_⟩
    · rw [List.getElem?_map]
      cases h : p[c]? with
      | none => rfl
      | some s =>
        have := hlt c s h
        simp [List.getElem?_eq_getElem (show s < miss.length by omega)]
    · rw [List.getElem?_map]
      cases h : p[c]? with
      | none => rfl
      | some s =>
        have := hlt c s h
        simp [List.getElem?_eq_getElem (show s < data.length by omega)]

theorem sources_count (n : Nat) (cases : List Nat) (hn : cases.Nodup) (hc : ∀ c ∈ cases, c < n) (arr : List Nat)
    (hp : arr.Perm (List.range n)) (ho : ∀ c < n, c ∉ cases → arr[c]? = some c) :
    (drawSeqs cases.length cases.length).countP (fun d => decide (sources n cases d = arr)) = 1 := by
  have harr : arr.Nodup := hp.nodup_iff.2 List.nodup_range
  have hal : arr.length = n := by simpa using hp.length_eq
  have hcs : (cases.map fun c => (List.range n)[c]?) = cases.map some :=
    List.map_congr_left fun c h => List.getElem?_range (hc c h)
  have hx : (cases.map fun c => (List.range n)[c]?).Nodup := by
    rw [hcs]
    exact hn.map (Option.some_injective _)
  have hv : (cases.map fun c => arr[c]?).Nodup := by
    refine (List.nodup_map_iff_inj_on hn).2 fun a ha b hb e => ?_
    have h1 := hc a ha
    have h2 := hc b hb
    rw [List.getElem?_eq_getElem (by omega), List.getElem?_eq_getElem (by omega)] at e
    exact harr.getElem_inj_iff.1 (Option.some.inj e)
  have hsub : ∀ v ∈ cases.map fun c => arr[c]?, v ∈ cases.map fun c => (List.range n)[c]? := by
    intro v h
    obtain ⟨c, hcm, rfl⟩ := List.mem_map.1 h
    have hcn := hc c hcm
    have hg : arr[c]? = some arr[c] := List.getElem?_eq_getElem (by omega)
    rw [hcs, hg]
    have hlt : arr[c] < n := by
      have := hp.mem_iff.1 (List.getElem_mem (show c < arr.length by omega))
      simpa using this
    by_cases hin : arr[c] ∈ cases
    · exact List.mem_map_of_mem hin
    · have := ho _ hlt hin
      rw [List.getElem?_eq_getElem (by omega)] at this
      have := harr.getElem_inj_iff.1 (Option.some.inj this)
      rw [this] at hin
      exact absurd hcm hin
  have hcount := choose_count _ _ hx hv hsub
  simp only [List.length_map] at hcount
  rw [← hcount]
  refine List.countP_congr fun d hm => ?_
  have hdl := mem_drawSeqs hm
  obtain ⟨m, p, r, e, -, e2⟩ := shuffleLoop_choose cases hn (List.replicate n false) (List.range n) 0 d (by omega)
    (by simp) (by simpa using hc) (by rw [hdl]; exact hm)
  obtain ⟨m', p', r', π, e', h1, h2, h3, h4⟩ := shuffleLoop_ok cases n hc _ 0 rfl (List.replicate n false) (List.range n)
    (streamOf d) (by simp) (by simp)
  rw [e] at e'
  cases e'
  have hs : sources n cases d = p := by
    unfold sources
    rw [e]
  simp only [List.drop_zero] at e2
  rw [hs, e2]
  simp only [decide_eq_true_eq, Option.some.injEq]
  constructor
  · rintro rfl
    rfl
  · intro h
    apply List.ext_getElem?
    intro c
    by_cases hcm : c ∈ cases
    · exact List.map_inj_left.1 h c hcm
    · by_cases hcn : c < n
      · rw [ho c hcn hcm, (h4 c).2, h3 c hcm, List.getElem?_range hcn]
      · rw [List.getElem?_eq_none (by omega), List.getElem?_eq_none (by omega)]

/-- **C120, shuffled cases.** When `ShuffleCases` is given different cases, each arrangement `arr` of the cases that leaves
the others alone comes from exactly one of the equally likely sequences of draws: case `c` then has the value and the
missing flag that case `arr[c]` had, whichever feature of that length is shuffled. -/
theorem c120_shuffleCases_fair_partial (n : Nat) (cases : List Nat) (hn : cases.Nodup) (hc : ∀ c ∈ cases, c < n) :
    ∃ src : List Nat → List Nat,
      (∀ arr : List Nat, arr.Perm (List.range n) → (∀ c < n, c ∉ cases → arr[c]? = some c) →
        (drawSeqs cases.length cases.length).countP (fun d => decide (src d = arr)) = 1) ∧
      (∀ (f : CatFeature) (d : List Nat), f.missing.length = n → f.catData.length = n →
        ∃ g rng', f.shuffleCases cases (streamOf d) = some (g, rng') ∧
          (∀ c : Nat, g.missing[c]? = (src d)[c]?.bind fun s => f.missing[s]?) ∧
          (∀ c : Nat, g.catData[c]? = (src d)[c]?.bind fun s => f.catData[s]?)) ∧
      (∀ (f : NumFeature K) (d : List Nat), f.missing.length = n → f.numData.length = n →
        ∃ g rng', f.shuffleCases cases (streamOf d) = some (g, rng') ∧
          (∀ c : Nat, g.missing[c]? = (src d)[c]?.bind fun s => f.missing[s]?) ∧
          (∀ c : Nat, g.numData[c]? = (src d)[c]?.bind fun s => f.numData[s]?)) := by
  refine ⟨sources n cases, sources_count n cases hn hc, fun f d hm hl => ?_, fun f d hm hl => ?_⟩
  · obtain ⟨m, p, r, e, h1, h2⟩ := sources_ok n cases hc f.missing f.catData hm hl d
    unfold CatFeature.shuffleCases
    rw [e]
    exact ⟨_, _, rfl, h1, h2⟩
  · obtain ⟨m, p, r, e, h1, h2⟩ := sources_ok n cases hc f.missing f.numData hm hl d
    unfold NumFeature.shuffleCases
    rw [e]
    exact ⟨_, _, rfl, h1, h2⟩

/-- **C120, shuffled features.** `Shuffle` gives each arrangement of all cases for exactly one of the sequences of draws. -/
theorem c120_shuffle_fair (n : Nat) : ∃ src : List Nat → List Nat,
      (∀ arr : List Nat, arr.Perm (List.range n) → (drawSeqs n n).countP (fun d => decide (src d = arr)) = 1) ∧
      (∀ (f : CatFeature) (d : List Nat), f.missing.length = n → f.catData.length = n →
        ∃ g rng', Feature.shuffle (.cat (K := K) f) (streamOf d) = some (.cat g, rng') ∧
          (∀ c : Nat, g.missing[c]? = (src d)[c]?.bind fun s => f.missing[s]?) ∧
          (∀ c : Nat, g.catData[c]? = (src d)[c]?.bind fun s => f.catData[s]?)) ∧
      (∀ (f : NumFeature K) (d : List Nat), f.missing.length = n → f.numData.length = n →
        ∃ g rng', Feature.shuffle (.num f) (streamOf d) = some (.num g, rng') ∧
          (∀ c : Nat, g.missing[c]? = (src d)[c]?.bind fun s => f.missing[s]?) ∧
          (∀ c : Nat, g.numData[c]? = (src d)[c]?.bind fun s => f.numData[s]?)) := by
  have hc : ∀ c ∈ List.range n, c < n := by simp
  refine ⟨sources n (List.range n), fun arr hp => ?_, fun f d hm hl => ?_, fun f d hm hl => ?_⟩
  · have := sources_count n (List.range n) List.nodup_range hc arr hp (fun c h h' => absurd (by simpa using h) h')
    simpa using this
  · obtain ⟨m, p, r, e, h1, h2⟩ := sources_ok n _ hc f.missing f.catData hm hl d
    unfold Feature.shuffle
    simp only
    rw [shuffleAllLoop_eq _ _ 0 rfl, hm, e]
    exact ⟨_, _, rfl, h1, h2⟩
  · obtain ⟨m, p, r, e, h1, h2⟩ := sources_ok n _ hc f.missing f.numData hm hl d
    unfold Feature.shuffle
    simp only
    rw [shuffleAllLoop_eq _ _ 0 rfl, hm, e]
    exact ⟨_, _, rfl, h1, h2⟩

/-- Cases 3, 0 and 4 of five: the arrangement in which 0 takes its value from 4, 4 from 3 and 3 from 0. -/
example : ([3, 0, 4] : List Nat).Nodup ∧ (∀ c ∈ [3, 0, 4], c < 5) ∧ [4, 1, 2, 0, 3].Perm (List.range 5) ∧
    (∀ c < 5, c ∉ [3, 0, 4] → ([4, 1, 2, 0, 3] : List Nat)[c]? = some c) ∧ (drawSeqs 3 3).length = 6 ∧
    ways 3 3 (fun rng => (({ exShuf with catData := [10, 11, 12, 13, 14] } : CatFeature).shuffleCases [3, 0, 4] rng).map
      fun r => r.1.catData) [14, 11, 12, 10, 13] = 1 := by
  decide +kernel

/-- **C120 fails where a case occurs twice**, as it does in the bag of a tree, whose cases are drawn with replacement. Of
two cases, one of which was drawn twice, `ShuffleCases` exchanges the values in four of the six equally likely sequences
of draws and leaves them in two. -/
theorem c120_bag_not_fair : let f : CatFeature := ⟨⟨fun _ => none, ["a", "b"]⟩, [0, 1], [false, false], "s", false, false⟩
    (drawSeqs 3 3).length = 6 ∧
    ways 3 3 (fun rng => (f.shuffleCases [1, 0, 0] rng).map fun r => r.1.catData) [0, 1] = 2 ∧
    ways 3 3 (fun rng => (f.shuffleCases [1, 0, 0] rng).map fun r => r.1.catData) [1, 0] = 4 := by
  decide +kernel

end CloudForest
