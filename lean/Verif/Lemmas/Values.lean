import Verif.Spec.Values
import Verif.Lemmas.Impurity
import Verif.Lemmas.CatMap
import Verif.Lemmas.Shuffle
import Mathlib.Tactic.Linarith
import Mathlib.Tactic.Ring

/-!
# Feature values: lemmas
-/

set_option linter.unusedSectionVars false

namespace CloudForest
variable {K : Type} [Field K] [LinearOrder K] [IsStrictOrderedRing K]

theorem mem_knownOf {missing : List Bool} {cases : List Nat} {c : Nat} :
    c ∈ knownOf missing cases ↔ c ∈ cases ∧ missing[c]? = some false := by
  simp [knownOf]

/-- A loop that skips the missing cases is a loop over the known ones. -/
theorem foldlM_known {σ : Type} (missing : List Bool) (step : σ → Nat → Option σ) (cases : List Nat)
    (h : ∀ c ∈ cases, c < missing.length) (s : σ) :
    cases.foldlM (fun acc i => do
      let m ← missing[i]?
      if m then some acc else step acc i) s = (knownOf missing cases).foldlM step s := by
  induction cases generalizing s with
  | nil => rfl
  | cons c cs ih =>
    have hc := h c (by simp)
    have hcs : ∀ x ∈ cs, x < missing.length := fun x hx => h x (by simp [hx])
    rw [List.foldlM_cons, List.getElem?_eq_getElem hc]
    cases hm : missing[c] with
    | true =>
      have : knownOf missing (c :: cs) = knownOf missing cs := by
        simp [knownOf, List.getElem?_eq_getElem hc, hm]
      rw [this]
      simp only [Option.bind_eq_bind, Option.bind_some, if_true]
      exact ih hcs s
    | false =>
      have : knownOf missing (c :: cs) = c :: knownOf missing cs := by
        simp [knownOf, List.getElem?_eq_getElem hc, hm]
      rw [this, List.foldlM_cons]
      simp only [Option.bind_eq_bind, Option.bind_some, Bool.false_eq_true, if_false]
      cases step s c with
      | none => rfl
      | some s' => exact ih hcs s'

theorem CatFeature.Consistent.inRange {f : CatFeature} (hf : f.Consistent) (cases : List Nat) :
    f.InRange f.cm.nCats (knownOf f.missing cases) := by
  intro c hc
  have hm := (mem_knownOf.1 hc).2
  have hlt : c < f.catData.length := by
    rw [hf.lengths]
    by_contra h
    rw [List.getElem?_eq_none (by omega)] at hm
    cases hm
  exact ⟨_, List.getElem?_eq_getElem hlt, hf.valid c _ hm (List.getElem?_eq_getElem hlt)⟩

theorem modeCounts_eq {f : CatFeature} (hf : f.Consistent) (cases : List Nat)
    (h : ∀ c ∈ cases, c < f.missing.length) :
    f.modeCounts cases = some (f.counts f.cm.nCats (knownOf f.missing cases)) := by
  unfold CatFeature.modeCounts
  rw [foldlM_known f.missing (fun acc i => do
    let k ← f.catData[i]?
    bump acc k 1) cases h]
  have := countPerCat_eq f (knownOf f.missing cases) (List.replicate f.cm.nCats 0)
    (by rw [List.length_replicate]; exact hf.inRange cases)
  rw [List.length_replicate] at this
  rw [← this]
  unfold CatFeature.countPerCat
  congr 1
  simp

theorem argmax_spec (counts : List Int) (k m : Nat) (max : Int) :
    ∃ M, max ≤ M ∧ (∀ c ∈ counts, c ≤ M) ∧
      (argmax counts k m max = m ∧ M = max ∨
        ∃ j, counts[j]? = some M ∧ argmax counts k m max = k + j ∧ max < M) := by
  induction counts generalizing k m max with
  | nil => exact ⟨max, le_refl _, by simp, .inl ⟨rfl, rfl⟩⟩
  | cons v vs ih =>
    unfold argmax
    by_cases h : max < v
    · rw [if_pos h]
      obtain ⟨M, h1, h2, h3⟩ := ih (k + 1) k v
      refine ⟨M, by omega, ?_, ?_⟩
      · intro c hc
        rcases List.mem_cons.1 hc with rfl | hc
        · exact h1
        · exact h2 c hc
      · right
        rcases h3 with ⟨h3, h4⟩ | ⟨j, h3, h4, h5⟩
        · exact ⟨0, by rw [h4]; rfl, by rw [h3]; rfl, by omega⟩
        · exact ⟨j + 1, by simpa using h3, by omega, by omega⟩
    · rw [if_neg h]
      obtain ⟨M, h1, h2, h3⟩ := ih (k + 1) m max
      refine ⟨M, h1, ?_, ?_⟩
      · intro c hc
        rcases List.mem_cons.1 hc with rfl | hc
        · omega
        · exact h2 c hc
      · rcases h3 with h3 | ⟨j, h3, h4, h5⟩
        · exact .inl h3
        · exact .inr ⟨j + 1, by simpa using h3, by omega, h5⟩

/-- `Modei` finds a most frequent category; without known cases it is 0. -/
theorem modei_spec {f : CatFeature} (hf : f.Consistent) (cases : List Nat)
    (h : ∀ c ∈ cases, c < f.missing.length) :
    ∃ m, f.modei cases = some m ∧
      (∀ k, f.catCount (knownOf f.missing cases) k ≤ f.catCount (knownOf f.missing cases) m) ∧
      (m < f.cm.nCats ∨ m = 0) := by
  refine ⟨_, by unfold CatFeature.modei; rw [modeCounts_eq hf cases h]; rfl, ?_⟩
  obtain ⟨M, h1, h2, h3⟩ := argmax_spec (f.counts f.cm.nCats (knownOf f.missing cases)) 0 0 0
  obtain ⟨r, hr⟩ : ∃ r, r = argmax (f.counts f.cm.nCats (knownOf f.missing cases)) 0 0 0 := ⟨_, rfl⟩
  rw [← hr] at h3 ⊢
  have hzero : ∀ k, f.cm.nCats ≤ k → f.catCount (knownOf f.missing cases) k = 0 := by
    intro k hk
    unfold CatFeature.catCount
    rw [List.countP_eq_zero]
    intro c hc
    obtain ⟨j, hj, hlt⟩ := hf.inRange cases c hc
    rw [hj]
    simp only [beq_iff_eq, Option.some.injEq]
    omega
  have hmem : ∀ k, k < f.cm.nCats →
      ((f.catCount (knownOf f.missing cases) k : Nat) : Int) ∈ f.counts f.cm.nCats (knownOf f.missing cases) := by
    intro k hk
    unfold CatFeature.counts
    exact List.mem_map.2 ⟨k, List.mem_range.2 hk, rfl⟩
  rcases h3 with ⟨h3, h4⟩ | ⟨j, h3, h4, h5⟩
  · refine ⟨fun k => ?_, .inr h3⟩
    by_cases hk : k < f.cm.nCats
    · have := h2 _ (hmem k hk)
      omega
    · rw [hzero k (by omega)]
      omega
  · have hj : j < f.cm.nCats := by
      by_contra hc
      rw [List.getElem?_eq_none (by rw [counts_length]; omega)] at h3
      cases h3
    have hM : M = (f.catCount (knownOf f.missing cases) j : Int) := by
      unfold CatFeature.counts at h3
      rw [List.getElem?_map, List.getElem?_range hj] at h3
      exact (Option.some.inj h3).symm
    have hrj : r = j := by omega
    subst hrj
    refine ⟨fun k => ?_, .inl hj⟩
    by_cases hk : k < f.cm.nCats
    · have := h2 _ (hmem k hk)
      omega
    · rw [hzero k (by omega)]
      omega

theorem imputeLoop_spec {α : Type} (x : α) (miss : List Bool) (data : List α)
    (h : data.length = miss.length) :
    ∃ data', imputeLoop x miss data = some data' ∧ data'.length = miss.length ∧
      ∀ i : Nat, data'[i]? = if miss[i]? = some true then some x else data[i]? := by
  induction miss generalizing data with
  | nil => exact ⟨data, rfl, h, fun i => by simp⟩
  | cons m miss ih =>
    cases data with
    | nil => simp at h
    | cons d data =>
      obtain ⟨data', h1, h2, h3⟩ := ih data (by simpa using h)
      refine ⟨_, by unfold imputeLoop; rw [h1]; rfl, by simp [h2], fun i => ?_⟩
      cases i with
      | zero => cases m <;> simp
      | succ i => simpa using h3 i

theorem imputeLoop_none {α : Type} (x : α) (miss : List Bool) (data : List α) (h : true ∉ miss) :
    imputeLoop x miss data = some data := by
  induction miss generalizing data with
  | nil => rfl
  | cons m miss ih =>
    have hm : m = false := by
      cases m
      · rfl
      · exact absurd (List.mem_cons_self) h
    subst hm
    have ht : true ∉ miss := fun hc => h (List.mem_cons_of_mem _ hc)
    cases data with
    | nil => unfold imputeLoop; simp [ih _ ht]
    | cons d data => unfold imputeLoop; simp [ih _ ht]

theorem wr_spec {α : Type} {s s' : List α} {i : Nat} {x : α} (h : wr s i x = some s') :
    i < s.length ∧ s' = s.set i x := by
  unfold wr at h
  split at h
  · exact ⟨‹_›, (Option.some.inj h).symm⟩
  · cases h

theorem wr_some {α : Type} {s : List α} {i : Nat} (x : α) (h : i < s.length) :
    wr s i x = some (s.set i x) := by
  unfold wr; rw [if_pos h]

theorem nCats_catToNum (cm : CatMap) (v : String) : cm.nCats ≤ (cm.catToNum v).2.nCats :=
  (CatMap.back_catToNum cm v).length_le

theorem catToNum_lt {cm : CatMap} (h : cm.WF) (v : String) :
    (cm.catToNum v).1 < (cm.catToNum v).2.nCats := by
  have := CatMap.catToNum_back h v
  by_contra hc
  rw [List.getElem?_eq_none (by unfold CatMap.nCats at hc; omega)] at this
  cases this

theorem consistent_new (name : String) : (CatFeature.new name).Consistent where
  lengths := rfl
  map := CatMap.wf_empty
  valid := by intro i k h; simp [CatFeature.new] at h
  missing := by intro i h; simp [CatFeature.new] at h

theorem CatFeature.Consistent.append {f : CatFeature} (hf : f.Consistent) (v : String) :
    (f.append v).Consistent := by
  unfold CatFeature.append
  by_cases ht : isMissingToken v = true
  · rw [if_pos ht]
    refine ⟨by simp [hf.lengths], hf.map, ?_, fun _ _ => rfl⟩
    intro i k h1 h2
    simp only at h1 h2
    have hi : i < f.missing.length := by
      by_contra hc
      rw [List.getElem?_append_right (by omega)] at h1
      cases hs : i - f.missing.length with
      | zero => rw [hs] at h1; cases h1
      | succ n => rw [hs] at h1; cases h1
    rw [List.getElem?_append_left hi] at h1
    rw [List.getElem?_append_left (by rw [hf.lengths]; exact hi)] at h2
    exact hf.valid i k h1 h2
  · rw [if_neg ht]
    refine ⟨by simp [hf.lengths], CatMap.wf_catToNum hf.map v, ?_, ?_⟩
    · intro i k h1 h2
      simp only at h1 h2 ⊢
      by_cases hi : i < f.missing.length
      · rw [List.getElem?_append_left hi] at h1
        rw [List.getElem?_append_left (by rw [hf.lengths]; exact hi)] at h2
        have := hf.valid i k h1 h2
        have := nCats_catToNum f.cm v
        omega
      · rw [List.getElem?_append_right (by rw [hf.lengths]; omega)] at h2
        cases hs : i - f.catData.length with
        | zero =>
          rw [hs] at h2
          simp only [List.getElem?_cons_zero, Option.some.injEq] at h2
          rw [← h2]
          exact catToNum_lt hf.map v
        | succ n => rw [hs] at h2; cases h2
    · intro i h
      simp only at h ⊢
      by_cases hi : i < f.missing.length
      · rw [List.getElem?_append_left hi] at h
        exact hf.missing i h
      · rw [List.getElem?_append_right (by omega)] at h
        cases hs : i - f.missing.length with
        | zero => rw [hs] at h; cases h
        | succ n => rw [hs] at h; cases h

theorem CatFeature.Consistent.putMissing {f f' : CatFeature} (hf : f.Consistent) {i : Nat}
    (h : f.putMissing i = some f') : f'.Consistent := by
  unfold CatFeature.putMissing at h
  cases hw : wr f.missing i true with
  | none => rw [hw] at h; cases h
  | some miss =>
    rw [hw] at h
    simp only [Option.bind_eq_bind, Option.bind_some, Option.some.injEq] at h
    subst h
    obtain ⟨hi, rfl⟩ := wr_spec hw
    refine ⟨by simp [hf.lengths], hf.map, ?_, fun _ _ => rfl⟩
    intro j k h1 h2
    simp only [List.getElem?_set] at h1 h2
    by_cases hij : i = j
    · simp [hij] at h1
    · rw [if_neg hij] at h1
      exact hf.valid j k h1 h2

theorem CatFeature.Consistent.puti {f f' : CatFeature} (hf : f.Consistent) {i v : Nat}
    (hv : v < f.cm.nCats) (h : f.puti i v = some f') : f'.Consistent := by
  unfold CatFeature.puti at h
  cases hd : wr f.catData i v with
  | none => rw [hd] at h; cases h
  | some data =>
    cases hm : wr f.missing i false with
    | none => rw [hd, hm] at h; cases h
    | some miss =>
      rw [hd, hm] at h
      simp only [Option.bind_eq_bind, Option.bind_some, Option.some.injEq] at h
      subst h
      obtain ⟨hi, rfl⟩ := wr_spec hd
      obtain ⟨hi', rfl⟩ := wr_spec hm
      refine ⟨by simp [hf.lengths], hf.map, ?_, ?_⟩
      · intro j k h1 h2
        simp only [List.getElem?_set] at h1 h2
        by_cases hij : i = j
        · rw [if_pos hij, if_pos hi] at h2
          cases h2
          exact hv
        · rw [if_neg hij] at h1 h2
          exact hf.valid j k h1 h2
      · intro j h1
        simp only [List.getElem?_set] at h1
        by_cases hij : i = j
        · simp [hij] at h1
        · rw [if_neg hij] at h1
          exact hf.missing j h1

theorem CatFeature.Consistent.withMap {f : CatFeature} (hf : f.Consistent) (v : String) :
    CatFeature.Consistent { f with cm := (f.cm.catToNum v).2 } :=
  ⟨hf.lengths, CatMap.wf_catToNum hf.map v,
    fun i k h1 h2 => lt_of_lt_of_le (hf.valid i k h1 h2) (nCats_catToNum f.cm v), hf.missing⟩

theorem CatFeature.Consistent.putStr {f f' : CatFeature} (hf : f.Consistent) {i : Nat} {v : String}
    (h : f.putStr i v = some f') : f'.Consistent := by
  unfold CatFeature.putStr at h
  have key : ∀ g : CatFeature, g.Consistent →
      CatFeature.puti { g with cm := (g.cm.catToNum v).2 } i (g.cm.catToNum v).1 = some f' → f'.Consistent :=
    fun g hg h => (hg.withMap v).puti (catToNum_lt hg.map v) h
  by_cases ht : isMissingToken v = true
  · rw [if_pos ht] at h
    cases hp : f.putMissing i with
    | none => rw [hp] at h; cases h
    | some g =>
      rw [hp] at h
      exact key g (hf.putMissing hp) h
  · rw [if_neg ht] at h
    exact key f hf h

theorem CatFeature.Consistent.impute {f : CatFeature} (hf : f.Consistent)
    (h : 0 < f.cm.nCats ∨ true ∉ f.missing) :
    ∃ f', f.imputeMissing = some f' ∧ f'.Consistent := by
  obtain ⟨m, h1, -, h3⟩ := modei_spec hf (List.range f.missing.length) (by simp)
  obtain ⟨data', h4, h5, h6⟩ := imputeLoop_spec m f.missing f.catData hf.lengths
  refine ⟨_, by unfold CatFeature.imputeMissing; rw [h1, Option.bind_eq_bind, Option.bind_some, h4]; rfl, ?_⟩
  refine ⟨by simp [h5], hf.map, ?_, ?_⟩
  · intro i k hm hk
    simp only at hm hk ⊢
    rw [h6] at hk
    by_cases ht : f.missing[i]? = some true
    · rw [if_pos ht] at hk
      cases hk
      rcases h with h | h
      · omega
      · exact absurd (List.mem_of_getElem? ht) h
    · rw [if_neg ht] at hk
      rw [List.getElem?_map] at hm
      cases hmi : f.missing[i]? with
      | none => rw [hmi] at hm; cases hm
      | some b =>
        cases b with
        | true => exact absurd hmi ht
        | false => exact hf.valid i k hmi hk
  · intro i hm
    simp only [List.getElem?_map] at hm
    cases hmi : f.missing[i]? with
    | none => rw [hmi] at hm; cases hm
    | some b => rw [hmi] at hm; cases hm

theorem CatFeature.Consistent.shuffled {f : CatFeature} (hf : f.Consistent) {miss : List Bool} {data : List Nat}
    {π : Equiv.Perm Nat} (hm : miss.length = f.missing.length) (hd : data.length = f.missing.length)
    (h : ∀ c, miss[c]? = f.missing[π c]? ∧ data[c]? = f.catData[π c]?) :
    CatFeature.Consistent { f with missing := miss, catData := data } :=
  ⟨by simp [hm, hd], hf.map,
    fun i k h1 h2 => hf.valid (π i) k ((h i).1 ▸ h1) ((h i).2 ▸ h2),
    fun i h1 => hf.missing (π i) ((h i).1 ▸ h1)⟩

theorem shuffleAllLoop_ok {α : Type} (miss : List Bool) (data : List α) (rng : Rng)
    (h : data.length = miss.length) :
    ∃ miss' data' rng' π, shuffleAllLoop miss.length miss data rng 0 = some (miss', data', rng') ∧
      miss'.length = miss.length ∧ data'.length = miss.length ∧
      (∀ c, miss'[c]? = miss[(π : Equiv.Perm Nat) c]? ∧ data'[c]? = data[π c]?) := by
  obtain ⟨m, d, r, π, h1, h2, h3, -, h4⟩ := shuffleLoop_ok (List.range miss.length) miss.length (by simp)
    _ 0 rfl miss data rng rfl h
  exact ⟨m, d, r, π, by rw [shuffleAllLoop_eq miss.length _ 0 rfl, h1], h2, h3, h4⟩

/-! ## Numerical -/

theorem NumFeature.Consistent.append {nt : NumText K} {f : NumFeature K} (hf : f.Consistent) (v : String) :
    (f.append nt v).Consistent := by
  unfold NumFeature.append
  cases hp : nt.parse v.toList with
  | none => exact ⟨by simp [hf.lengths], fun _ _ => rfl⟩
  | some x =>
    refine ⟨by simp [hf.lengths], ?_⟩
    intro i h
    simp only at h ⊢
    by_cases hi : i < f.missing.length
    · rw [List.getElem?_append_left hi] at h
      exact hf.missing i h
    · rw [List.getElem?_append_right (by omega)] at h
      cases hs : i - f.missing.length with
      | zero => rw [hs] at h; cases h
      | succ n => rw [hs] at h; cases h

theorem NumFeature.Consistent.putMissing {f f' : NumFeature K} (hf : f.Consistent) {i : Nat}
    (h : f.putMissing i = some f') : f'.Consistent := by
  unfold NumFeature.putMissing at h
  cases hw : wr f.missing i true with
  | none => rw [hw] at h; cases h
  | some miss =>
    rw [hw] at h
    simp only [Option.bind_eq_bind, Option.bind_some, Option.some.injEq] at h
    subst h
    obtain ⟨hi, rfl⟩ := wr_spec hw
    exact ⟨by simp [hf.lengths], fun _ _ => rfl⟩

theorem NumFeature.Consistent.put {f f' : NumFeature K} (hf : f.Consistent) {i : Nat} {x : XF K}
    (h : f.put i x = some f') : f'.Consistent := by
  unfold NumFeature.put at h
  cases hd : wr f.numData i x with
  | none => rw [hd] at h; cases h
  | some data =>
    cases hm : wr f.missing i false with
    | none => rw [hd, hm] at h; cases h
    | some miss =>
      rw [hd, hm] at h
      simp only [Option.bind_eq_bind, Option.bind_some, Option.some.injEq] at h
      subst h
      obtain ⟨hi, rfl⟩ := wr_spec hd
      obtain ⟨hi', rfl⟩ := wr_spec hm
      refine ⟨by simp [hf.lengths], ?_⟩
      intro j h1
      simp only [List.getElem?_set] at h1
      by_cases hij : i = j
      · simp [hij] at h1
      · rw [if_neg hij] at h1
        exact hf.missing j h1

theorem NumFeature.Consistent.putStr {nt : NumText K} {f f' : NumFeature K} (hf : f.Consistent) {i : Nat}
    {v : String} (h : f.putStr nt i v = some f') : f'.Consistent := by
  unfold NumFeature.putStr at h
  cases hp : nt.parse v.toList with
  | none => rw [hp] at h; exact hf.putMissing h
  | some x => rw [hp] at h; exact hf.put h

theorem mean_loop (f : NumFeature K) (cases : List Nat) (h : ∀ c ∈ cases, c < f.missing.length)
    (hl : f.numData.length = f.missing.length) (s : XF K × Nat) :
    cases.foldlM (fun (acc : XF K × Nat) i => do
      let m ← f.missing[i]?
      if m then some acc else do
        let x ← f.numData[i]?
        some (acc.1 + x, acc.2 + 1)) s =
      some ((knownOf f.missing cases).foldl (fun (acc : XF K × Nat) i =>
        (acc.1 + (f.numData[i]?).getD .nan, acc.2 + 1)) s) := by
  rw [foldlM_known f.missing (fun (acc : XF K × Nat) i => do
        let x ← f.numData[i]?
        some (acc.1 + x, acc.2 + 1)) cases h]
  have hk : ∀ c ∈ knownOf f.missing cases, c < f.numData.length := by
    intro c hc
    rw [hl]
    exact h c (mem_knownOf.1 hc).1
  generalize knownOf f.missing cases = l at hk
  induction l generalizing s with
  | nil => rfl
  | cons c cs ih =>
    rw [List.foldlM_cons, List.foldl_cons, List.getElem?_eq_getElem (hk c (by simp))]
    simp only [Option.bind_eq_bind, Option.bind_some, Option.getD_some]
    exact ih _ fun x hx => hk x (by simp [hx])

theorem mean_isSome (f : NumFeature K) (cases : List Nat) (h : ∀ c ∈ cases, c < f.missing.length)
    (hl : f.numData.length = f.missing.length) : ∃ m, f.mean cases = some m := by
  unfold NumFeature.mean
  rw [mean_loop f cases h hl]
  exact ⟨_, rfl⟩

theorem foldl_sum_fin (f : NumFeature K) (l : List Nat) (h : f.Finite l) (x : K) (n : Nat) :
    l.foldl (fun (acc : XF K × Nat) i => (acc.1 + (f.numData[i]?).getD .nan, acc.2 + 1)) (.fin x, n) =
      (.fin (x + (l.map f.value).sum), n + l.length) := by
  induction l generalizing x n with
  | nil => simp
  | cons c cs ih =>
    obtain ⟨y, hy⟩ := h c (by simp)
    have hv : f.value c = y := by simp [NumFeature.value, hy]
    rw [List.foldl_cons, hy]
    simp only [Option.getD_some, XF.fin_add]
    rw [ih (fun c hc => h c (by simp [hc]))]
    simp only [List.map_cons, List.sum_cons, List.length_cons, hv]
    rw [add_assoc, Nat.add_assoc, Nat.add_comm 1]

/-- The mean of finite known values. -/
theorem mean_eq (f : NumFeature K) (cases : List Nat) (h : ∀ c ∈ cases, c < f.missing.length)
    (hl : f.numData.length = f.missing.length) (hfin : f.Finite (knownOf f.missing cases))
    (hne : knownOf f.missing cases ≠ []) :
    f.mean cases = some (.fin (f.meanOf (knownOf f.missing cases))) := by
  unfold NumFeature.mean
  rw [mean_loop f cases h hl, foldl_sum_fin f _ hfin]
  simp only [Option.bind_eq_bind, Option.bind_some, Nat.zero_add, zero_add, XF.ofNat]
  rw [XF.fin_div]
  · rfl
  · have := List.length_pos_of_ne_nil hne
    exact Nat.cast_ne_zero.2 (by omega)

theorem NumFeature.Consistent.impute {f : NumFeature K} (hf : f.Consistent) :
    ∃ f', f.imputeMissing = some f' ∧ f'.Consistent := by
  obtain ⟨m, h1⟩ := mean_isSome f (List.range f.missing.length) (by simp) hf.lengths
  obtain ⟨data', h4, h5, h6⟩ := imputeLoop_spec m f.missing f.numData hf.lengths
  refine ⟨_, by unfold NumFeature.imputeMissing; rw [h1, Option.bind_eq_bind, Option.bind_some, h4]; rfl, ?_⟩
  refine ⟨by simp [h5], ?_⟩
  intro i hm
  simp only [List.getElem?_map] at hm
  cases hmi : f.missing[i]? with
  | none => rw [hmi] at hm; cases hm
  | some b => rw [hmi] at hm; cases hm

theorem Feature.Consistent.apply {nt : NumText K} {f f' : Feature K} (hf : f.Consistent) (op : FeatureOp K)
    (ha : f.Allowed op) (h : f.apply nt op = some f') : f'.Consistent := by
  have mapSome : ∀ {α β : Type} (x : Option α) (g : α → β) (y : β), x.map g = some y →
      ∃ a, x = some a ∧ g a = y := fun x g y h => Option.map_eq_some_iff.1 h
  cases f with
  | cat f =>
    cases op with
    | append v => cases h; exact hf.append v
    | puti i v => obtain ⟨a, h1, rfl⟩ := mapSome _ _ _ h; exact CatFeature.Consistent.puti hf ha h1
    | put i x => cases h
    | putStr i v => obtain ⟨a, h1, rfl⟩ := mapSome _ _ _ h; exact CatFeature.Consistent.putStr hf h1
    | putMissing i => obtain ⟨a, h1, rfl⟩ := mapSome _ _ _ h; exact CatFeature.Consistent.putMissing hf h1
    | impute =>
      obtain ⟨a, h1, rfl⟩ := mapSome _ _ _ h
      obtain ⟨b, h2, h3⟩ := CatFeature.Consistent.impute hf ha
      rw [h1] at h2
      cases h2
      exact h3
    | shuffle rng =>
      obtain ⟨a, h1, rfl⟩ := mapSome _ _ _ h
      obtain ⟨m, d, r, π, h2, h3, h4, h5⟩ := shuffleAllLoop_ok f.missing f.catData rng
        (CatFeature.Consistent.lengths hf)
      unfold Feature.shuffle at h1
      simp only [h2, Option.bind_eq_bind, Option.bind_some, Option.some.injEq] at h1
      subst h1
      exact CatFeature.Consistent.shuffled hf h3 h4 h5
  | num f =>
    cases op with
    | append v => cases h; exact NumFeature.Consistent.append hf v
    | puti i v => cases h
    | put i x => obtain ⟨a, h1, rfl⟩ := mapSome _ _ _ h; exact NumFeature.Consistent.put hf h1
    | putStr i v => obtain ⟨a, h1, rfl⟩ := mapSome _ _ _ h; exact NumFeature.Consistent.putStr hf h1
    | putMissing i => obtain ⟨a, h1, rfl⟩ := mapSome _ _ _ h; exact NumFeature.Consistent.putMissing hf h1
    | impute =>
      obtain ⟨a, h1, rfl⟩ := mapSome _ _ _ h
      obtain ⟨b, h2, h3⟩ := NumFeature.Consistent.impute hf
      rw [h1] at h2
      cases h2
      exact h3
    | shuffle rng =>
      obtain ⟨a, h1, rfl⟩ := mapSome _ _ _ h
      obtain ⟨m, d, r, π, h2, h3, h4, h5⟩ := shuffleAllLoop_ok f.missing f.numData rng
        (NumFeature.Consistent.lengths hf)
      unfold Feature.shuffle at h1
      simp only [h2, Option.bind_eq_bind, Option.bind_some, Option.some.injEq] at h1
      subst h1
      have hf' : NumFeature.Consistent f := hf
      exact ⟨by simp [h3, h4], fun i h6 => hf'.missing (π i) ((h5 i).1 ▸ h6)⟩

/-! ## Strings read back -/

theorem CatFeature.getStr_missing {f : CatFeature} {i : Nat} (h : f.missing[i]? = some true) :
    f.getStr i = some "NA" := by
  unfold CatFeature.getStr; rw [h]; rfl

theorem CatFeature.getStr_known {f : CatFeature} {i : Nat} (h : f.missing[i]? = some false) :
    f.getStr i = (f.catData[i]?).bind fun k => f.cm.back[k]? := by
  unfold CatFeature.getStr; rw [h]
  cases f.catData[i]? <;> rfl

theorem CatFeature.getStr_none {f : CatFeature} {i : Nat} (h : f.missing[i]? = none) :
    f.getStr i = none := by
  unfold CatFeature.getStr; rw [h]; rfl

theorem back_stays {cm : CatMap} (v : String) {k : Nat} {s : String} (h : cm.back[k]? = some s) :
    (cm.catToNum v).2.back[k]? = some s := by
  obtain ⟨t, ht⟩ := CatMap.back_catToNum cm v
  rw [← ht, List.getElem?_append_left]
  · exact h
  · by_contra hc
    rw [List.getElem?_eq_none (by omega)] at h
    cases h

/-- Two features with the same mark, number and known categories at a case read the same there. -/
theorem getStr_congr {f g : CatFeature} (hf : f.Consistent) {i : Nat} (hm : g.missing[i]? = f.missing[i]?)
    (hd : g.catData[i]? = f.catData[i]?)
    (hb : ∀ (k : Nat) (s : String), f.cm.back[k]? = some s → g.cm.back[k]? = some s) : g.getStr i = f.getStr i := by
  cases h : f.missing[i]? with
  | none => rw [CatFeature.getStr_none h, CatFeature.getStr_none (hm.trans h)]
  | some b =>
    cases b with
    | true => rw [CatFeature.getStr_missing h, CatFeature.getStr_missing (hm.trans h)]
    | false =>
      rw [CatFeature.getStr_known h, CatFeature.getStr_known (hm.trans h), hd]
      cases hk : f.catData[i]? with
      | none => rfl
      | some k =>
        have hlt := hf.valid i k h hk
        have : f.cm.back[k]? = some (f.cm.back[k]'hlt) := List.getElem?_eq_getElem hlt
        simp only [Option.bind_some]
        rw [this, hb k _ this]

/-- `f` reads as the column. -/
def CatFeature.Reads (f : CatFeature) (col : List String) : Prop :=
  col.length = f.missing.length ∧ ∀ i : Nat, f.getStr i = col[i]?

@[inherit_doc CatFeature.Reads]
def NumFeature.Reads (nt : NumText K) (f : NumFeature K) (col : List String) : Prop :=
  col.length = f.missing.length ∧ ∀ i : Nat, f.getStr nt i = col[i]?

theorem getElem?_snoc {α : Type} (l : List α) (x : α) (i : Nat) :
    (l ++ [x])[i]? = if i = l.length then some x else l[i]? := by
  by_cases h : i = l.length
  · subst h; simp
  · rw [if_neg h]
    by_cases h' : i < l.length
    · rw [List.getElem?_append_left h']
    · rw [List.getElem?_eq_none (by simp; omega), List.getElem?_eq_none (by omega)]

theorem CatFeature.Reads.append {f : CatFeature} {col : List String} (hf : f.Consistent) (h : f.Reads col)
    (v : String) : (f.append v).Reads (col ++ [catCell v]) := by
  have hl := hf.lengths
  have hcl := h.1
  unfold CatFeature.append catCell
  by_cases ht : isMissingToken v = true
  · rw [if_pos ht, if_pos ht]
    refine ⟨by simp [hcl], fun i => ?_⟩
    rw [getElem?_snoc]
    by_cases hi : i = col.length
    · rw [if_pos hi]
      exact CatFeature.getStr_missing (by simp [hi, hcl])
    · rw [if_neg hi, ← h.2 i]
      exact getStr_congr hf (by simp only [getElem?_snoc]; rw [if_neg (by omega)])
        (by simp only [getElem?_snoc]; rw [if_neg (by omega)]) fun _ _ hb => hb
  · rw [if_neg ht, if_neg ht]
    refine ⟨by simp [hcl], fun i => ?_⟩
    rw [getElem?_snoc]
    by_cases hi : i = col.length
    · rw [if_pos hi, CatFeature.getStr_known (by simp [hi, hcl])]
      simp only [getElem?_snoc]
      rw [if_pos (by omega)]
      exact CatMap.catToNum_back hf.map v
    · rw [if_neg hi, ← h.2 i]
      exact getStr_congr hf (by simp only [getElem?_snoc]; rw [if_neg (by omega)])
        (by simp only [getElem?_snoc]; rw [if_neg (by omega)]) fun _ _ hb => back_stays v hb

theorem CatFeature.Reads.putMissing {f f' : CatFeature} {col : List String} (hf : f.Consistent) (h : f.Reads col)
    {i : Nat} (hp : f.putMissing i = some f') : i < col.length ∧ f'.Reads (col.set i "NA") := by
  unfold CatFeature.putMissing at hp
  cases hw : wr f.missing i true with
  | none => rw [hw] at hp; cases hp
  | some miss =>
    rw [hw] at hp
    simp only [Option.bind_eq_bind, Option.bind_some, Option.some.injEq] at hp
    subst hp
    obtain ⟨hi, rfl⟩ := wr_spec hw
    refine ⟨by rw [h.1]; exact hi, by simp [h.1], fun j => ?_⟩
    rw [List.getElem?_set]
    by_cases hij : i = j
    · subst hij
      rw [if_pos rfl, if_pos (by rw [h.1]; exact hi)]
      exact CatFeature.getStr_missing (by simp [hi])
    · rw [if_neg hij, ← h.2 j]
      exact getStr_congr hf (by simp only [List.getElem?_set]; rw [if_neg hij]) rfl fun _ _ hb => hb

/-- Whatever the string, `PutStr` leaves it to be read. -/
theorem putStr_reads {f f' : CatFeature} (hf : f.Consistent) {i : Nat} {v : String}
    (hp : f.putStr i v = some f') :
    i < f.missing.length ∧ f'.missing.length = f.missing.length ∧ f'.missing[i]? = some false ∧
      f'.getStr i = some v ∧ ∀ j, j ≠ i → f'.getStr j = f.getStr j := by
  unfold CatFeature.putStr at hp
  have key : ∀ g : CatFeature, g.Consistent → g.missing.length = f.missing.length →
      (∀ j, j ≠ i → g.getStr j = f.getStr j) →
      CatFeature.puti { g with cm := (g.cm.catToNum v).2 } i (g.cm.catToNum v).1 = some f' →
      i < f.missing.length ∧ f'.missing.length = f.missing.length ∧ f'.missing[i]? = some false ∧
      f'.getStr i = some v ∧ ∀ j, j ≠ i → f'.getStr j = f.getStr j := by
    intro g hg hgl hgo h
    unfold CatFeature.puti at h
    cases hd : wr g.catData i (g.cm.catToNum v).1 with
    | none => rw [hd] at h; cases h
    | some data =>
      cases hm : wr g.missing i false with
      | none => rw [hd, hm] at h; cases h
      | some miss =>
        simp only [hd, hm, Option.bind_eq_bind, Option.bind_some, Option.some.injEq] at h
        subst h
        obtain ⟨hi, rfl⟩ := wr_spec hd
        obtain ⟨hi', rfl⟩ := wr_spec hm
        refine ⟨by omega, by simp [hgl], by simp [hi'], ?_, fun j hj => ?_⟩
        · rw [CatFeature.getStr_known (by simp [hi'])]
          simp only [List.getElem?_set, if_pos hi, if_true, Option.bind_some]
          exact CatMap.catToNum_back hg.map v
        · rw [← hgo j hj]
          exact getStr_congr hg (by simp only [List.getElem?_set]; rw [if_neg (fun e => hj e.symm)])
            (by simp only [List.getElem?_set]; rw [if_neg (fun e => hj e.symm)]) fun _ _ hb => back_stays v hb
  by_cases ht : isMissingToken v = true
  · rw [if_pos ht] at hp
    cases hm : f.putMissing i with
    | none => rw [hm] at hp; cases hp
    | some g =>
      rw [hm] at hp
      refine key g (hf.putMissing hm) ?_ ?_ hp
      all_goals
        unfold CatFeature.putMissing at hm
        cases hw : wr f.missing i true with
        | none => rw [hw] at hm; cases hm
        | some miss =>
          rw [hw] at hm
          simp only [Option.bind_eq_bind, Option.bind_some, Option.some.injEq] at hm
          subst hm
          obtain ⟨hi, rfl⟩ := wr_spec hw
          first
          | (simp; done)
          | (intro j hj
             exact getStr_congr hf (by simp only [List.getElem?_set]; rw [if_neg (fun e => hj e.symm)]) rfl
              fun _ _ hb => hb)
  · rw [if_neg ht] at hp
    exact key f hf rfl (fun _ _ => rfl) hp

theorem putStr_some {f : CatFeature} (hf : f.Consistent) {i : Nat} (v : String) (hi : i < f.missing.length) :
    ∃ f', f.putStr i v = some f' := by
  unfold CatFeature.putStr CatFeature.putMissing CatFeature.puti
  rw [wr_some true hi]
  by_cases ht : isMissingToken v = true
  · rw [if_pos ht]
    simp only [Option.bind_eq_bind, Option.bind_some]
    rw [wr_some _ (by simp only [hf.lengths]; exact hi), Option.bind_some, wr_some _ (by simpa using hi)]
    exact ⟨_, rfl⟩
  · rw [if_neg ht]
    simp only [Option.bind_eq_bind, Option.bind_some]
    rw [wr_some _ (by simp only [hf.lengths]; exact hi), Option.bind_some, wr_some _ (by simpa using hi)]
    exact ⟨_, rfl⟩

theorem putMissing_some {f : CatFeature} {i : Nat} (hi : i < f.missing.length) :
    ∃ f', f.putMissing i = some f' := by
  unfold CatFeature.putMissing
  rw [wr_some true hi]
  exact ⟨_, rfl⟩

theorem CatFeature.Reads.putStr {f f' : CatFeature} {col : List String} (hf : f.Consistent) (h : f.Reads col)
    {i : Nat} {v : String} (hp : f.putStr i v = some f') : i < col.length ∧ f'.Reads (col.set i v) := by
  obtain ⟨h1, h2, -, h4, h5⟩ := putStr_reads hf hp
  refine ⟨by rw [h.1]; exact h1, by simp [h2, h.1], fun j => ?_⟩
  rw [List.getElem?_set]
  by_cases hij : i = j
  · subst hij
    rw [if_pos rfl, if_pos (by rw [h.1]; exact h1), h4]
  · rw [if_neg hij, ← h.2 j]
    exact h5 j fun e => hij e.symm

theorem NumFeature.getStr_eq {nt : NumText K} {f g : NumFeature K} {i : Nat} (hm : g.missing[i]? = f.missing[i]?)
    (hd : g.numData[i]? = f.numData[i]?) : g.getStr nt i = f.getStr nt i := by
  unfold NumFeature.getStr; rw [hm, hd]

theorem NumFeature.Reads.append {nt : NumText K} {f : NumFeature K} {col : List String} (hf : f.Consistent)
    (h : f.Reads nt col) (v : String) : (f.append nt v).Reads nt (col ++ [numCell nt v]) := by
  have hl := hf.lengths
  have hcl := h.1
  unfold NumFeature.append numCell
  cases hp : nt.parse v.toList with
  | none =>
    refine ⟨by simp [hcl], fun i => ?_⟩
    rw [getElem?_snoc]
    by_cases hi : i = col.length
    · rw [if_pos hi]
      unfold NumFeature.getStr
      simp [hi, hcl]
    · rw [if_neg hi, ← h.2 i]
      exact NumFeature.getStr_eq (by simp only [getElem?_snoc]; rw [if_neg (by omega)])
        (by simp only [getElem?_snoc]; rw [if_neg (by omega)])
  | some x =>
    refine ⟨by simp [hcl], fun i => ?_⟩
    rw [getElem?_snoc]
    by_cases hi : i = col.length
    · rw [if_pos hi]
      unfold NumFeature.getStr
      simp only [getElem?_snoc]
      rw [if_pos (by omega), if_pos (by omega)]
      rfl
    · rw [if_neg hi, ← h.2 i]
      exact NumFeature.getStr_eq (by simp only [getElem?_snoc]; rw [if_neg (by omega)])
        (by simp only [getElem?_snoc]; rw [if_neg (by omega)])

theorem NumFeature.Reads.putMissing {nt : NumText K} {f f' : NumFeature K} {col : List String}
    (h : f.Reads nt col) {i : Nat} (hp : f.putMissing i = some f') :
    i < col.length ∧ f'.Reads nt (col.set i "NA") := by
  unfold NumFeature.putMissing at hp
  cases hw : wr f.missing i true with
  | none => rw [hw] at hp; cases hp
  | some miss =>
    rw [hw] at hp
    simp only [Option.bind_eq_bind, Option.bind_some, Option.some.injEq] at hp
    subst hp
    obtain ⟨hi, rfl⟩ := wr_spec hw
    refine ⟨by rw [h.1]; exact hi, by simp [h.1], fun j => ?_⟩
    rw [List.getElem?_set]
    by_cases hij : i = j
    · subst hij
      rw [if_pos rfl, if_pos (by rw [h.1]; exact hi)]
      unfold NumFeature.getStr
      simp [hi]
    · rw [if_neg hij, ← h.2 j]
      exact NumFeature.getStr_eq (by simp only [List.getElem?_set]; rw [if_neg hij]) rfl

theorem NumFeature.Reads.put {nt : NumText K} {f f' : NumFeature K} {col : List String}
    (h : f.Reads nt col) {i : Nat} {x : XF K} (hp : f.put i x = some f') :
    i < col.length ∧ f'.Reads nt (col.set i (String.ofList (nt.fmt x))) := by
  unfold NumFeature.put at hp
  cases hd : wr f.numData i x with
  | none => rw [hd] at hp; cases hp
  | some data =>
    cases hm : wr f.missing i false with
    | none => rw [hd, hm] at hp; cases hp
    | some miss =>
      simp only [hd, hm, Option.bind_eq_bind, Option.bind_some, Option.some.injEq] at hp
      subst hp
      obtain ⟨hi, rfl⟩ := wr_spec hd
      obtain ⟨hi', rfl⟩ := wr_spec hm
      refine ⟨by rw [h.1]; exact hi', by simp [h.1], fun j => ?_⟩
      rw [List.getElem?_set]
      by_cases hij : i = j
      · subst hij
        rw [if_pos rfl, if_pos (by rw [h.1]; exact hi')]
        unfold NumFeature.getStr
        simp [hi', hi]
      · rw [if_neg hij, ← h.2 j]
        exact NumFeature.getStr_eq (by simp only [List.getElem?_set]; rw [if_neg hij])
          (by simp only [List.getElem?_set]; rw [if_neg hij])

theorem NumFeature.Reads.putStr {nt : NumText K} {f f' : NumFeature K} {col : List String}
    (h : f.Reads nt col) {i : Nat} {v : String} (hp : f.putStr nt i v = some f') :
    i < col.length ∧ f'.Reads nt (col.set i (numCell nt v)) := by
  unfold NumFeature.putStr at hp
  unfold numCell
  cases hx : nt.parse v.toList with
  | none => rw [hx] at hp; exact h.putMissing hp
  | some x => rw [hx] at hp; exact h.put hp

theorem NumFeature.putMissing_some {f : NumFeature K} {i : Nat} (hi : i < f.missing.length) :
    ∃ f', f.putMissing i = some f' := by
  unfold NumFeature.putMissing
  rw [wr_some true hi]
  exact ⟨_, rfl⟩

theorem NumFeature.putStr_some {nt : NumText K} {f : NumFeature K} (hf : f.Consistent) {i : Nat} (v : String)
    (hi : i < f.missing.length) : ∃ f', f.putStr nt i v = some f' := by
  unfold NumFeature.putStr
  cases nt.parse v.toList with
  | none => exact NumFeature.putMissing_some hi
  | some x =>
    unfold NumFeature.put
    simp only [wr_some x (show i < f.numData.length by rw [hf.lengths]; exact hi), wr_some false hi]
    exact ⟨_, rfl⟩

/-! ## The mean -/

theorem sum_sq_shift (l : List K) (a z : K) :
    (l.map fun x => (x - z) ^ 2).sum =
      (l.map fun x => (x - a) ^ 2).sum + (2 * (a - z) * (l.sum - (l.length : K) * a) + (l.length : K) * (a - z) ^ 2) := by
  induction l with
  | nil => simp
  | cons x xs ih =>
    simp only [List.map_cons, List.sum_cons, List.length_cons, Nat.cast_add, Nat.cast_one]
    rw [ih]
    ring

/-- The mean minimises the sum of squares. -/
theorem mean_minimises (l : List K) (hl : l ≠ []) (z : K) :
    (l.map fun x => (x - l.sum / (l.length : K)) ^ 2).sum ≤ (l.map fun x => (x - z) ^ 2).sum := by
  have hn : (0 : K) < (l.length : K) := Nat.cast_pos.2 (List.length_pos_of_ne_nil hl)
  rw [sum_sq_shift l (l.sum / (l.length : K)) z]
  have h1 : l.sum - (l.length : K) * (l.sum / (l.length : K)) = 0 := by
    rw [mul_div_cancel₀ _ hn.ne', sub_self]
  rw [h1]
  have : 0 ≤ (l.length : K) * (l.sum / (l.length : K) - z) ^ 2 := mul_nonneg hn.le (sq_nonneg _)
  linarith

end CloudForest
