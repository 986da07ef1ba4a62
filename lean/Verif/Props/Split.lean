import Verif.Lemmas.Coded

/-!
# C01-C03: splitting case lists
-/

set_option linter.unusedSectionVars false

namespace CloudForest
variable {K : Type} [Field K] [LinearOrder K] [IsStrictOrderedRing K]

/-! ## A feature used in the examples: categories a, b, c; case 2 missing -/

/-- Example feature: values c a NA b a. -/
def exCat : CatFeature :=
  { cm := (CatMap.empty.run ["c", "a", "b"]).2, catData := [0, 1, 0, 2, 1],
    missing := [false, false, true, false, false], name := "f", randomSearch := false,
    hasMissing := true }

/-- Example matrix holding `exCat`. -/
def exFM : FeatureMatrix ℚ := ⟨[.cat exCat], fun s => if s = "f" then some 0 else none, []⟩

theorem exCat_valid : ∀ c ∈ [4, 3, 2, 1, 0, 3], (Feature.cat (K := ℚ) exCat).ValidCase c := by
  intro c hc
  refine ⟨?_, ?_, ?_⟩
  · revert c; decide
  · revert c; decide
  · intro k _ hk
    have : exCat.cm.back.length = 3 := by decide
    rw [this]
    have : ∀ k ∈ exCat.catData, k < 3 := by decide
    exact this k (List.mem_of_getElem? hk)

/-- C01 for `Splitter.Split`. On any list of existing cases the split returns, and what it
returns is an exact division of the list. -/
theorem c01_splitter_split (fm : FeatureMatrix K) (s : Splitter K) (f : Feature K)
    (hf : fm.featureOf s = some f) (cases : List Nat) (hv : ∀ c ∈ cases, f.ValidCase c)
    (hs : f.MissingSound) :
    ∃ r, s.split fm cases = some r ∧ ThreeWay f.missTest (fun c => f.goesLeft c s) cases r := by
  have hgl : ∀ c ∈ cases, f.missTest c = some false → f.goesLeft c s ≠ none := by
    intro c hc hm
    have hv := hv c hc
    have hk := isMissing_of_missTest hs hv hm
    cases f with
    | num f =>
      simp only [Feature.goesLeft, Feature.ValidCase] at hv ⊢
      simp [List.getElem?_eq_getElem hv.2]
    | cat f =>
      obtain ⟨_, h2, h3⟩ := hv
      have hg := List.getElem?_eq_getElem h2
      have := h3 _ hk hg
      simp [Feature.goesLeft, hg, List.getElem?_eq_getElem this]
  obtain ⟨r, hr⟩ := splitLoop_some f.missTest (fun c => f.goesLeft c s) cases 0 0 cases.length
    (le_refl _) (Nat.zero_le _) (le_refl _) (fun c hc => missTest_ne_none (hv c hc)) hgl
  refine ⟨slice3 r, ?_, splitLoop_threeWay _ _ _ _ hr⟩
  simp [Splitter.split, hf, hr]

/-- C01 for `Split` and `SplitPoints` of a coded split, of both feature types. -/
theorem c01_coded_split (f : Feature K) (code : Coded K) (hfit : f.CodeFits code)
    (cases : List Nat) (hv : ∀ c ∈ cases, f.ValidCase c) :
    ∃ r cs nl lr, f.split code cases = some r ∧ ThreeWay f.missTest (f.codedLeft code) cases r ∧
      f.splitPoints code cases = some (cs, nl, lr) ∧ nl ≤ lr ∧ lr ≤ cs.length ∧
      r.cases = cs ∧ r.left = cs.take nl ∧ r.missing = (cs.drop nl).take (lr - nl) ∧
      r.right = cs.drop lr := by
  have hgl : ∀ c ∈ cases, f.missTest c = some false → f.codedLeft code c ≠ none := by
    intro c hc _
    have hv := hv c hc
    match f, code, hfit with
    | .num f, .num v, _ =>
      simp only [Feature.ValidCase] at hv
      simp [Feature.codedLeft, List.getElem?_eq_getElem hv.2]
    | .cat f, .int b, _ => simp [Feature.codedLeft, List.getElem?_eq_getElem hv.2.1]
    | .cat f, .big b, _ => simp [Feature.codedLeft, List.getElem?_eq_getElem hv.2.1]
  obtain ⟨r, hr⟩ := splitLoop_some f.missTest (f.codedLeft code) cases 0 0 cases.length
    (le_refl _) (Nat.zero_le _) (le_refl _) (fun c hc => missTest_ne_none (hv c hc)) hgl
  have hb := splitLoop_bounds _ _ _ _ hr
  refine ⟨slice3 r, r.1, r.2.1, r.2.2, ?_, splitLoop_threeWay _ _ _ _ hr, ?_, hb.1, hb.2,
    rfl, rfl, rfl, rfl⟩
  · simp [Feature.split, hr]
  · simp [Feature.splitPoints, hr]

/-- The blocks are determined up to order: each is a rearrangement of the listed cases with
the corresponding test results (counting repetitions). -/
theorem c01_blocks {miss left : Nat → Option Bool} {cases : List Nat} {r : Split3}
    (h : ThreeWay miss left cases r) :
    r.left.Perm (cases.filter fun c => miss c == some false && left c == some true) ∧
    r.right.Perm (cases.filter fun c => miss c == some false && left c == some false) ∧
    r.missing.Perm (cases.filter fun c => miss c == some true) := by
  have hp : (r.left ++ r.missing ++ r.right).Perm cases := h.order ▸ h.perm
  have hL : ∀ (p : Nat → Bool), (∀ c ∈ r.left, p c = true) → (∀ c ∈ r.missing, p c = false) →
      (∀ c ∈ r.right, p c = false) → r.left.Perm (cases.filter p) := by
    intro p h1 h2 h3
    have := hp.filter p
    rw [List.filter_append, List.filter_append, List.filter_eq_self.2 h1,
      List.filter_eq_nil_iff.2 (by simpa using h2),
      List.filter_eq_nil_iff.2 (by simpa using h3)] at this
    simpa using this
  have hR : ∀ (p : Nat → Bool), (∀ c ∈ r.left, p c = false) → (∀ c ∈ r.missing, p c = false) →
      (∀ c ∈ r.right, p c = true) → r.right.Perm (cases.filter p) := by
    intro p h1 h2 h3
    have := hp.filter p
    rw [List.filter_append, List.filter_append, List.filter_eq_self.2 h3,
      List.filter_eq_nil_iff.2 (by simpa using h1),
      List.filter_eq_nil_iff.2 (by simpa using h2)] at this
    simpa using this
  have hM : ∀ (p : Nat → Bool), (∀ c ∈ r.left, p c = false) → (∀ c ∈ r.missing, p c = true) →
      (∀ c ∈ r.right, p c = false) → r.missing.Perm (cases.filter p) := by
    intro p h1 h2 h3
    have := hp.filter p
    rw [List.filter_append, List.filter_append, List.filter_eq_self.2 h2,
      List.filter_eq_nil_iff.2 (by simpa using h1),
      List.filter_eq_nil_iff.2 (by simpa using h3)] at this
    simpa using this
  refine ⟨hL _ ?_ ?_ ?_, hR _ ?_ ?_ ?_, hM _ ?_ ?_ ?_⟩
  all_goals intro c hc
  all_goals first
    | (have := h.left_ok c hc; simp [this.1, this.2])
    | (have := h.right_ok c hc; simp [this.1, this.2])
    | (have := h.miss_ok c hc; simp [this])

/-- The hypotheses of C01 hold for the example feature, a repeated case and a missing one. -/
example : exFM.featureOf ⟨"f", false, .fin 0, ["a"]⟩ = some (.cat exCat) ∧
    (∀ c ∈ [4, 3, 2, 1, 0, 3], (Feature.cat (K := ℚ) exCat).ValidCase c) ∧
    (Splitter.split ⟨"f", false, .fin 0, ["a"]⟩ exFM [4, 3, 2, 1, 0, 3]) =
      some ⟨[4, 1], [0, 3, 3], [2], [4, 1, 2, 0, 3, 3]⟩ := by
  exact ⟨rfl, exCat_valid, by decide +kernel⟩

/-- C02. Splitting by a code and splitting by its decoded splitter do exactly the same to
every list of existing cases. -/
theorem c02_coded_eq_decoded (fm : FeatureMatrix K) (f : Feature K) (code : Coded K)
    (s : Splitter K) (hwf : f.CatWF) (hs : f.MissingSound) (hfit : f.CodeFits code)
    (hd : f.decodeSplit code = some s) (hf : fm.featureOf s = some f)
    (cases : List Nat) (hv : ∀ c ∈ cases, f.ValidCase c) :
    f.split code cases = s.split fm cases ∧
    (f.splitPoints code cases).map slice3 = s.split fm cases := by
  have hloop : splitLoop f.missTest (f.codedLeft code) cases 0 0 cases.length =
      splitLoop f.missTest (fun c => f.goesLeft c s) cases 0 0 cases.length := by
    apply splitLoop_congr
    intro c hc
    refine ⟨rfl, fun hm => ?_⟩
    exact coded_eq_decoded hwf hfit hd (hv c hc) (isMissing_of_missTest hs (hv c hc) hm)
  constructor
  · simp [Feature.split, Splitter.split, hf, hloop]
  · simp only [Feature.splitPoints, Splitter.split, hf, hloop, Option.bind_eq_bind,
      Option.bind_some]
    cases splitLoop f.missTest (fun c => f.goesLeft c s) cases 0 0 cases.length <;> rfl

/-- The decoded splitter names the feature it came from, so in a matrix indexed by name
C02's `featureOf` hypothesis is met. -/
theorem c02_decode_name (f : Feature K) (code : Coded K) (s : Splitter K)
    (hd : f.decodeSplit code = some s) : s.feature = f.name := by
  match f, code with
  | .num f, .num v => simp only [Feature.decodeSplit] at hd; cases hd; rfl
  | .cat f, .int b => simp only [Feature.decodeSplit] at hd; cases hd; rfl
  | .cat f, .big b => simp only [Feature.decodeSplit] at hd; cases hd; rfl
  | .cat f, .num b => simp only [Feature.decodeSplit] at hd; cases hd; rfl
  | .num f, .int b => simp only [Feature.decodeSplit] at hd; cases hd
  | .num f, .big b => simp only [Feature.decodeSplit] at hd; cases hd

/-- The example feature meets the hypotheses of C02 with code 6 = categories a and b. -/
example : (Feature.cat (K := ℚ) exCat).CatWF ∧ (Feature.cat (K := ℚ) exCat).MissingSound ∧
    ∃ s, (Feature.cat (K := ℚ) exCat).decodeSplit (.int 6) = some s ∧
      exFM.featureOf s = some (.cat exCat) ∧ s.left = ["a", "b"] :=
  ⟨CatMap.run_wf CatMap.wf_empty _, fun _ _ => rfl, _, rfl, rfl, by decide⟩

/-- C03. Two categorical features that show the same strings and the same missing cases are
split identically by the same splitter, however their categories are numbered. -/
theorem c03_names_only (fm fm' : FeatureMatrix K) (s : Splitter K) (f f' : CatFeature)
    (hf : fm.featureOf s = some (.cat f)) (hf' : fm'.featureOf s = some (.cat f'))
    (hs : (Feature.cat (K := K) f).MissingSound) (hs' : (Feature.cat (K := K) f').MissingSound)
    (cases : List Nat)
    (hv : ∀ c ∈ cases, (Feature.cat (K := K) f).ValidCase c)
    (hv' : ∀ c ∈ cases, (Feature.cat (K := K) f').ValidCase c)
    (hsame : ∀ c ∈ cases, f.getStr c = f'.getStr c ∧ f.missing[c]? = f'.missing[c]?) :
    s.split fm cases = s.split fm' cases := by
  have hloop : splitLoop (Feature.cat (K := K) f).missTest (fun c => (Feature.cat f).goesLeft c s) cases 0 0
      cases.length =
      splitLoop (Feature.cat (K := K) f').missTest (fun c => (Feature.cat f').goesLeft c s) cases 0 0
      cases.length := by
    apply splitLoop_congr
    intro c hc
    have key : ∀ (g : CatFeature), (Feature.cat (K := K) g).MissingSound →
        (Feature.cat (K := K) g).ValidCase c →
        (Feature.cat (K := K) g).missTest c = g.missing[c]? := by
      intro g hs hv
      unfold Feature.missTest
      split
      · rfl
      · rename_i hm
        have hlt : c < g.missing.length := hv.1
        have := List.getElem?_eq_getElem hlt
        cases hq : g.missing[c] with
        | true => exact absurd (hs c (by simp [Feature.isMissing, this, hq])) hm
        | false => rw [this, hq]
    have k1 := key f hs (hv c hc)
    have k2 := key f' hs' (hv' c hc)
    have hsm := hsame c hc
    refine ⟨by rw [k1, k2, hsm.2], fun hm => ?_⟩
    rw [k1] at hm
    have hm' := hm
    rw [hsm.2] at hm'
    have h1 := hsm.1
    simp only [CatFeature.getStr, hm, hm', Option.bind_eq_bind, Option.bind_some] at h1
    simp only [Feature.goesLeft, Option.bind_eq_bind]
    have e1 := List.getElem?_eq_getElem (hv c hc).2.1
    have e2 := List.getElem?_eq_getElem (hv' c hc).2.1
    rw [e1, e2] at h1 ⊢
    simp only [Option.bind_some, Bool.false_eq_true, if_false] at h1 ⊢
    rw [h1]
  simp [Splitter.split, hf, hf', hloop]

/-- C03, unseen categories: a case whose category the splitter does not list goes right. -/
theorem c03_unlisted_goes_right (s : Splitter K) (f : CatFeature) (c : Nat) (v : String)
    (hm : f.missing[c]? = some false) (hg : f.getStr c = some v) (hv : v ∉ s.left) :
    (Feature.cat (K := K) f).goesLeft c s = some false := by
  simp only [CatFeature.getStr, hm, Option.bind_eq_bind, Option.bind_some, Bool.false_eq_true,
    if_false] at hg
  simp only [Feature.goesLeft, Option.bind_eq_bind]
  match hc : f.catData[c]? with
  | none => simp [hc] at hg
  | some k =>
    simp only [hc, Option.bind_some] at hg ⊢
    simp [hg, hv]

/-- Two differently numbered features with the same strings: the hypotheses of C03 are met. -/
example :
    let g : CatFeature := { exCat with cm := (CatMap.empty.run ["a", "b", "z", "c"]).2,
                                       catData := [3, 0, 1, 1, 0] }
    (∀ c ∈ [0, 1, 2, 3, 4], exCat.getStr c = g.getStr c ∧ exCat.missing[c]? = g.missing[c]?) ∧
      exCat.catData ≠ g.catData := by
  decide

end CloudForest
