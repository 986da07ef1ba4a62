import Verif.Lemmas.Density
import Verif.Props.Values

/-!
# C85 to C87: spans, density and transduction
-/

set_option linter.unusedSectionVars false

namespace CloudForest
variable {K : Type} [Field K] [LinearOrder K] [IsStrictOrderedRing K]

/-! ## Examples -/

/-- red, blue, NA, blue, green. -/
def exHue : CatFeature where
  cm := ⟨fun s => if s = "red" then some 0 else if s = "blue" then some 1 else if s = "green" then some 2 else none,
    ["red", "blue", "green"]⟩
  catData := [0, 1, 0, 1, 2]
  missing := [false, false, true, false, false]
  name := "C:hue"
  hasMissing := true
  randomSearch := false

/-- 2, 7, NA, 4, 4. -/
def exLen : NumFeature ℚ := ⟨[.fin 2, .fin 7, .fin 0, .fin 4, .fin 4], [false, false, true, false, false], "N:len", true⟩

theorem exHue_fits (cases : List Nat) (h : ∀ c ∈ cases, c < 5) : (Feature.cat exHue : Feature ℚ).Fits cases := by
  refine ⟨h, fun c hc => ?_⟩
  have : c < 5 := h c (mem_knownOf.1 hc).1
  have h2 : ∀ c < 5, ∃ k < 3, exHue.catData[c]? = some k := by decide
  obtain ⟨k, h3, h4⟩ := h2 c this
  exact ⟨k, h4, h3⟩

theorem exLen_fits (cases : List Nat) (h : ∀ c ∈ cases, c < 5) : (Feature.num exLen).Fits cases := by
  refine ⟨h, fun c hc => ?_⟩
  have : c < 5 := h c (mem_knownOf.1 hc).1
  have h2 : ∀ c < 5, c = 0 ∨ c = 1 ∨ c = 2 ∨ c = 3 ∨ c = 4 := by omega
  rcases h2 c this with rfl | rfl | rfl | rfl | rfl <;> exact ⟨_, rfl⟩

/-! ## C85: spans -/

/-- **C85**, what holds: the span of a categorical feature is the number of different categories among the known cases.

Missing from the full property: numerical features, `c85_num_zero`. -/
theorem c85_cat_partial (f : CatFeature) (cases : List Nat) (h : (Feature.cat f : Feature K).Fits cases) (n : Nat)
    (hn : f.cm.nCats ≤ n) : (f.span cases n : Option (XF K)) = some (.ofNat (f.distinct cases)) :=
  catSpan_eq f cases h.1 h.2 n hn

example : (exHue.span [3, 1, 2] 3 : Option (XF ℚ)) = some (.fin 1) ∧
    (exHue.span [0, 1, 2, 3, 4] 3 : Option (XF ℚ)) = some (.fin 3) ∧ exHue.distinct [3, 1, 2] = 1 ∧
    (Feature.cat exHue : Feature ℚ).Fits [3, 1, 2] :=
  ⟨by decide +kernel, by decide +kernel, by decide +kernel, exHue_fits _ (by decide)⟩

/-- **C85 is false of the code**: the span of a numerical feature is zero, whatever the values. -/
theorem c85_num_zero (f : NumFeature K) (hl : f.numData.length = f.missing.length) (cases : List Nat)
    (h : (Feature.num f).Fits cases) : f.span cases = some (.fin 0) :=
  numSpan_eq f hl cases h.1 h.2

/-- The values 2 and 7 have span 0, not 5. -/
example : exLen.span [0, 1] = some (.fin 0) ∧ exLen.value 0 = 2 ∧ exLen.value 1 = 7 ∧ (Feature.num exLen).Fits [0, 1] :=
  ⟨by decide +kernel, by decide +kernel, by decide +kernel, exLen_fits _ (by decide)⟩

/-! ## C86: density trees -/

theorem foldlM_spans (features : List (Feature K)) (cases : List Nat) (hfit : ∀ f ∈ features, f.Fits cases)
    (hcat : ∀ f ∈ features, f.isCat = true) (hpos : ∀ f ∈ features, 0 < f.spread cases) (x : K) :
    features.foldlM (fun (e : XF K) f => do
      let s ← f.span cases
      some (e / s)) (.fin x) = some (.fin (x / ((features.map fun f => f.spread cases).prod : Nat))) := by
  induction features generalizing x with
  | nil => simp
  | cons f fs ih =>
    rw [List.foldlM_cons]
    have h1 := hfit f (by simp)
    have h2 := hpos f (by simp)
    cases f with
    | num f => exact absurd (hcat (.num f) (by simp)) (by simp [Feature.isCat])
    | cat f =>
      have e : Feature.span (.cat f : Feature K) cases = some (.ofNat (f.distinct cases)) :=
        catSpan_eq f cases h1.1 h1.2 _ le_rfl
      rw [e]
      have h3 : (f.distinct cases : K) ≠ 0 := Nat.cast_ne_zero.2 (ne_of_gt h2)
      have e2 : (XF.fin x / XF.ofNat (f.distinct cases) : XF K) = .fin (x / f.distinct cases) := XF.fin_div _ h3
      simp only [Option.bind_eq_bind, Option.bind_some, e2] at ih ⊢
      rw [ih (fun g hg => hfit g (by simp [hg])) (fun g hg => hcat g (by simp [hg])) fun g hg => hpos g (by simp [hg])]
      rw [List.map_cons, List.prod_cons, Nat.cast_mul, div_div]
      rfl

/-- **C86**, what holds: if all features are categorical, and each is known for some case, the impurity of `t` of `n`
cases is (t / n)² over the number of cells, which is the product of the numbers of different categories, and the
prediction is t / n over it.

Missing from the full property: numerical features, `c86_numeric`. -/
theorem c86_categorical_partial (features : List (Feature K)) (n : Nat) (hn : n ≠ 0) (cases : List Nat)
    (hfit : ∀ f ∈ features, f.Fits cases) (hcat : ∀ f ∈ features, f.isCat = true)
    (hpos : ∀ f ∈ features, 0 < f.spread cases) :
    densityImpurity features n cases = some (.fin (((cases.length : K) / n) ^ 2 /
      ((features.map fun f => f.spread cases).prod : Nat))) ∧
    densityPredict features n cases = some (.fin ((cases.length : K) / n /
      ((features.map fun f => f.spread cases).prod : Nat))) := by
  have h0 : (n : K) ≠ 0 := Nat.cast_ne_zero.2 hn
  constructor
  · unfold densityImpurity XF.ofNat
    rw [XF.fin_div _ (by rw [Nat.cast_mul]; exact mul_ne_zero h0 h0), foldlM_spans features cases hfit hcat hpos]
    congr 4
    push_cast
    field_simp
  · unfold densityPredict XF.ofNat
    rw [XF.fin_div _ h0, foldlM_spans features cases hfit hcat hpos]

/-- Four of five cases, three of them known, in two colours. -/
example : densityImpurity [.cat exHue] 5 [0, 1, 2, 3] = some (.fin (8 / 25 : ℚ)) ∧
    (Feature.cat exHue : Feature ℚ).Fits [0, 1, 2, 3] ∧ (Feature.cat exHue : Feature ℚ).spread [0, 1, 2, 3] = 2 :=
  ⟨by decide +kernel, exHue_fits _ (by decide), by decide +kernel⟩

theorem span_nonneg (f : Feature K) (hl : ∀ g, f = .num g → g.numData.length = g.missing.length) (cases : List Nat)
    (h : f.Fits cases) : ∃ k : Nat, f.span cases = some (.ofNat k) ∧ (f.isCat = false → k = 0) := by
  cases f with
  | num f =>
    refine ⟨0, ?_, fun _ => rfl⟩
    have : (XF.ofNat 0 : XF K) = .fin 0 := by simp [XF.ofNat]
    rw [this]
    exact numSpan_eq f (hl f rfl) cases h.1 h.2
  | cat f => exact ⟨f.distinct cases, catSpan_eq f cases h.1 h.2 _ le_rfl, fun h => by cases h⟩

theorem foldlM_spans_inf (features : List (Feature K))
    (hl : ∀ g, Feature.num g ∈ features → g.numData.length = g.missing.length) (cases : List Nat)
    (hfit : ∀ f ∈ features, f.Fits cases) :
    (features.foldlM (fun (e : XF K) f => do
      let s ← f.span cases
      some (e / s)) .pinf = some .pinf) ∧
    ((∃ f ∈ features, f.isCat = false) → ∀ x : K, 0 < x → features.foldlM (fun (e : XF K) f => do
      let s ← f.span cases
      some (e / s)) (.fin x) = some .pinf) := by
  induction features with
  | nil => simp
  | cons f fs ih =>
    obtain ⟨i1, i2⟩ := ih (fun g hg => hl g (by simp [hg])) fun g hg => hfit g (by simp [hg])
    obtain ⟨k, hk, hz⟩ := span_nonneg f (fun g hg => hl g (by simp [hg])) cases (hfit f (by simp))
    have e1 : (XF.pinf / XF.ofNat k : XF K) = .pinf := by
      show (if (k : K) < 0 then _ else _) = _
      rw [if_neg (not_lt.2 (Nat.cast_nonneg k))]
    constructor
    · rw [List.foldlM_cons, hk]
      simp only [Option.bind_eq_bind, Option.bind_some, e1] at i1 ⊢
      exact i1
    · intro hex x hx
      rw [List.foldlM_cons, hk]
      simp only [Option.bind_eq_bind, Option.bind_some] at i1 i2 ⊢
      by_cases h0 : k = 0
      · subst h0
        have e2 : (XF.fin x / XF.ofNat 0 : XF K) = .pinf := by
          show (if ((0 : Nat) : K) = 0 then XF.infTimes x else _) = _
          rw [if_pos (by simp)]
          unfold XF.infTimes
          rw [if_neg hx.ne', if_pos hx]
        rw [e2]
        exact i1
      · have h3 : (k : K) ≠ 0 := Nat.cast_ne_zero.2 h0
        have e2 : (XF.fin x / XF.ofNat k : XF K) = .fin (x / k) := XF.fin_div _ h3
        rw [e2]
        refine i2 ?_ _ (div_pos hx (Nat.cast_pos.2 (Nat.pos_of_ne_zero h0)))
        obtain ⟨g, hg, hgc⟩ := hex
        rcases List.mem_cons.1 hg with rfl | hg
        · exact absurd (hz hgc) h0
        · exact ⟨g, hg, hgc⟩

/-- **C86 is false of the code**: with a numerical feature among them, the density and the impurity of any cases are
infinite, and so is the impurity of every division of them. No division is better than none. -/
theorem c86_numeric (features : List (Feature K)) (n : Nat) (hn : n ≠ 0)
    (hl : ∀ g, Feature.num g ∈ features → g.numData.length = g.missing.length)
    (hnum : ∃ f ∈ features, f.isCat = false) (a : Allocs K) (l r : List Nat) (hnl : l ≠ []) (hnr : r ≠ [])
    (hfit : ∀ f ∈ features, f.Fits (l ++ r)) :
    densityPredict features n (l ++ r) = some .pinf ∧
    (densityTarget features n).impurity a (l ++ r) = some (.pinf, a) ∧
    (densityTarget features n).splitImpurity a l r none = some (.pinf, a) := by
  have hsub : ∀ cs : List Nat, (∀ c ∈ cs, c ∈ l ++ r) → ∀ f ∈ features, f.Fits cs := by
    intro cs hcs f hf
    have := hfit f hf
    cases f with
    | num f =>
      exact ⟨fun c hc => this.1 c (hcs c hc), fun c hc => this.2 c
        (mem_knownOf.2 ⟨hcs c (mem_knownOf.1 hc).1, (mem_knownOf.1 hc).2⟩)⟩
    | cat f =>
      exact ⟨fun c hc => this.1 c (hcs c hc), fun c hc => this.2 c
        (mem_knownOf.2 ⟨hcs c (mem_knownOf.1 hc).1, (mem_knownOf.1 hc).2⟩)⟩
  have hpos : ∀ k : Nat, k ≠ 0 → (0 : K) < k := fun k hk => Nat.cast_pos.2 (Nat.pos_of_ne_zero hk)
  have himp : ∀ cs : List Nat, cs ≠ [] → (∀ c ∈ cs, c ∈ l ++ r) → densityImpurity features n cs = some .pinf := by
    intro cs hne hcs
    have hlen : cs.length ≠ 0 := by simpa using hne
    unfold densityImpurity XF.ofNat
    have hd : ((n * n : Nat) : K) ≠ 0 := (hpos _ (Nat.mul_ne_zero hn hn)).ne'
    rw [XF.fin_div _ hd]
    exact (foldlM_spans_inf features hl cs (hsub cs hcs)).2 hnum _
      (div_pos (hpos _ (Nat.mul_ne_zero hlen hlen)) (hpos _ (Nat.mul_ne_zero hn hn)))
  have hne : l ++ r ≠ [] := by simp [hnl]
  refine ⟨?_, ?_, ?_⟩
  · unfold densityPredict XF.ofNat
    rw [XF.fin_div _ (hpos _ hn).ne']
    exact (foldlM_spans_inf features hl _ hfit).2 hnum _ (div_pos (hpos _ (by simpa using hne)) (hpos _ hn))
  · show (densityImpurity features n (l ++ r)).map _ = _
    rw [himp _ hne fun c h => h]
    rfl
  · show (anewSplit (densityImpurity features n) l r none).map _ = _
    unfold anewSplit
    rw [himp l hnl fun c hc => List.mem_append_left _ hc, himp r hnr fun c hc => List.mem_append_right _ hc]
    simp only [Option.bind_eq_bind, Option.bind_some, missBlock, List.length_nil, lt_irrefl, if_false, Option.map_some]
    have e1 : ∀ k : Nat, k ≠ 0 → (XF.ofNat k * XF.pinf : XF K) = .pinf := by
      intro k hk
      show XF.infTimes (k : K) = _
      unfold XF.infTimes
      rw [if_neg (hpos k hk).ne', if_pos (hpos k hk)]
    rw [e1 _ (by simpa using hnl), e1 _ (by simpa using hnr)]
    have e2 : (XF.pinf + XF.pinf : XF K) = .pinf := rfl
    have e3 : (XF.ofNat l.length + XF.ofNat r.length + XF.fin 0 : XF K) = .fin ((l.length : K) + r.length + 0) := rfl
    rw [e2, e3]
    congr 2
    show (if (l.length : K) + r.length + 0 < 0 then _ else _) = _
    rw [if_neg]
    have := (Nat.cast_nonneg l.length : (0 : K) ≤ _)
    have := (Nat.cast_nonneg r.length : (0 : K) ≤ _)
    linarith

example : (∀ f ∈ [Feature.cat exHue, .num exLen], f.Fits ([0, 1] ++ [3, 4])) ∧
    densityPredict [.cat exHue, .num exLen] 5 [0, 1, 3, 4] = some .pinf := by
  refine ⟨fun f hf => ?_, by decide +kernel⟩
  simp only [List.mem_cons, List.not_mem_nil, or_false] at hf
  rcases hf with rfl | rfl
  · exact exHue_fits _ (by decide)
  · exact exLen_fits _ (by decide)

/-! ## C87: transduction -/

/-- **C87**, without the unsupervised term: with weight zero for it, the impurity of cases and of each division of
them is that of the class feature by itself. -/
theorem c87_supervised_partial (features : List (Feature K)) (f : CatFeature) (a : Allocs K) :
    (∀ cases, (transTarget features (.fin 0) f).impurity a cases = (giniTarget f).impurity a cases) ∧
    (∀ l r m, (transTarget features (.fin 0) f).splitImpurity a l r m = (giniTarget f).splitImpurity a l r m) ∧
    ∀ l r m mv, (transTarget features (.fin 0) f).updateSImp a l r m mv = (giniTarget f).splitImpurity a l r m := by
  have h0 : (XF.fin (0 : K)).feq (.fin 0) := ⟨by simp, rfl⟩
  refine ⟨fun cases => ?_, fun l r m => ?_, fun l r m mv => ?_⟩
  · show (transImpurity features (.fin 0) f cases a.counter).map _ = _
    unfold transImpurity
    simp only [h0, if_true]
    show Option.map _ ((f.countPerCat cases a.counter).bind _) = (f.countPerCat cases a.counter).bind _
    cases f.countPerCat cases a.counter <;> rfl
  · show (if _ then _ else _) = _
    rw [if_pos h0]
  · show (if _ then _ else _) = _
    rw [if_pos h0]

/-- The factor of a feature in the unsupervised term as the code has it. -/
theorem transDensity_eq (features : List (Feature K))
    (hl : ∀ g, Feature.num g ∈ features → g.numData.length = g.missing.length) (target : String) (cases : List Nat)
    (hne : cases ≠ []) (hfit : ∀ f ∈ features, f.Fits cases) :
    transDensity features target cases = some (.fin (((features.filter fun f => f.name ≠ target).map fun f =>
      if f.spread cases = 0 then (1 : K) else f.spread cases).prod / (cases.length : K) ^ 2)) := by
  have hlen : (cases.length : K) ≠ 0 := by simpa using hne
  have key : ∀ (fs : List (Feature K)), (∀ f ∈ fs, f ∈ features) → ∀ x : K, fs.foldlM (fun (e : XF K) f =>
      if f.name ≠ target then do
        let s ← f.spanIn (maxCats features) cases
        some (if (.fin 0 : XF K) < s then e * s else e)
      else some e) (.fin x) = some (.fin (x * ((fs.filter fun f => f.name ≠ target).map fun f =>
      if f.spread cases = 0 then (1 : K) else f.spread cases).prod)) := by
    intro fs
    induction fs with
    | nil => intro _ x; simp
    | cons f fs ih =>
      intro hmem x
      have ih' := ih fun g hg => hmem g (by simp [hg])
      have hf := hmem f (by simp)
      have h1 := hfit f hf
      rw [List.foldlM_cons, List.filter_cons]
      by_cases hname : f.name ≠ target
      · rw [if_pos hname, if_pos (by simpa using hname), List.map_cons, List.prod_cons, ← mul_assoc]
        cases f with
        | num f =>
          have e : Feature.spanIn (maxCats features) (.num f) cases = some (.fin 0) := numSpan_eq f (hl f hf) cases h1.1 h1.2
          simp only [e, Option.bind_eq_bind, Option.bind_some]
          rw [if_neg (by rw [XF.fin_lt]; exact lt_irrefl _)]
          have : Feature.spread cases (Feature.num f) = 1 := rfl
          simp only [this, one_ne_zero, if_false, Nat.cast_one, mul_one]
          exact ih' x
        | cat f =>
          have e : Feature.spanIn (maxCats features) (.cat f : Feature K) cases = some (.ofNat (f.distinct cases)) :=
            catSpan_eq f cases h1.1 h1.2 _ (le_maxCats features _ hf)
          simp only [e, Option.bind_eq_bind, Option.bind_some]
          have hs : Feature.spread cases (Feature.cat f : Feature K) = f.distinct cases := rfl
          rw [hs]
          by_cases h0 : f.distinct cases = 0
          · have : ¬ ((.fin 0 : XF K) < .ofNat (f.distinct cases)) := by
              rw [h0]
              show ¬ ((0 : K) < ((0 : Nat) : K))
              simp
            rw [if_neg this, if_pos h0, mul_one]
            exact ih' x
          · have : (.fin 0 : XF K) < .ofNat (f.distinct cases) := by
              show (0 : K) < (f.distinct cases : K)
              exact Nat.cast_pos.2 (Nat.pos_of_ne_zero h0)
            rw [if_pos this, if_neg h0]
            exact ih' (x * f.distinct cases)
      · rw [if_neg hname, if_neg (by simpa using hname)]
        exact ih' x
  unfold transDensity XF.ofNat
  rw [XF.fin_div _ (by rw [Nat.cast_mul]; exact mul_ne_zero hlen hlen), key features (fun f h => h)]
  congr 2
  rw [one_div, inv_mul_eq_div, Nat.cast_mul, sq]

/-- **C87**, the unsupervised term, what holds: if all other features are categorical, and known for some case, it is
the product of the numbers of their different categories over the square of the number of cases.

Missing from the full property: numerical features, `c87_numeric_ignored`. -/
theorem c87_density_partial (features : List (Feature K)) (target : String) (cases : List Nat) (hne : cases ≠ [])
    (hfit : ∀ f ∈ features, f.Fits cases) (hcat : ∀ f ∈ features, f.isCat = true)
    (hpos : ∀ f ∈ features, f.name ≠ target → 0 < f.spread cases) :
    transDensity features target cases = some (.fin (((features.filter fun f => f.name ≠ target).map fun f =>
      f.spread cases).prod / (cases.length : K) ^ 2)) := by
  rw [transDensity_eq features (fun g hg => absurd (hcat _ hg) (by simp [Feature.isCat])) target cases hne hfit]
  congr 3
  have : ∀ fs : List (Feature K), (∀ f ∈ fs, 0 < f.spread cases) →
      (fs.map fun f => if f.spread cases = 0 then (1 : K) else f.spread cases).prod =
      ((fs.map fun f => f.spread cases).prod : Nat) := by
    intro fs
    induction fs with
    | nil => simp
    | cons f fs ih =>
      intro h
      rw [List.map_cons, List.prod_cons, List.map_cons, List.prod_cons, Nat.cast_mul,
        ih fun g hg => h g (by simp [hg]), if_neg (ne_of_gt (h f (by simp)))]
  rw [this]
  intro f hf
  rw [List.mem_filter] at hf
  exact hpos f hf.1 (by simpa using hf.2)

/-- Of the colours of five cases three are different. -/
example : transDensity [.cat exHue, .cat { exHue with name := "C:y" }] "C:y" [0, 1, 2, 3, 4] = some (.fin (3 / 25 : ℚ)) ∧
    (Feature.cat exHue : Feature ℚ).Fits [0, 1, 2, 3, 4] := ⟨by decide +kernel, exHue_fits _ (by decide)⟩

/-- **C87 is false of the code**: numerical features have no part in the unsupervised term. -/
theorem c87_numeric_ignored (features : List (Feature K))
    (hl : ∀ g, Feature.num g ∈ features → g.numData.length = g.missing.length) (target : String) (cases : List Nat)
    (hne : cases ≠ []) (hfit : ∀ f ∈ features, f.Fits cases) :
    transDensity features target cases = transDensity (features.filter fun f => f.isCat) target cases := by
  rw [transDensity_eq features hl target cases hne hfit, transDensity_eq (features.filter fun f => f.isCat)
    (fun g hg => hl g (List.mem_filter.1 hg).1) target cases hne fun f hf => hfit f (List.mem_filter.1 hf).1]
  congr 3
  have : ∀ fs : List (Feature K), ((fs.filter fun f => f.name ≠ target).map fun f =>
      if f.spread cases = 0 then (1 : K) else f.spread cases).prod =
      (((fs.filter fun f => f.isCat).filter fun f => f.name ≠ target).map fun f =>
        if f.spread cases = 0 then (1 : K) else f.spread cases).prod := by
    intro fs
    induction fs with
    | nil => rfl
    | cons f fs ih =>
      rw [List.filter_cons, List.filter_cons]
      cases f with
      | num f =>
        rw [if_neg (by simp [Feature.isCat] : ¬ (Feature.num f : Feature K).isCat = true), ← ih]
        split
        · rw [List.map_cons, List.prod_cons]
          simp [Feature.spread]
        · rfl
      | cat f =>
        have hc : (Feature.cat f : Feature K).isCat = true := rfl
        rw [if_pos hc, List.filter_cons]
        split
        · rw [List.map_cons, List.prod_cons, ih, List.map_cons, List.prod_cons]
        · exact ih
  exact this features

/-- The unsupervised term as it should be: the product of the numbers of different categories over the square of the
number of cases. -/
def densityTerm (K : Type) [Field K] (features : List (Feature K)) (target : String) (cases : List Nat) : K :=
  (((features.filter fun f => f.name ≠ target).map fun f => f.spread cases).prod : Nat) / (cases.length : K) ^ 2

/-- The other features are categorical, and known for some of the cases. -/
structure Dense (features : List (Feature K)) (target : String) (cases : List Nat) : Prop where
  ne : cases ≠ []
  fits : ∀ f ∈ features, f.Fits cases
  cat : ∀ f ∈ features, f.isCat = true
  known : ∀ f ∈ features, f.name ≠ target → 0 < f.spread cases

theorem transImpurity_eq (features : List (Feature K)) (α : K) (h0 : α ≠ 0) (f : CatFeature) (cases : List Nat)
    (counter : List Int) (hd : Dense features f.name cases) (hr : f.InRange counter.length cases) :
    transImpurity features (.fin α) f cases counter =
      some (.fin (f.gini K counter.length cases + α * densityTerm K features f.name cases),
        f.counts counter.length cases) := by
  have h0' : ¬ (XF.fin α).feq (.fin 0) := fun h => h0 (by simpa using h.2)
  unfold transImpurity
  rw [countPerCat_eq f cases counter hr]
  simp only [Option.bind_eq_bind, Option.bind_some, if_neg h0']
  rw [c87_density_partial features f.name cases hd.ne hd.fits hd.cat hd.known, giniFromCounts_eq f _ cases hd.ne]
  simp only [Option.bind_some, XF.fin_mul, XF.fin_add, densityTerm]

/-- **C87**, both terms, what holds: with weight α ≠ 0 for the unsupervised term the impurity of cases is their Gini
impurity plus α times that term, and the impurity of a division into two or three parts is the mean of the impurities
of the parts weighted by their sizes.

Missing from the full property: numerical features, `c87_numeric_ignored`. -/
theorem c87_combined_partial (features : List (Feature K)) (α : K) (h0 : α ≠ 0) (f : CatFeature) (n : Nat) (a : Allocs K)
    (ha : countOk n a) :
    let imp := fun cs => f.gini K n cs + α * densityTerm K features f.name cs
    (∀ cases, Dense features f.name cases → f.InRange n cases →
      ((transTarget features (.fin α) f).impurity a cases).map Prod.fst = some (.fin (imp cases))) ∧
    (∀ l r, Dense features f.name l → Dense features f.name r → f.InRange n l → f.InRange n r →
      ((transTarget features (.fin α) f).splitImpurity a l r none).map Prod.fst =
        some (.fin ((l.length * imp l + r.length * imp r) / (l.length + r.length)))) ∧
    (∀ l r m, Dense features f.name l → Dense features f.name r → Dense features f.name m → f.InRange n l →
      f.InRange n r → f.InRange n m →
      ((transTarget features (.fin α) f).splitImpurity a l r (some m)).map Prod.fst =
        some (.fin ((l.length * imp l + r.length * imp r + m.length * imp m) / (l.length + r.length + m.length)))) := by
  obtain ⟨hc, hl, hr⟩ := ha
  have h0' : ¬ (XF.fin α).feq (.fin 0) := fun h => h0 (by simpa using h.2)
  have hpos : ∀ cs : List Nat, cs ≠ [] → (0 : K) < cs.length := fun cs h =>
    Nat.cast_pos.2 (Nat.pos_of_ne_zero (by simpa using h))
  refine ⟨fun cases hd hi => ?_, fun l r dl dr il ir => ?_, fun l r m dl dr dm il ir im => ?_⟩
  · show Option.map _ (Option.map _ (transImpurity features (.fin α) f cases a.counter)) = _
    rw [transImpurity_eq features α h0 f cases a.counter hd (by rwa [hc]), hc]
    rfl
  · show Option.map _ (if _ then _ else _) = _
    rw [if_neg h0', transImpurity_eq features α h0 f l a.lcounter dl (by rwa [hl]),
      transImpurity_eq features α h0 f r a.rcounter dr (by rwa [hr]), hl, hr]
    simp only [Option.bind_eq_bind, Option.bind_some, missBlock, List.length_nil, lt_irrefl, if_false, Option.map_some]
    have := hpos l dl.ne
    have := hpos r dr.ne
    unfold XF.ofNat
    simp only [XF.fin_mul, XF.fin_add]
    rw [XF.fin_div _ (by linarith), add_zero]
  · have hm : 0 < (missBlock (some m)).length := List.length_pos_iff.2 dm.ne
    show Option.map _ (if _ then _ else _) = _
    rw [if_neg h0', transImpurity_eq features α h0 f l a.lcounter dl (by rwa [hl]),
      transImpurity_eq features α h0 f r a.rcounter dr (by rwa [hr]), hl, hr]
    simp only [Option.bind_eq_bind, Option.bind_some, if_pos hm]
    rw [show missBlock (some m) = m from rfl, transImpurity_eq features α h0 f m a.counter dm (by rwa [hc]), hc]
    have := hpos l dl.ne
    have := hpos r dr.ne
    have := hpos m dm.ne
    unfold XF.ofNat
    simp only [XF.fin_mul, XF.fin_add, Option.bind_some, Option.map_some]
    rw [XF.fin_div _ (by linarith)]

/-- Hue as the feature and, by another name, as the class. -/
def exHues : List (Feature ℚ) := [.cat exHue, .cat { exHue with name := "C:y" }]

theorem exHues_dense (cases : List Nat) (h : ∀ c ∈ cases, c < 5) (h1 : 1 ∈ cases) : Dense exHues "C:y" cases := by
  have hs : ∀ g : CatFeature, g.catData = exHue.catData → g.missing = exHue.missing → 0 < g.distinct cases := by
    intro g e1 e2
    refine Finset.card_pos.2 ⟨1, List.mem_toFinset.2 (List.mem_map.2 ⟨1, mem_knownOf.2 ⟨h1, ?_⟩, ?_⟩)⟩
    · rw [e2]; rfl
    · rw [e1]; rfl
  refine ⟨fun e => by simp [e] at h1, fun f hf => ?_, fun f hf => ?_, fun f hf _ => ?_⟩ <;>
    simp only [exHues, List.mem_cons, List.not_mem_nil, or_false] at hf <;> rcases hf with rfl | rfl
  · exact exHue_fits _ h
  · exact exHue_fits _ h
  · rfl
  · rfl
  · exact hs _ rfl rfl
  · exact hs _ rfl rfl

example : Dense exHues "C:y" [0, 1] ∧ Dense exHues "C:y" [1, 3, 4] ∧
    ((transTarget exHues (.fin (1 / 2)) { exHue with name := "C:y" }).splitImpurity
      ⟨[0, 0, 0], [0, 0, 0], [0, 0, 0], .fin 0, .fin 0, .fin 0, .fin 0, .fin 0, .fin 0⟩ [0, 1] [1, 3, 4] none).map
        Prod.fst = some (XF.fin (19 / 30)) :=
  ⟨exHues_dense _ (by decide) (by decide), exHues_dense _ (by decide) (by decide), by decide +kernel⟩

/-- Values 2 and 7, or one and the same value, make no difference. -/
example : transDensity [.cat exHue, .num exLen] "C:y" [0, 1] = some (.fin (1 / 2 : ℚ)) ∧
    transDensity [.cat exHue, .num ⟨[.fin 2, .fin 2, .fin 2, .fin 2, .fin 2], exLen.missing, "N:len", true⟩] "C:y" [0, 1] =
      some (XF.fin (1 / 2 : ℚ)) := ⟨by decide +kernel, by decide +kernel⟩

end CloudForest
