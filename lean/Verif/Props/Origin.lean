import Verif.Lemmas.Questions
import Verif.Props.Regression
import Verif.Props.RoundedRegression
import Verif.Props.Commands
import Verif.Props.BoostRun

/-!
# C153: a regression tree does not depend on the origin of its target
-/

set_option linter.unusedSectionVars false

namespace CloudForest
variable {K : Type} [Field K] [LinearOrder K] [IsStrictOrderedRing K] {τ : Type}

/-! ## Values, means and impurities from another origin -/

theorem shifted_get (f : NumFeature K) (b : K) (c : Nat) :
    (f.shifted b).numData[c]? = f.numData[c]?.map (XF.inUnit 1 b) := by
  simp [NumFeature.shifted]

theorem shifted_finite {f : NumFeature K} {cs : List Nat} (h : f.Finite cs) (b : K) : (f.shifted b).Finite cs := by
  intro c hc
  obtain ⟨x, hx⟩ := h c hc
  exact ⟨1 * x + b, by rw [shifted_get, hx]; rfl⟩

theorem shifted_value {f : NumFeature K} {cs : List Nat} (h : f.Finite cs) (b : K) {c : Nat} (hc : c ∈ cs) :
    (f.shifted b).value c = f.value c + b := by
  obtain ⟨x, hx⟩ := h c hc
  unfold NumFeature.value
  rw [shifted_get, hx]
  simp [XF.inUnit]

theorem shifted_values {f : NumFeature K} {cs : List Nat} (h : f.Finite cs) (b : K) :
    cs.map (f.shifted b).value = cs.map fun c => f.value c + b :=
  List.map_congr_left fun _ hc => shifted_value h b hc

theorem shifted_meanOf {f : NumFeature K} {cs : List Nat} (h : f.Finite cs) (hne : cs ≠ []) (b : K) :
    (f.shifted b).meanOf cs = f.meanOf cs + b := by
  unfold NumFeature.meanOf
  have hn : (cs.length : K) ≠ 0 := by
    have := List.length_pos_iff.2 hne
    positivity
  rw [shifted_values h b]
  have : ∀ l : List Nat, (l.map fun c => f.value c + b).sum = (l.map f.value).sum + l.length * b := by
    intro l
    induction l with
    | nil => simp
    | cons x l ih => simp [ih]; ring
  rw [this]
  field_simp

theorem shifted_sse {f : NumFeature K} {cs : List Nat} (h : f.Finite cs) (hne : cs ≠ []) (b : K) :
    (f.shifted b).sse cs = f.sse cs := by
  unfold NumFeature.sse
  congr 1
  refine List.map_congr_left fun c hc => ?_
  rw [shifted_value h b hc, shifted_meanOf h hne b]
  ring

theorem shifted_sseX {f : NumFeature K} {cs : List Nat} (h : f.Finite cs) (b : K) :
    sseX (f.shifted b) cs = sseX f cs := by
  by_cases hne : cs = []
  · subst hne
    rfl
  · rw [sseX_eq _ _ hne, sseX_eq _ _ hne, shifted_sse h hne b]

theorem shifted_absError {f : NumFeature K} {cs : List Nat} (h : f.Finite cs) (b p : K) :
    (f.shifted b).absError (p + b) cs = f.absError p cs := by
  unfold NumFeature.absError
  congr 2
  refine List.map_congr_left fun c hc => ?_
  rw [shifted_value h b hc]
  congr 1
  ring

theorem shifted_agrees {f : NumFeature K} {all : List Nat} (h : f.Finite all) (b : K) (h' : (f.shifted b).Finite all) :
    (sseLaws f all h).Agrees (sseLaws (f.shifted b) all h') where
  I l hl := shifted_sseX (fun c hc => h c (hl c hc)) b
  S l r hl := by
    show wavg _ _ _ _ = wavg _ _ _ _
    rw [shifted_sseX (fun c hc => h c (hl c (List.mem_append_left _ hc))) b,
      shifted_sseX (fun c hc => h c (hl c (List.mem_append_right _ hc))) b]

theorem mem_of_knownOf {m : List Bool} {l : List Nat} {c : Nat} (h : c ∈ knownOf m l) : c ∈ l := (mem_knownOf.1 h).1

theorem shifted_agrees_l1 {f : NumFeature K} {all : List Nat} (hc : ∀ c ∈ all, c < f.missing.length)
    (hl : f.numData.length = f.missing.length) (h : f.Finite (knownOf f.missing all)) (b : K)
    (hl' : (f.shifted b).numData.length = f.missing.length) (h' : (f.shifted b).Finite (knownOf f.missing all)) :
    (l1Laws f all hc hl h).Agrees (l1Laws (f.shifted b) all hc hl' h') := by
  have hI : ∀ l, (∀ c ∈ l, c ∈ all) →
      (l1Laws (f.shifted b) all hc hl' h').I l = (l1Laws f all hc hl h).I l := by
    intro l hll
    show (if knownOf f.missing l = [] then XF.nan else _) = (if knownOf f.missing l = [] then XF.nan else _)
    by_cases hne : knownOf f.missing l = []
    · rw [if_pos hne, if_pos hne]
    · have hf : f.Finite (knownOf f.missing l) := fun c hk =>
        h c (mem_knownOf.2 ⟨hll c (mem_knownOf.1 hk).1, (mem_knownOf.1 hk).2⟩)
      rw [if_neg hne, if_neg hne]
      show XF.fin ((f.shifted b).absError ((f.shifted b).meanOf (knownOf f.missing l)) (knownOf f.missing l)) = _
      rw [shifted_meanOf hf hne b, shifted_absError hf b]
  refine ⟨hI, fun l r hlr => ?_⟩
  have e1 := hI l fun c hcc => hlr c (List.mem_append_left _ hcc)
  have e2 := hI r fun c hcc => hlr c (List.mem_append_right _ hcc)
  show wavg _ _ ((l1Laws (f.shifted b) all hc hl' h').I l) ((l1Laws (f.shifted b) all hc hl' h').I r) = 
    wavg _ _ ((l1Laws f all hc hl h).I l) ((l1Laws f all hc hl h).I r)
  rw [e1, e2]

theorem inUnit_add (s x : XF K) (p q : K) : s.inUnit 1 p + x.inUnit 1 q = (s + x).inUnit 1 (p + q) := by
  cases s <;> cases x <;> try rfl
  show XF.fin _ = XF.fin _
  congr 1
  ring

theorem inUnit_div (s : XF K) (n : Nat) (b : K) :
    s.inUnit 1 (n * b) / XF.ofNat n = (s / XF.ofNat n).inUnit 1 b := by
  have key : ∀ s : XF K, XF.div (s.inUnit 1 (n * b)) (.fin (n : K)) = (XF.div s (.fin (n : K))).inUnit 1 b := by
    intro s
    cases s with
    | nan => rfl
    | pinf => simp only [XF.inUnit, XF.div]; split <;> rfl
    | ninf => simp only [XF.inUnit, XF.div]; split <;> rfl
    | fin x =>
      rcases Nat.eq_zero_or_pos n with rfl | hn
      · simp only [XF.inUnit, XF.div, Nat.cast_zero, if_true, zero_mul, add_zero, one_mul, XF.infTimes]
        split_ifs <;> rfl
      · have hn : (n : K) ≠ 0 := by positivity
        simp only [XF.inUnit, XF.div, if_neg hn]
        congr 1
        field_simp
  exact key s

/-- The mean from another origin, whatever the values and missing ones. -/
theorem shifted_mean (f : NumFeature K) (b : K) (cs : List Nat) :
    (f.shifted b).mean cs = (f.mean cs).map (XF.inUnit 1 b) := by
  have key : ∀ (cs : List Nat) (s : XF K) (n : Nat),
      cs.foldlM (fun (acc : XF K × Nat) (i : Nat) => do
        let m ← (f.shifted b).missing[i]?
        if m then some acc else do
          let x ← (f.shifted b).numData[i]?
          some (acc.1 + x, acc.2 + 1)) (s.inUnit 1 (n * b), n) =
      (cs.foldlM (fun (acc : XF K × Nat) (i : Nat) => do
        let m ← f.missing[i]?
        if m then some acc else do
          let x ← f.numData[i]?
          some (acc.1 + x, acc.2 + 1)) (s, n)).map fun (a : XF K × Nat) => (a.1.inUnit 1 (a.2 * b), a.2) := by
    intro cs
    induction cs with
    | nil => exact fun s n => rfl
    | cons c cs ih =>
      intro s n
      simp only [List.foldlM_cons, Option.bind_eq_bind]
      rw [shifted_get, show (f.shifted b).missing = f.missing from rfl]
      cases f.missing[c]? with
      | none => rfl
      | some m =>
        cases m with
        | true => exact ih s n
        | false =>
          cases f.numData[c]? with
          | none => rfl
          | some x =>
            simp only [Option.bind_some, Bool.false_eq_true, if_false, Option.map_some]
            have := ih (s + x) (n + 1)
            rw [Nat.cast_add, Nat.cast_one, add_mul, one_mul, ← inUnit_add] at this
            exact this
  have h0 : (XF.fin 0 : XF K).inUnit 1 ((0 : Nat) * b) = .fin 0 := by
    show XF.fin _ = _
    congr 1
    simp
  have := key cs (.fin 0) 0
  rw [h0] at this
  unfold NumFeature.mean
  rw [this]
  simp only [Option.bind_eq_bind]
  generalize List.foldlM (m := Option) _ ((.fin 0 : XF K), 0) cs = o
  cases o with
  | none => rfl
  | some a =>
    simp only [Option.map_some, Option.bind_some]
    rw [inUnit_div]

/-- What a leaf predicts from another origin. -/
def ShiftedText (nt : NumText K) (b : K) (p p' : String) : Prop :=
  ∃ x : XF K, p = String.ofList (nt.fmt x) ∧ p' = String.ofList (nt.fmt (x.inUnit 1 b))

theorem shifted_predicted (nt : NumText K) (f : NumFeature K) (b : K) (cs : List Nat) :
    ShiftedText nt b ((f.findPredicted nt cs).getD "") (((f.shifted b).findPredicted nt cs).getD "") ∨
      (f.findPredicted nt cs).getD "" = "" ∧ ((f.shifted b).findPredicted nt cs).getD "" = "" := by
  unfold NumFeature.findPredicted
  rw [shifted_mean]
  cases f.mean cs with
  | none => exact .inr ⟨rfl, rfl⟩
  | some x => exact .inl ⟨x, rfl, rfl⟩

/-! ## The property -/

/-- **C153, origin.** With the same random numbers, a regression tree for a target to which a number has been added asks the
same questions, and every prediction has that number added. The target itself may be among the features of the matrix, if
it is not a candidate. Missing from the full property: other units (`c153_unit`), and rounding (`c153_rounding`). -/
theorem c153_origin_partial {fm fm' : FeatureMatrix K} {f : NumFeature K} {b : K} {C C' : Contrast K τ}
    {good good' : τ → Prop} {o : SplitOpts} {all cases : List Nat} (hM : MatrixOk fm all) (hM' : MatrixOk fm' all)
    (hc : ∀ c ∈ cases, c ∈ all) (hf : f.Finite all) {st st' : SplitState K}
    (hS : SplitSetting (sseLaws f all hf) fm C good o st.cans st.oob)
    (hS' : SplitSetting (sseLaws (f.shifted b) all (shifted_finite hf b)) fm' C' good' o st'.cans st'.oob)
    (hrng : st'.rng = st.rng) (hcans : st'.cans = st.cans) (hvet : o.vet = false) (hoob : o.evaloob = false)
    (hsame : ∀ i ∈ st.cans, fm'.data[i]? = fm.data[i]?) (nt : NumText K) (maxDepth : Int) (splitmissing : Bool) :
    ∃ root root' st1 st1', (∀ fuel, cases.length < fuel →
        grow (treeGrower fm (sseTarget f) C o (fun S => (f.findPredicted nt S).getD "") maxDepth splitmissing) fm fuel
          .fresh st cases 0 0 = some (root, st1) ∧
        grow (treeGrower fm' (sseTarget (f.shifted b)) C' o (fun S => ((f.shifted b).findPredicted nt S).getD "") maxDepth
          splitmissing) fm' fuel .fresh st' cases 0 0 = some (root', st1')) ∧
      SameQuestions (ShiftedText nt b) root root' :=
  grow_same_questions hM hM' hc (shifted_agrees hf b _) hS hS' trivial trivial hrng hcans hvet hoob hsame
    (fun cs cs' h _ => c124_mean nt f cs cs' h) (shifted_predicted nt f b) maxDepth splitmissing

/-- **C153, origin, absolute error.** The same for trees that minimise the absolute error. -/
theorem c153_origin_l1_partial {fm fm' : FeatureMatrix K} {f : NumFeature K} {b : K} {C C' : Contrast K τ}
    {good good' : τ → Prop} {o : SplitOpts} {all cases : List Nat} (hM : MatrixOk fm all) (hM' : MatrixOk fm' all)
    (hc : ∀ c ∈ cases, c ∈ all) (hm : ∀ c ∈ all, c < f.missing.length) (hl : f.numData.length = f.missing.length)
    (hl' : (f.shifted b).numData.length = f.missing.length)
    (hf : f.Finite (knownOf f.missing all)) {st st' : SplitState K}
    (hS : SplitSetting (l1Laws f all hm hl hf) fm C good o st.cans st.oob)
    (hS' : SplitSetting (l1Laws (f.shifted b) all hm hl' (shifted_finite hf b)) fm' C' good' o st'.cans st'.oob)
    (hrng : st'.rng = st.rng) (hcans : st'.cans = st.cans) (hvet : o.vet = false) (hoob : o.evaloob = false)
    (hsame : ∀ i ∈ st.cans, fm'.data[i]? = fm.data[i]?) (nt : NumText K) (maxDepth : Int) (splitmissing : Bool) :
    ∃ root root' st1 st1', (∀ fuel, cases.length < fuel →
        grow (treeGrower fm (l1Target f) C o (fun S => (f.findPredicted nt S).getD "") maxDepth splitmissing) fm fuel
          .fresh st cases 0 0 = some (root, st1) ∧
        grow (treeGrower fm' (l1Target (f.shifted b)) C' o (fun S => ((f.shifted b).findPredicted nt S).getD "") maxDepth
          splitmissing) fm' fuel .fresh st' cases 0 0 = some (root', st1')) ∧
      SameQuestions (ShiftedText nt b) root root' :=
  grow_same_questions hM hM' hc (shifted_agrees_l1 hm hl hf b hl' _) hS hS' trivial trivial hrng hcans hvet hoob hsame
    (fun cs cs' h _ => c124_mean nt f cs cs' h) (shifted_predicted nt f b) maxDepth splitmissing

/-- What such trees have in common: every case, in training or not, ends at the same place, and predictions that are read
as numbers differ by the number that was added. -/
theorem c153_predictions {nt : NumText K} (hnt : ∀ x : XF K, nt.Faithful x) (h0 : nt.parse [] = none) {b : K}
    (fm : FeatureMatrix K) {root root' : Node K}
    (h : SameQuestions (ShiftedText nt b) root root') (c : Nat) {path : List Dir} {p : String} {x : K}
    (hl : landing fm root c = some (path, p)) (hx : nt.parse p.toList = some (.fin x)) :
    ∃ p', landing fm root' c = some (path, p') ∧ nt.parse p'.toList = some (.fin (x + b)) := by
  have := h.landing fm c
  rw [hl] at this
  cases hl' : landing fm root' c with
  | none => rw [hl'] at this; exact this.elim
  | some q =>
    rw [hl'] at this
    obtain ⟨path', p'⟩ := q
    obtain ⟨rfl, hr⟩ := this
    refine ⟨p', rfl, ?_⟩
    simp only at hr
    rcases hr with ⟨y, h1, h2⟩ | ⟨h1, -⟩
    · rw [h1, String.toList_ofList, (hnt y).2] at hx
      cases hx
      rw [h2, String.toList_ofList, (hnt _).2]
      simp [XF.inUnit, add_comm]
    · rw [h1] at hx
      rw [show ("" : String).toList = [] from rfl, h0] at hx
      cases hx

/-! ## Examples -/

/-- Three cases with their target in the matrix, counted from this origin. -/
def exOriginFM (b : ℚ) : FeatureMatrix ℚ :=
  ⟨[.num ⟨[.fin 0, .fin 1, .fin 2], List.replicate 3 false, "N:x", false⟩, .num ((exFitNum 1 5 7).shifted b)],
    fun s => if s = "N:x" then some 0 else if s = "N:t" then some 1 else none, []⟩

theorem exOriginFM_feats (b : ℚ) : ∀ f ∈ (exOriginFM b).data, FeatOk f [0, 1, 2] := by
  have hn : ∀ f : NumFeature ℚ, f.missing = List.replicate 3 false →
      f.Finite [0, 1, 2] → FeatOk (.num f) [0, 1, 2] := by
    intro f h1 h3
    refine ⟨fun c hc => ?_, fun c hc => ?_, fun c hc => h3 c (List.mem_of_mem_filter hc)⟩
    · obtain ⟨x, hx⟩ := h3 c hc
      refine ⟨?_, (List.getElem?_eq_some_iff.1 hx).1⟩
      rw [h1]; fin_cases hc <;> simp
    · simp only [Feature.isMissing, h1, List.getElem?_replicate] at hc
      split at hc <;> cases hc
  intro f hf
  simp only [exOriginFM, List.mem_cons, List.not_mem_nil, or_false] at hf
  rcases hf with rfl | rfl
  · exact hn _ rfl (by intro c hc; fin_cases hc <;> exact ⟨_, rfl⟩)
  · exact hn _ rfl (by intro c hc; fin_cases hc <;> exact ⟨_, rfl⟩)

theorem exOriginFM_ok (b : ℚ) : MatrixOk (exOriginFM b) [0, 1, 2] where
  valid f hf := (exOriginFM_feats b f hf).valid
  sound f hf := (exOriginFM_feats b f hf).sound
  catwf := by
    intro f hf
    simp only [exOriginFM, List.mem_cons, List.not_mem_nil, or_false] at hf
    rcases hf with rfl | rfl <;> trivial
  named := by
    intro i f hf
    rcases i with _ | _ | i <;> cases hf <;> rfl

theorem exOrigin_finite : (exFitNum 1 5 7).Finite [0, 1, 2] := by
  intro c hc
  fin_cases hc <;> exact ⟨_, rfl⟩

/-- The state before growing, the first feature being the only candidate. -/
def exOriginState : SplitState ℚ := ⟨exWork.allocs, fun _ => 0, [0], []⟩

theorem exOriginSetting (b b' : ℚ) (hf : ((exFitNum 1 5 7).shifted b').Finite [0, 1, 2]) :
    SplitSetting (sseLaws ((exFitNum 1 5 7).shifted b') _ hf) (exOriginFM b)
      (numContrast ((exFitNum 1 5 7).shifted b')) (fun _ => True) ⟨1, 1, false, false, false, false⟩
      exOriginState.cans exOriginState.oob where
  feats := exOriginFM_feats b
  total3 h := by cases h
  contrast h := by cases h
  start := trivial
  leafSize := by decide
  exist := by show ∀ i ∈ [0], i < 2; decide
  mTry := by decide
  oobs := by decide

/-- The hypotheses of `c153_origin_partial` are met: targets 1, 5, 7 and 101, 105, 107, which are in the matrices. -/
example : ∃ root root' st1 st1', (∀ fuel, 3 < fuel →
      grow (treeGrower (exOriginFM 0) (sseTarget ((exFitNum 1 5 7).shifted 0)) (numContrast ((exFitNum 1 5 7).shifted 0))
        ⟨1, 1, false, false, false, false⟩ (fun S => (((exFitNum 1 5 7).shifted 0).findPredicted exStrokes S).getD "") 0 false)
        (exOriginFM 0) fuel .fresh exOriginState [0, 1, 2] 0 0 = some (root, st1) ∧
      grow (treeGrower (exOriginFM 100) (sseTarget (((exFitNum 1 5 7).shifted 0).shifted 100))
        (numContrast ((exFitNum 1 5 7).shifted 100)) ⟨1, 1, false, false, false, false⟩
        (fun S => ((((exFitNum 1 5 7).shifted 0).shifted 100).findPredicted exStrokes S).getD "") 0 false)
        (exOriginFM 100) fuel .fresh exOriginState [0, 1, 2] 0 0 = some (root', st1')) ∧
    SameQuestions (ShiftedText exStrokes 100) root root' :=
  c153_origin_partial (good' := fun _ => True) (exOriginFM_ok 0) (exOriginFM_ok 100) (cases := [0, 1, 2]) (by decide)
    (shifted_finite exOrigin_finite 0) (exOriginSetting 0 0 _)
    { exOriginSetting 100 100 (shifted_finite exOrigin_finite 100) with
      total3 := fun h => by cases h
      contrast := fun h => by cases h } rfl rfl rfl rfl (by intro i hi; fin_cases hi; rfl) exStrokes 0 false

/-- And those of `c153_predictions`: what the second tree predicts, read as a number, is 100 more. -/
example : ∃ root root' st1 st1',
    grow (treeGrower (exOriginFM 0) (sseTarget ((exFitNum 1 5 7).shifted 0)) (numContrast ((exFitNum 1 5 7).shifted 0))
        ⟨1, 1, false, false, false, false⟩ (fun S => (((exFitNum 1 5 7).shifted 0).findPredicted exStrokes S).getD "") 0 false)
        (exOriginFM 0) 4 .fresh exOriginState [0, 1, 2] 0 0 = some (root, st1) ∧
    grow (treeGrower (exOriginFM 100) (sseTarget (((exFitNum 1 5 7).shifted 0).shifted 100))
        (numContrast ((exFitNum 1 5 7).shifted 100)) ⟨1, 1, false, false, false, false⟩
        (fun S => ((((exFitNum 1 5 7).shifted 0).shifted 100).findPredicted exStrokes S).getD "") 0 false)
        (exOriginFM 100) 4 .fresh exOriginState [0, 1, 2] 0 0 = some (root', st1') ∧
    ∀ (fm : FeatureMatrix ℚ) c path p x, landing fm root c = some (path, p) → exStrokes.parse p.toList = some (.fin x) →
      ∃ p', landing fm root' c = some (path, p') ∧ exStrokes.parse p'.toList = some (.fin (x + 100)) := by
  obtain ⟨root, root', st1, st1', h, hq⟩ := c153_origin_partial (good' := fun _ => True) (exOriginFM_ok 0)
    (exOriginFM_ok 100) (cases := [0, 1, 2]) (by decide)
    (shifted_finite exOrigin_finite 0) (exOriginSetting 0 0 _) (st' := exOriginState)
    (C' := numContrast ((exFitNum 1 5 7).shifted 100)) (b := 100)
    { exOriginSetting 100 100 (shifted_finite exOrigin_finite 100) with
      total3 := fun h => by cases h
      contrast := fun h => by cases h } rfl rfl rfl rfl (by intro i hi; fin_cases hi; rfl) exStrokes 0 false
  exact ⟨root, root', st1, st1', (h 4 (by decide)).1, (h 4 (by decide)).2, fun fm c path p x h1 h2 =>
    c153_predictions exStrokes_faithful rfl fm hq c h1 h2⟩

/-- The hypotheses of `c153_origin_l1_partial` are met too. -/
example : ∃ root root' st1 st1', (∀ fuel, 3 < fuel →
      grow (treeGrower (exOriginFM 0) (l1Target (exFitNum 1 5 7)) (numContrast (exFitNum 1 5 7))
        ⟨1, 1, false, false, false, false⟩ (fun S => ((exFitNum 1 5 7).findPredicted exStrokes S).getD "") 0 false)
        (exOriginFM 0) fuel .fresh exOriginState [0, 1, 2] 0 0 = some (root, st1) ∧
      grow (treeGrower (exOriginFM (-3)) (l1Target ((exFitNum 1 5 7).shifted (-3)))
        (numContrast ((exFitNum 1 5 7).shifted (-3))) ⟨1, 1, false, false, false, false⟩
        (fun S => (((exFitNum 1 5 7).shifted (-3)).findPredicted exStrokes S).getD "") 0 false)
        (exOriginFM (-3)) fuel .fresh exOriginState [0, 1, 2] 0 0 = some (root', st1')) ∧
    SameQuestions (ShiftedText exStrokes (-3)) root root' :=
  c153_origin_l1_partial (good := fun _ => True) (good' := fun _ => True) (exOriginFM_ok 0) (exOriginFM_ok (-3))
    (cases := [0, 1, 2]) (by decide) (by decide) rfl rfl (fun c hc => exOrigin_finite c (mem_of_knownOf hc))
    ⟨exOriginFM_feats 0, (fun h => by cases h), (fun h => by cases h), trivial, by decide,
      by show ∀ i ∈ [0], i < 2; decide, by decide, by decide⟩
    ⟨exOriginFM_feats (-3), (fun h => by cases h), (fun h => by cases h), trivial, by decide,
      by show ∀ i ∈ [0], i < 2; decide, by decide, by decide⟩
    rfl rfl rfl rfl (by intro i hi; fin_cases hi; rfl) exStrokes 0 false

/-- What the two trees of the example predict. -/
example : [0, 100].map (fun b => (grow (treeGrower (exOriginFM b) (sseTarget ((exFitNum 1 5 7).shifted b))
      (numContrast ((exFitNum 1 5 7).shifted b)) ⟨1, 1, false, false, false, false⟩
      (fun S => (((exFitNum 1 5 7).shifted b).findPredicted exFrac S).getD "") 0 false)
      (exOriginFM b) 4 .fresh exOriginState [0, 1, 2] 0 0).map fun r =>
        [0, 1, 2].map fun c => landing (exOriginFM b) r.1 c) =
    [some [some ([.L], "1/1"), some ([.R], "6/1"), some ([.R], "6/1")],
     some [some ([.L], "101/1"), some ([.R], "106/1"), some ([.R], "106/1")]] := by
  decide +kernel

/-! ## Where it fails -/

/-- **C153 is false of the code** for units: targets in ten-thousandths are not told apart. -/
theorem c153_unit : exFitPaths (exFitNum 0 0 1) [0, 1, 2] = some [some [.L], some [.R], some [.R]] ∧
    exFitPaths ((exFitNum 0 0 1).scaled (1 / 10000)) [0, 1, 2] = some [some [], some [], some []] := by decide +kernel

/-- **C153 is false of the code** for large origins, because numbers are rounded: nine equal targets are not divided if they
are zero, but they are if each is 19999.95. -/
theorem c153_rounding : [0, 5497544394984653 / 274877906944].map (fun b : ℚ =>
      (grow (treeGrowerR F64.round F64.cutoff exPriceFM (sseTargetR F64.round (⟨List.replicate 9 (.fin b),
        List.replicate 9 false, "N:price", false⟩)) (numContrast exPrices) ⟨1, 4, false, false, false, false⟩
        (fun _ => "") 0 false) exPriceFM 10 .fresh ⟨exWork.allocs, fun _ => 0, [0], []⟩ [0, 1, 2, 3, 4, 5, 6, 7, 8] 0 0).map
          fun r => [0, 8].map fun c => (landing exPriceFM r.1 c).map (·.1)) =
    [some [some [], some []], some [some [.L], some [.R]]] := by
  decide +kernel

end CloudForest
