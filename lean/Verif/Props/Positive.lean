import Verif.Spec.Positive
import Verif.Model.ClassBoostRun
import Verif.Lemmas.Questions
import Verif.Lemmas.ClassBoostCommand
import Verif.Props.BoostRun
import Verif.Props.ClassBoostCommand

/-!
# C157: it does not matter which of two classes is called positive
-/

set_option linter.unusedSectionVars false

namespace CloudForest
variable {K : Type} [Field K] [LinearOrder K] [IsStrictOrderedRing K] {τ : Type}

/-! ## What leaves predict -/

theorem neg_fin_div (a b : K) : (XF.fin (-a) / XF.fin b : XF K) = -(XF.fin a / XF.fin b) := by
  show XF.div (.fin (-a)) (.fin b) = XF.neg (XF.div (.fin a) (.fin b))
  by_cases hb : b = 0
  · subst hb
    simp only [XF.div, if_true, XF.infTimes]
    rcases lt_trichotomy a 0 with h | h | h
    · simp [h.ne, h, not_lt.2 h.le, XF.neg]
    · subst h
      simp [XF.neg]
    · simp [h.ne', h, not_lt.2 h.le, XF.neg]
  · simp only [XF.div, if_neg hb, XF.neg]
    rw [neg_div]

theorem classPredicted_eq (T : K → K) (fr fa fp : NumFeature K) (n : Nat) (y v : Nat → K) (lr : K) (prior : XF K) (pos : String)
    (cs : List Nat) : (classState T fr fa fp n y v lr prior pos).predicted cs =
      if ∀ c ∈ cs, c < n then some (.fin (cs.map fun c => y c - expitOf T (v c)).sum /
        .fin (cs.map fun c => expitOf T (v c) * (1 - expitOf T (v c))).sum) else none := by
  have key : ∀ (cs : List Nat) (a b : K), cs.foldlM (fun (nd : XF K × XF K) c => do
      let r ← (classState T fr fa fp n y v lr prior pos).res.numData[c]?
      let y ← (classState T fr fa fp n y v lr prior pos).actual.numData[c]?
      some (nd.1 + r, nd.2 + (y - r) * (.fin 1 - y + r))) (.fin a, .fin b) =
      if ∀ c ∈ cs, c < n then some (.fin (a + (cs.map fun c => y c - expitOf T (v c)).sum),
        .fin (b + (cs.map fun c => expitOf T (v c) * (1 - expitOf T (v c))).sum)) else none := by
    intro cs
    induction cs with
    | nil => intro a b; simp
    | cons c cs ih =>
      intro a b
      rw [List.foldlM_cons]
      by_cases hc : c < n
      · have h1 : (classState T fr fa fp n y v lr prior pos).res.numData[c]? = some (.fin (y c - expitOf T (v c))) :=
          finList_get _ hc
        have h2 : (classState T fr fa fp n y v lr prior pos).actual.numData[c]? = some (.fin (y c)) := finList_get _ hc
        have h3 : (XF.fin b + (XF.fin (y c) - XF.fin (y c - expitOf T (v c))) * (XF.fin 1 - XF.fin (y c) + XF.fin (y c - expitOf T (v c))) :
            XF K) = .fin (b + expitOf T (v c) * (1 - expitOf T (v c))) := by
          show XF.fin _ = XF.fin _
          congr 1
          ring
        have h4 : (XF.fin a + XF.fin (y c - expitOf T (v c)) : XF K) = .fin (a + (y c - expitOf T (v c))) := rfl
        rw [h1, h2]
        simp only [Option.bind_eq_bind, Option.bind_some, h3, h4] at ih ⊢
        rw [ih]
        simp only [List.mem_cons, forall_eq_or_imp, hc, true_and, List.map_cons, List.sum_cons, add_assoc]
      · have h1 : (classState T fr fa fp n y v lr prior pos).res.numData[c]? = none := by
          show (finList n _)[c]? = none
          unfold finList
          rw [List.getElem?_eq_none]
          simpa using hc
        rw [h1, if_neg (fun h => hc (h c (by simp)))]
        rfl
  unfold ClassBoost.predicted
  have := key cs 0 0
  simp only [Option.bind_eq_bind, zero_add] at this ⊢
  rw [this]
  by_cases h : ∀ c ∈ cs, c < n
  · simp only [if_pos h, Option.bind_some]
  · simp only [if_neg h, Option.bind_none]

theorem classFind_perm (nt : NumText K) (T : K → K) (fr fa fp : NumFeature K) (n : Nat) (y v : Nat → K) (lr : K) (prior : XF K)
    (pos : String) {cs cs' : List Nat} (h : cs'.Perm cs) :
    ((classState T fr fa fp n y v lr prior pos).findPredicted nt cs').getD "" =
      ((classState T fr fa fp n y v lr prior pos).findPredicted nt cs).getD "" := by
  unfold ClassBoost.findPredicted
  rw [classPredicted_eq, classPredicted_eq, (h.map _).sum_eq, (h.map _).sum_eq]
  simp only [h.mem_iff]

/-- What the log odds say of the other class. -/
theorem expitOf_neg {T : K → K} (hodd : ∀ x, T (-x) = -T x) (x : K) : expitOf T (-x) = 1 - expitOf T x := by
  unfold expitOf
  rw [mul_neg, hodd]
  ring

theorem classFind_neg (nt : NumText K) {T : K → K} (hodd : ∀ x, T (-x) = -T x) (fr fa fp fr' fa' fp' : NumFeature K) (n : Nat)
    (y v : Nat → K) (lr lr' : K) (prior prior' : XF K) (pos pos' : String) (cs : List Nat) :
    let p := ((classState T fr fa fp n y v lr prior pos).findPredicted nt cs).getD ""
    let p' := ((classState T fr' fa' fp' n (fun i => 1 - y i) (fun i => -v i) lr' prior' pos').findPredicted nt cs).getD ""
    NegatedText nt p p' ∨ p = "" ∧ p' = "" := by
  simp only [ClassBoost.findPredicted, classPredicted_eq]
  by_cases h : ∀ c ∈ cs, c < n
  · simp only [if_pos h, Option.map_some, Option.getD_some]
    refine .inl ⟨_, rfl, ?_⟩
    rw [← neg_fin_div]
    have e1 : (cs.map fun c => 1 - y c - expitOf T (-v c)).sum = -(cs.map fun c => y c - expitOf T (v c)).sum := by
      rw [List.sum_neg, List.map_map]
      congr 1
      refine List.map_congr_left fun c _ => ?_
      rw [expitOf_neg hodd]
      simp only [Function.comp]
      ring
    have e2 : (cs.map fun c => expitOf T (-v c) * (1 - expitOf T (-v c))).sum =
        (cs.map fun c => expitOf T (v c) * (1 - expitOf T (v c))).sum := by
      congr 1
      refine List.map_congr_left fun c _ => ?_
      rw [expitOf_neg hodd]
      ring
    rw [e1, e2]
  · simp only [if_neg h, Option.map_none, Option.getD_none]
    exact .inr ⟨trivial, trivial⟩

/-! ## Impurities do not see the sign -/

theorem negated_sseX {f f' : NumFeature K} {cs : List Nat} (h : ∀ c ∈ cs, f'.value c = -f.value c) : sseX f' cs = sseX f cs := by
  by_cases hne : cs = []
  · subst hne
    rfl
  have e : cs.map f'.value = (cs.map f.value).map (- ·) := by
    rw [List.map_map]
    exact List.map_congr_left h
  have hm : f'.meanOf cs = -f.meanOf cs := by
    unfold NumFeature.meanOf
    rw [e, ← List.sum_neg, neg_div]
  rw [sseX_eq _ _ hne, sseX_eq _ _ hne]
  congr 1
  unfold NumFeature.sse
  congr 1
  refine List.map_congr_left fun c hc => ?_
  rw [h c hc, hm]
  ring

theorem negated_fScore {f f' : NumFeature K} {l r : List Nat} (h : ∀ c ∈ l ++ r, f'.value c = -f.value c) :
    fScore f' l r = fScore f l r := by
  have key : ∀ cs : List Nat, (∀ c ∈ cs, f'.value c = -f.value c) → (cs.map f'.value).sum = -(cs.map f.value).sum := by
    intro cs hcs
    rw [List.sum_neg, List.map_map]
    congr 1
    exact List.map_congr_left hcs
  unfold fScore
  rw [key l fun c hc => h c (List.mem_append_left _ hc), key r fun c hc => h c (List.mem_append_right _ hc)]
  have sq : ∀ a b : XF K, (-a - -b) * (-a - -b) = (a - b) * (a - b) := by
    intro a b
    have e : -a - -b = -(a - b) := by
      cases a <;> cases b <;> try rfl
      show XF.fin _ = XF.fin _
      congr 1
      ring
    rw [e]
    generalize a - b = d
    cases d <;> try rfl
    show XF.fin _ = XF.fin _
    congr 1
    ring
  simp only [XF.ofNat, neg_fin_div]
  rw [sq]

theorem negated_agrees {f f' : NumFeature K} {all : List Nat} (hf : f.Finite all) (hf' : f'.Finite all)
    (h : ∀ c ∈ all, f'.value c = -f.value c) : (gradLaws f all hf).Agrees (gradLaws f' all hf') where
  I l hl := by
    show (if sseX f' l ≤ minImp then sseX f' l else _) = (if sseX f l ≤ minImp then sseX f l else _)
    rw [negated_sseX fun c hc => h c (hl c hc)]
  S l r hl := negated_fScore fun c hc => h c (hl c hc)

/-! ## One tree -/

/-- Every leaf that some case reaches predicts from cases of the bag, at least one. -/
theorem leaf_cases {fm : FeatureMatrix K} {T : Target K} {C : Contrast K τ} {good : τ → Prop} {o : SplitOpts} {all cases : List Nat}
    (hM : MatrixOk fm all) (hc : ∀ c ∈ cases, c ∈ all) {L : TargetLaws T all} {st st' : SplitState K}
    (hS : SplitSetting L fm C good o st.cans st.oob) (hok : L.Ok st.allocs) {fp : List Nat → String} {maxDepth : Int} {fuel : Nat}
    {root : Node K} (h : grow (treeGrower fm T C o fp maxDepth false) fm fuel .fresh st cases 0 0 = some (root, st')) (hne : cases ≠ []) :
    Usable fm all root ∧ StateOk L fm st.cans st.oob st' ∧
      ∀ c x, landing fm root c = some x → ∃ S : List Nat, S ≠ [] ∧ (∀ d ∈ S, d ∈ cases) ∧ x.2 = fp S := by
  obtain ⟨a1, a2, -⟩ := treeGrower_searchOk (fp := fp) (md := maxDepth) (sm := false) hS
  have hP : StateOk L fm st.cans st.oob st := ⟨hok, List.Perm.refl _, List.Perm.refl _⟩
  obtain ⟨hP', hg⟩ := grow_grown hM a1 fuel 0 "" st cases 0 0 root st' hP (Nat.zero_le _) hc h
  have hg := hg false
  refine ⟨(hg.usable hM).resolve_left hg.not_nil, hP', fun c y hy => ?_⟩
  have hleaf := landing_in_leaves hy
  rcases hg.leaves y hleaf with ⟨S, hS1, hp⟩ | ⟨h1, -⟩
  · refine ⟨S, ?_, fun d hd => (List.mem_filter.1 (hS1.mem_iff.1 hd)).1, hp⟩
    have key : ∃ d ∈ cases, landing fm root d = some y := by
      rcases List.eq_nil_or_concat y.1 with h0 | ⟨q, d, h0⟩
      · obtain ⟨d, hd⟩ := List.exists_mem_of_ne_nil _ hne
        refine ⟨d, hd, reaches_landing hleaf ?_⟩
        rw [h0]
        cases hroot : root with
        | nil => rw [hroot] at hg; exact absurd rfl hg.not_nil
        | mk => rfl
      · have hMi := leaf_path (grow_noMissing (g := treeGrower fm T C o fp maxDepth false) rfl _ 0 "" _ _ 0 0 _ _ h) hleaf
        have hlim := (c09_limits (hM.mono hc) (a1.mono hc) (a2.mono hc) hP (Nat.zero_le _) h).1 q d
          (by rintro rfl; rw [h0] at hMi; simp at hMi) (by
            have := leaf_subtree hleaf
            rw [h0] at this
            simpa using this)
        have h1 : 1 ≤ o.leafSize := hS.leafSize
        obtain ⟨d', hd'⟩ := List.exists_mem_of_length_pos (Nat.lt_of_lt_of_le h1 hlim)
        obtain ⟨hd1, hd2⟩ := List.mem_filter.1 hd'
        refine ⟨d', hd1, reaches_landing hleaf ?_⟩
        rw [h0]
        simpa using hd2
    obtain ⟨d, hd, e⟩ := key
    exact List.ne_nil_of_mem (hS1.mem_iff.2 (List.mem_filter.2 ⟨hd, by rw [e]; simp⟩))
  · cases h1

theorem NegatedText.val {nt : NumText K} (hnt : ∀ x, nt.parse (nt.fmt x) = some x) {p p' : String} (h : NegatedText nt p p') :
    predVal (fun p => nt.parse p.toList) p' = -predVal (fun p => nt.parse p.toList) p := by
  obtain ⟨x, rfl, rfl⟩ := h
  unfold predVal
  simp only [String.toList_ofList, hnt]
  cases x with
  | fin x => rfl
  | _ => simp [Neg.neg, XF.neg]

theorem SameQuestions.value_neg {nt : NumText K} (hnt : ∀ x, nt.parse (nt.fmt x) = some x) (h0 : nt.parse [] = none) {t t' : Tree K}
    (h : SameQuestions (NegatedText nt) t.root t'.root) (fm : FeatureMatrix K) (c : Nat) :
    treeValue (fun p => nt.parse p.toList) fm t' c = -treeValue (fun p => nt.parse p.toList) fm t c := by
  have := h.landing fm c
  unfold treeValue
  revert this
  cases CloudForest.landing fm t.root c <;> cases CloudForest.landing fm t'.root c <;> simp
  rintro - (h | ⟨h1, h2⟩)
  · exact h.val hnt
  · rw [h1, h2]
    simp [predVal, h0]

theorem opposite_sum {nt : NumText K} (hnt : ∀ x, nt.parse (nt.fmt x) = some x) (h0 : nt.parse [] = none) (fm : FeatureMatrix K) (q lr : K)
    {ts ts' : List (Tree K)} (h : Opposite nt ts ts') (c : Nat) :
    boostedSum nt fm (-q) lr ts' c = -boostedSum nt fm q lr ts c := by
  have : (ts'.map fun t => treeValue (fun p => nt.parse p.toList) fm t c).sum =
      -(ts.map fun t => treeValue (fun p => nt.parse p.toList) fm t c).sum := by
    induction h with
    | nil => simp
    | cons h _ ih =>
      rw [List.map_cons, List.sum_cons, List.map_cons, List.sum_cons, ih, h.1.value_neg hnt h0]
      ring
  unfold boostedSum
  rw [this]
  ring

theorem probabilityOf_neg {T : K → K} (hodd : ∀ x, T (-x) = -T x) (x : K) : probabilityOf T (-x) = 1 - probabilityOf T x := by
  rw [← probabilityOf_eq, expitOf_neg hodd, probabilityOf_eq]

/-! ## All trees -/

theorem classTree_step {b : BoostSetup K τ} {nt : NumText K} (hnt : ∀ x, nt.parse (nt.fmt x) = some x) {fm : FeatureMatrix K} {n : Nat}
    (hc : fm.allCases = some (List.range n)) (hM : MatrixOk fm (List.range n)) (hfeat : ∀ F ∈ fm.data, FeatOk F (List.range n))
    (hvet : b.o.vet = false) (hoob : b.o.evaloob = false) (hleaf : 1 ≤ b.o.leafSize) (hsm : b.splitmissing = false)
    {tanh : XF K → XF K} {T : K → K} (hT : ∀ x, tanh (.fin x) = .fin (T x)) (hT1 : ∀ x, -1 < T x ∧ T x < 1) (fr fa fp : NumFeature K)
    (y v : Nat → K) (lr : K) (prior : XF K) (pos : String) {st : SplitState K} (hexist : ∀ i ∈ st.cans, i < fm.data.length)
    (hmTry : b.o.mTry ≤ st.cans.length) (hst : ∀ c ∈ st.oob, c < n) {bag : List Nat} (hbag : ∀ c ∈ bag, c < n) (hne : bag ≠ [])
    {root : Node K} {st1 : SplitState K}
    (h : grow (treeGrower fm (gradTarget (classState T fr fa fp n y v lr prior pos).res) (b.C (classState T fr fa fp n y v lr prior pos).res) b.o
      (fun S => ((classState T fr fa fp n y v lr prior pos).findPredicted nt S).getD "") b.maxDepth b.splitmissing) fm (bag.length + 1)
      .fresh st bag 0 0 = some (root, st1)) :
    st1.cans.Perm st.cans ∧ st1.oob.Perm st.oob ∧ ∃ groups preds,
      (Tree.mk root b.target (.fin (-1))).partition fm = some (groups, preds) ∧
      (classState T fr fa fp n y v lr prior pos).boost tanh (fun p => nt.parse p.toList) groups preds = some (classState T fr fa fp n y
        (fun i => v i + lr * treeValue (fun p => nt.parse p.toList) fm ⟨root, b.target, .fin (-1)⟩ i) lr prior pos, .fin lr) := by
  have hfin : (classState T fr fa fp n y v lr prior pos).res.Finite (List.range n) :=
    fun c hcc => ⟨_, finList_get _ (List.mem_range.1 hcc)⟩
  have hS : SplitSetting (gradLaws _ (List.range n) hfin) fm (b.C (classState T fr fa fp n y v lr prior pos).res) (fun _ => True) b.o
      st.cans st.oob :=
    ⟨hfeat, fun h => by (rw [hoob] at h; cases h), fun h => by (rw [hvet] at h; cases h), trivial, hleaf, hexist, hmTry,
      fun c hcc => List.mem_range.2 (hst c hcc)⟩
  rw [hsm] at h
  obtain ⟨hu, hP, hl⟩ := leaf_cases hM (fun c hcc => List.mem_range.2 (hbag c hcc)) hS trivial h hne
  have hpr : prune root = root := prune_grown h
  have hfor : (Tree.mk root b.target (.fin (-1))).FiniteFor (fun p => nt.parse p.toList) fm n := by
    intro i hi x hx z hz
    obtain ⟨S, h1, h2, h3⟩ := hl i x hx
    rw [classFind_eq hT1 nt fr fa fp y v lr prior pos (fun d hd => hbag d (h2 d hd)) h1] at h3
    simp only [h3, Option.getD_some, String.toList_ofList, hnt] at hz
    exact ⟨_, (Option.some.inj hz).symm⟩
  obtain ⟨groups, preds, v', h1, h2, h3⟩ := classRound_reused hT (fun p => nt.parse p.toList) fm n fr fa fp y v lr prior pos
    ⟨root, b.target, .fin (-1)⟩ hc (by simpa only [hpr] using hu) (by simpa only [hpr] using hfor)
  refine ⟨hP.cans_, hP.oob_, groups, preds, h1, ?_⟩
  rw [h2]
  congr 3
  funext i
  exact h3 hpr i

theorem classTrees_opposite {b : BoostSetup K τ} {nt : NumText K} (hnt : ∀ x, nt.parse (nt.fmt x) = some x) (h0 : nt.parse [] = none)
    {fm : FeatureMatrix K} {n : Nat} (hc : fm.allCases = some (List.range n)) (hM : MatrixOk fm (List.range n))
    (hfeat : ∀ F ∈ fm.data, FeatOk F (List.range n)) (hvet : b.o.vet = false) (hoob : b.o.evaloob = false) (hleaf : 1 ≤ b.o.leafSize)
    (hsm : b.splitmissing = false) {tanh : XF K → XF K} {T : K → K} (hT : ∀ x, tanh (.fin x) = .fin (T x))
    (hT1 : ∀ x, -1 < T x ∧ T x < 1) (hodd : ∀ x, T (-x) = -T x) (fr fa fp fr' fa' fp' : NumFeature K) (y : Nat → K) (lr : K)
    (prior prior' : XF K) (pos pos' : String) : ∀ (bags : List (List Nat)) (v : Nat → K) (st st' : SplitState K),
      (∀ bag ∈ bags, bag ≠ [] ∧ ∀ c ∈ bag, c < n) → (∀ i ∈ st.cans, i < fm.data.length) → b.o.mTry ≤ st.cans.length →
      (∀ c ∈ st.oob, c < n) → (∀ c ∈ st'.oob, c < n) → st'.rng = st.rng → st'.cans = st.cans →
      ∃ ts ts', b.classTrees nt tanh fm (classState T fr fa fp n y v lr prior pos) st bags = some ts ∧
        b.classTrees nt tanh fm (classState T fr' fa' fp' n (fun i => 1 - y i) (fun i => -v i) lr prior' pos') st' bags = some ts' ∧
        Opposite nt ts ts' ∧ ∀ t ∈ ts, t.weight = .fin lr := by
  intro bags
  induction bags with
  | nil => exact fun v st st' _ _ _ _ _ _ _ => ⟨[], [], rfl, rfl, .nil, by simp⟩
  | cons bag bags ih =>
    intro v st st' hbags hexist hmTry ho ho' hrng hcans
    obtain ⟨hne, hbag⟩ := hbags bag (by simp)
    obtain ⟨g, hg⟩ : ∃ g, g = classState T fr fa fp n y v lr prior pos := ⟨_, rfl⟩
    obtain ⟨g', hg'⟩ : ∃ g', g' = classState T fr' fa' fp' n (fun i => 1 - y i) (fun i => -v i) lr prior' pos' := ⟨_, rfl⟩
    have hfin : g.res.Finite (List.range n) := fun c hcc => ⟨_, by rw [hg]; exact finList_get _ (List.mem_range.1 hcc)⟩
    have hfin' : g'.res.Finite (List.range n) := fun c hcc => ⟨_, by rw [hg']; exact finList_get _ (List.mem_range.1 hcc)⟩
    have hneg : ∀ c ∈ List.range n, g'.res.value c = -g.res.value c := by
      intro c hcc
      have hcc := List.mem_range.1 hcc
      unfold NumFeature.value
      rw [hg, hg', show (classState T fr fa fp n y v lr prior pos).res.numData[c]? = some (.fin (y c - expitOf T (v c))) from
          finList_get _ hcc,
        show (classState T fr' fa' fp' n (fun i => 1 - y i) (fun i => -v i) lr prior' pos').res.numData[c]? =
          some (.fin (1 - y c - expitOf T (-v c))) from finList_get _ hcc, expitOf_neg hodd]
      simp only
      ring
    have hS : SplitSetting (gradLaws g.res (List.range n) hfin) fm (b.C g.res) (fun _ => True) b.o st.cans st.oob :=
      ⟨hfeat, fun h => by (rw [hoob] at h; cases h), fun h => by (rw [hvet] at h; cases h), trivial, hleaf, hexist, hmTry,
        fun c hcc => List.mem_range.2 (ho c hcc)⟩
    have hS' : SplitSetting (gradLaws g'.res (List.range n) hfin') fm (b.C g'.res) (fun _ => True) b.o st'.cans st'.oob :=
      ⟨hfeat, fun h => by (rw [hoob] at h; cases h), fun h => by (rw [hvet] at h; cases h), trivial, hleaf, by rw [hcans]; exact hexist,
        by rw [hcans]; exact hmTry, fun c hcc => List.mem_range.2 (ho' c hcc)⟩
    obtain ⟨root, root', st1, st1', hgrow, hq, hr1, hc1⟩ := grow_same_questions_next hM hM (fun c hcc => List.mem_range.2 (hbag c hcc))
      (negated_agrees hfin hfin' hneg) hS hS' trivial trivial hrng hcans hvet hoob (fun _ _ => rfl)
      (fp := fun S => (g.findPredicted nt S).getD "") (fp' := fun S => (g'.findPredicted nt S).getD "") (R := NegatedText nt)
      (fun cs cs' hp _ => by rw [hg]; exact classFind_perm nt T fr fa fp n y v lr prior pos hp)
      (fun cs => by rw [hg, hg']; exact classFind_neg nt hodd fr fa fp fr' fa' fp' n y v lr lr prior prior' pos pos' cs)
      b.maxDepth b.splitmissing
    obtain ⟨e, e'⟩ := hgrow (bag.length + 1) (Nat.lt_succ_self _)
    have e1 := e
    have e1' := e'
    rw [hg] at e1
    rw [hg'] at e1'
    obtain ⟨p1, p2, gr, pr, hpart, hboost⟩ := classTree_step hnt hc hM hfeat hvet hoob hleaf hsm hT hT1 fr fa fp y v lr prior pos hexist hmTry
      ho hbag hne e1
    obtain ⟨p1', p2', gr', pr', hpart', hboost'⟩ := classTree_step hnt hc hM hfeat hvet hoob hleaf hsm hT hT1 fr' fa' fp'
      (fun i => 1 - y i) (fun i => -v i) lr prior' pos' (by rw [hcans]; exact hexist) (by rw [hcans]; exact hmTry) ho' hbag hne e1'
    have hv : (fun i => -v i + lr * treeValue (fun p => nt.parse p.toList) fm ⟨root', b.target, .fin (-1)⟩ i) =
        fun i => -(v i + lr * treeValue (fun p => nt.parse p.toList) fm ⟨root, b.target, .fin (-1)⟩ i) := by
      funext i
      rw [SameQuestions.value_neg hnt h0 (t := ⟨root, b.target, .fin (-1)⟩) (t' := ⟨root', b.target, .fin (-1)⟩) hq fm i]
      ring
    rw [hv] at hboost'
    obtain ⟨ts, ts', i1, i2, i3, i4⟩ := ih (fun i => v i + lr * treeValue (fun p => nt.parse p.toList) fm ⟨root, b.target, .fin (-1)⟩ i)
      st1 st1' (fun bg hb => hbags bg (by simp [hb])) (fun i hi => hexist i (p1.mem_iff.1 hi)) (by rw [p1.length_eq]; exact hmTry)
      (fun c hcc => ho c (p2.mem_iff.1 hcc)) (fun c hcc => ho' c (p2'.mem_iff.1 hcc)) hr1 hc1
    refine ⟨⟨root, b.target, .fin lr⟩ :: ts, ⟨root', b.target, .fin lr⟩ :: ts', ?_, ?_, .cons ⟨hq, rfl⟩ i3, ?_⟩
    · rw [BoostSetup.classTrees, e1]
      simp only [Option.bind_eq_bind, Option.bind_some, hpart, hboost, i1]
    · rw [BoostSetup.classTrees, e1']
      simp only [Option.bind_eq_bind, Option.bind_some, hpart', hboost', i2]
    · intro t ht
      rcases List.mem_cons.1 ht with rfl | ht
      · rfl
      · exact i4 t ht

theorem hot_other {pos neg : String} {lab : Nat → String} {n : Nat} (hlab : ∀ i < n, lab i = pos ∨ lab i = neg) (hne : pos ≠ neg) {i : Nat}
    (hi : i < n) : (hot neg lab i : K) = 1 - hot pos lab i := by
  unfold hot
  rcases hlab i hi with h | h
  · rw [h, if_neg hne, if_pos rfl]; ring
  · rw [h, if_neg hne.symm, if_pos rfl]; ring

theorem hotCount_other {pos neg : String} {lab : Nat → String} {n : Nat} (hlab : ∀ i < n, lab i = pos ∨ lab i = neg) (hne : pos ≠ neg) :
    hotCount pos lab n + hotCount neg lab n = n := by
  unfold hotCount
  have : ∀ l : List Nat, (∀ i ∈ l, i < n) → (l.countP fun i => lab i = pos) + (l.countP fun i => lab i = neg) = l.length := by
    intro l
    induction l with
    | nil => simp
    | cons i l ih =>
      intro h
      have := ih fun j hj => h j (by simp [hj])
      rcases hlab i (h i (by simp)) with e | e
      · simp [e, hne]; omega
      · simp [e, hne.symm]; omega
  simpa using this (List.range n) fun i => List.mem_range.1

theorem hotCount_pos {pos : String} {lab : Nat → String} {n i : Nat} (hi : i < n) (h : lab i = pos) : 0 < hotCount pos lab n := by
  unfold hotCount
  exact List.countP_pos_iff.2 ⟨i, List.mem_range.2 hi, by simpa using h⟩

theorem labels_cleared {f : CatFeature} {n : Nat} (hm : f.missing.length = n) {lab : Nat → String} (hf : f.Labels n lab) :
    { f with missing := List.replicate n false } = f := by
  have hrep : f.missing = List.replicate n false := by
    apply List.ext_getElem?
    intro j
    by_cases hj : j < n
    · rw [(hf j hj).1, List.getElem?_replicate, if_pos hj]
    · rw [List.getElem?_eq_none (by omega), List.getElem?_eq_none (by simp; omega)]
  rw [← hrep]

theorem classState_congr {T : K → K} {fr fa fp : NumFeature K} {n : Nat} {y y' v v' : Nat → K} (lr : K) (prior : XF K) (pos : String)
    (hy : ∀ i < n, y i = y' i) (hv : ∀ i < n, v i = v' i) :
    classState T fr fa fp n y v lr prior pos = classState T fr fa fp n y' v' lr prior pos := by
  unfold classState withValues
  congr 2
  · exact finList_congr fun i hi => by rw [hy i hi, hv i hi]
  · exact finList_congr hy
  · exact finList_congr hv

/-- **C157, what holds.** If every case has one of two classes, boosting with one of them as the positive class and boosting with
the other give forests that say the opposite: both runs end, the priors and the numbers in corresponding leaves differ in sign only,
the questions are the same, and for any data the probability that the one forest gives for the one class and the one that the other
forest gives for the other class add up to one. Missing: cases without a class, see `c157_missing`, and double precision. -/
theorem c157_positive_partial {b : BoostSetup K τ} {nt : NumText K} (hnt : ∀ x, nt.parse (nt.fmt x) = some x) (h0 : nt.parse [] = none)
    {fm : FeatureMatrix K} {n : Nat} (hc : fm.allCases = some (List.range n)) (hM : MatrixOk fm (List.range n))
    (hfeat : ∀ F ∈ fm.data, FeatOk F (List.range n)) (hvet : b.o.vet = false) (hoob : b.o.evaloob = false) (hleaf : 1 ≤ b.o.leafSize)
    (hsm : b.splitmissing = false) {tanh log : XF K → XF K} {T L : K → K} (hT : ∀ x, tanh (.fin x) = .fin (T x))
    (hT1 : ∀ x, -1 < T x ∧ T x < 1) (hodd : ∀ x, T (-x) = -T x) (hL : ∀ x, 0 < x → log (.fin x) = .fin (L x))
    (hinv : ∀ x, 0 < x → L x⁻¹ = -L x) {f : CatFeature} (hti : fm.data[b.ti]? = some (.cat f)) (hm : f.missing.length = n)
    (hd : f.catData.length = n) {lab : Nat → String} (hf : f.Labels n lab) {pos neg : String} (hlab : ∀ i < n, lab i = pos ∨ lab i = neg)
    (hne : pos ≠ neg) (hpos : ∃ i < n, lab i = pos) (hneg : ∃ i < n, lab i = neg) (lr : K) {st : SplitState K}
    (hexist : ∀ i ∈ st.cans, i < fm.data.length) (hmTry : b.o.mTry ≤ st.cans.length) (hst : ∀ c ∈ st.oob, c < n) {bags : List (List Nat)}
    (hbags : ∀ bag ∈ bags, bag ≠ [] ∧ ∀ c ∈ bag, c < n) :
    ∃ (q : K) (ts ts' : List (Tree K)), b.classRun nt tanh log fm (.fin lr) pos st bags = some (.fin q, ts) ∧
      b.classRun nt tanh log fm (.fin lr) neg st bags = some (.fin (-q), ts') ∧ Opposite nt ts ts' ∧
      ∀ (other : FeatureMatrix K) (c : Nat), boostedSum nt other (-q) lr ts' c = -boostedSum nt other q lr ts c ∧
        probabilityOf T (boostedSum nt other (-q) lr ts' c) = 1 - probabilityOf T (boostedSum nt other q lr ts c) := by
  obtain ⟨i, hi, hip⟩ := hpos
  obtain ⟨j, hj, hjn⟩ := hneg
  have hp := hotCount_pos hi hip
  have hq := hotCount_pos hj hjn
  have hsum := hotCount_other hlab hne
  obtain ⟨fr, fa, fp, e1⟩ := newClassBoost_eq hT hL f lr pos hm hd lab hf hp (by omega)
  obtain ⟨fr', fa', fp', e2⟩ := newClassBoost_eq hT hL f lr neg hm hd lab hf hq (by omega)
  have hset : fm.data.set b.ti (.cat f) = fm.data := by
    obtain ⟨hlt, he⟩ := List.getElem?_eq_some_iff.1 hti
    rw [← he, List.set_getElem_self]
  rw [labels_cleared hm hf] at e1 e2
  have hn : (n : K) = hotCount pos lab n + hotCount neg lab n := by
    rw [← Nat.cast_add, hsum]
  have hpr : L ((hotCount neg lab n : K) / ((n : K) - hotCount neg lab n)) =
      -L ((hotCount pos lab n : K) / ((n : K) - hotCount pos lab n)) := by
    rw [← hinv _ (div_pos (Nat.cast_pos.2 hp) (by rw [hn, add_sub_cancel_left]; exact Nat.cast_pos.2 hq)), hn, add_sub_cancel_left,
      add_sub_cancel_right, inv_div]
  rw [hpr] at e2
  generalize L ((hotCount pos lab n : K) / ((n : K) - hotCount pos lab n)) = q at e1 e2
  obtain ⟨ts, ts', t1, t2, t3, -⟩ := classTrees_opposite hnt h0 hc hM hfeat hvet hoob hleaf hsm hT hT1 hodd fr fa fp fr' fa' fp'
    (hot pos lab) lr (.fin q) (.fin (-q)) pos neg bags (fun _ => q) st st hbags hexist hmTry hst hst rfl rfl
  rw [← classState_congr lr (.fin (-q)) neg (fun i hi => hot_other hlab hne hi) (fun _ _ => rfl)] at t2
  refine ⟨q, ts, ts', ?_, ?_, t3, fun other c => ?_⟩
  · unfold BoostSetup.classRun
    simp only [hti, Option.bind_eq_bind, Option.bind_some, e1, hset, t1]
    rfl
  · unfold BoostSetup.classRun
    simp only [hti, Option.bind_eq_bind, Option.bind_some, e2, hset, t2]
    rfl
  · have h := opposite_sum hnt h0 other q lr t3 c
    exact ⟨h, by rw [h, probabilityOf_neg hodd]⟩

/-! ## Examples, and where it is false -/

/-- A function in place of the logarithm that changes its sign when its argument is turned over. -/
def exOdds : XF ℚ → XF ℚ
  | .fin x => .fin ((x - 1) / (x + 1))
  | _ => .nan

/-- Classes of five cases. -/
def exTwoClasses (missing : List Bool) : CatFeature :=
  ⟨⟨fun s => if s = "no" then some 0 else if s = "yes" then some 1 else none, ["no", "yes"]⟩, [0, 0, 0, 1, 1], missing, "C:y", false, false⟩

/-- A matrix of classes and two features. -/
def exTwoFM (missing : List Bool) : FeatureMatrix ℚ :=
  ⟨[.cat (exTwoClasses missing), .num ⟨[0, 1, 2, 3, 4].map .fin, List.replicate 5 false, "N:a", false⟩,
      .num ⟨[1, 3, 0, 2, 2].map .fin, List.replicate 5 false, "N:b", false⟩],
    fun s => if s = "C:y" then some 0 else if s = "N:a" then some 1 else if s = "N:b" then some 2 else none, []⟩

/-- The log odds of the positive class `pos` after boosting with two trees. -/
def exTwoSums (missing : List Bool) (pos : String) : Option (List ℚ) :=
  ((exBoostSetup 1 1).classRun exStrokes exSquash exOdds (exTwoFM missing) (.fin (1 / 2)) pos ⟨exWork.allocs, fun k => k, [1, 2], []⟩
    [[0, 1, 2, 3, 4], [4, 1, 0, 1, 3]]).bind fun r => match r.1 with
      | .fin q => some ((List.range 5).map (boostedSum exStrokes (exTwoFM missing) q (1 / 2) r.2))
      | _ => none

theorem exTwoFM_feats : ∀ F ∈ (exTwoFM (List.replicate 5 false)).data, FeatOk F (List.range 5) := by
  intro F hF
  simp only [exTwoFM, List.mem_cons, List.not_mem_nil, or_false] at hF
  rcases hF with rfl | rfl | rfl
  · refine ⟨fun c hc => ?_, fun c hc => ?_, fun c hc => ?_⟩
    · have : c < 5 := List.mem_range.1 hc
      interval_cases c <;> exact ⟨by decide, by decide, by simp [exTwoClasses]⟩
    · exfalso
      match c, hc with
      | 0, hc | 1, hc | 2, hc | 3, hc | 4, hc => cases hc
      | c + 5, hc => cases hc
    · have : c < 5 := List.mem_range.1 (List.mem_of_mem_filter hc)
      interval_cases c <;> exact ⟨_, rfl, by decide⟩
  all_goals
    refine ⟨fun c hc => ?_, fun c hc => ?_, fun c hc => ?_⟩
    · fin_cases hc <;> exact ⟨by decide, by decide⟩
    · exfalso
      match c, hc with
      | 0, hc | 1, hc | 2, hc | 3, hc | 4, hc => cases hc
      | c + 5, hc => cases hc
    · have hc := List.mem_of_mem_filter hc
      fin_cases hc <;> exact ⟨_, rfl⟩

/-- The hypotheses of `c157_positive_partial` are met, with bags in which cases are missing or repeated. -/
example : ∃ (q : ℚ) (ts ts' : List (Tree ℚ)),
    (exBoostSetup 1 1).classRun exStrokes exSquash exOdds (exTwoFM (List.replicate 5 false)) (.fin (1 / 2)) "yes"
      ⟨exWork.allocs, fun k => k, [1, 2], []⟩ [[0, 1, 2, 3, 4], [4, 1, 0, 1, 3]] = some (.fin q, ts) ∧
    (exBoostSetup 1 1).classRun exStrokes exSquash exOdds (exTwoFM (List.replicate 5 false)) (.fin (1 / 2)) "no"
      ⟨exWork.allocs, fun k => k, [1, 2], []⟩ [[0, 1, 2, 3, 4], [4, 1, 0, 1, 3]] = some (.fin (-q), ts') ∧ Opposite exStrokes ts ts' := by
  have hfeat := exTwoFM_feats
  obtain ⟨q, ts, ts', h1, h2, h3, -⟩ := c157_positive_partial (b := exBoostSetup 1 1) (nt := exStrokes)
    (fun x => (exStrokes_faithful x).2) rfl (fm := exTwoFM (List.replicate 5 false)) (n := 5) rfl
    ⟨fun f hf => (hfeat f hf).valid, fun f hf => (hfeat f hf).sound, by
      intro f hf
      simp only [exTwoFM, List.mem_cons, List.not_mem_nil, or_false] at hf
      rcases hf with rfl | rfl | rfl
      · intro s n
        by_cases ha : s = "no"
        · subst ha
          rcases n with _ | _ | n <;> simp [exTwoClasses, List.findIdx?_cons]
        by_cases hb : s = "yes"
        · subst hb
          rcases n with _ | _ | n <;> simp [exTwoClasses, List.findIdx?_cons]
        have ha' : ¬ "no" = s := fun h => ha h.symm
        have hb' : ¬ "yes" = s := fun h => hb h.symm
        rcases n with _ | _ | n <;> simp [exTwoClasses, ha, hb, ha', hb']
      · trivial
      · trivial, by
      intro i f hf
      match i, hf with
      | 0, hf | 1, hf | 2, hf => cases hf; rfl
      | n + 3, hf => cases hf⟩ hfeat rfl rfl (by decide) rfl (tanh := exSquash) (log := exOdds)
    (T := fun x => if 0 < x then 1 / 2 else if x < 0 then -1 / 2 else 0) (L := fun x => (x - 1) / (x + 1)) (fun x => rfl)
    (by intro x; constructor <;> (split_ifs <;> norm_num))
    (by
      intro x
      rcases lt_trichotomy x 0 with h | h | h
      · simp [h, not_lt.2 h.le]; norm_num
      · subst h; simp
      · simp [h, not_lt.2 h.le]; norm_num)
    (fun x _ => rfl) (by intro x hx; have : (0 : ℚ) < x + 1 := by linarith
                         have : (0 : ℚ) < 1 + x := by linarith
                         field_simp
                         ring) (f := exTwoClasses (List.replicate 5 false)) rfl rfl rfl
    (lab := fun i => if i < 3 then "no" else "yes") (by
      intro i hi
      interval_cases i
      · exact ⟨rfl, 0, rfl, rfl⟩
      · exact ⟨rfl, 0, rfl, rfl⟩
      · exact ⟨rfl, 0, rfl, rfl⟩
      · exact ⟨rfl, 1, rfl, rfl⟩
      · exact ⟨rfl, 1, rfl, rfl⟩) (pos := "yes") (neg := "no") (by intro i hi; interval_cases i <;> simp) (by decide) ⟨3, by decide, rfl⟩
    ⟨0, by decide, rfl⟩ (1 / 2) (st := ⟨exWork.allocs, fun k => k, [1, 2], []⟩) (by decide) (by decide) nofun
    (bags := [[0, 1, 2, 3, 4], [4, 1, 0, 1, 3]]) (by decide)
  exact ⟨q, ts, ts', h1, h2, h3⟩

/-- And what comes out. -/
example : exTwoSums (List.replicate 5 false) "yes" = some [-23 / 15, -23 / 15, -23 / 15, 37 / 15, 37 / 15] ∧
    exTwoSums (List.replicate 5 false) "no" = some [23 / 15, 23 / 15, 23 / 15, -37 / 15, -37 / 15] := by decide +kernel

/-- **C157 is false of the code** when the class of a case is not known: such a case counts as one of the class that is not called
positive, whichever that is. Here the class of the first case is missing, and both forests are sure that it is not of their
positive class. -/
theorem c157_missing : exTwoSums [true, false, false, false, false] "yes" = some [-23 / 15, -23 / 15, -23 / 15, 37 / 15, 37 / 15] ∧
    exTwoSums [true, false, false, false, false] "no" = some [-23 / 15, 17 / 15, 37 / 15, -23 / 15, -23 / 15] := by decide +kernel

end CloudForest
