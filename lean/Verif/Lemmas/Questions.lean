import Verif.Spec.Questions
import Verif.Lemmas.Scratch
import Verif.Props.Units
import Verif.Props.Driver

/-! # Growing asks the same questions whatever is predicted -/

set_option linter.unusedSectionVars false

namespace CloudForest
variable {K : Type} [Field K] [LinearOrder K] [IsStrictOrderedRing K] {σ : Type}

theorem sameQuestions_leaf {R : String → String → Prop} (fi : Nat) {p p' : String} (h : R p p' ∨ p = "" ∧ p' = "") :
    SameQuestions R (.mk none fi .nil .nil .nil p none : Node K) (.mk none fi .nil .nil .nil p' none) :=
  ⟨rfl, rfl, rfl, h, rfl, rfl, rfl⟩

/-- What leaves predict has no influence on growing. -/
theorem grow_questions {g g' : Grower K σ} {fm : FeatureMatrix K} (h2 : g'.leafSize = g.leafSize)
    (h3 : g'.maxDepth = g.maxDepth) (h4 : g'.splitmissing = g.splitmissing) (hb : g'.best = g.best)
    {R : String → String → Prop}
    (hR : ∀ cs, R (g.findPredicted cs) (g'.findPredicted cs) ∨ g.findPredicted cs = "" ∧ g'.findPredicted cs = "") :
    ∀ (fuel : Nat) (st : σ) (cs : List Nat) (d nc : Nat) (a : Node K) (st' : σ),
      grow g fm fuel .fresh st cs d nc = some (a, st') →
      ∃ a', grow g' fm fuel .fresh st cs d nc = some (a', st') ∧ SameQuestions R a a' := by
  intro fuel
  induction fuel with
  | zero => exact fun st cs d nc a st' h => by simp [grow] at h
  | succ fuel ih =>
    intro st cs d nc a st' h
    rw [Node.fresh, grow] at h
    rw [Node.fresh, grow, h2, h3, h4, hb]
    by_cases hcond : ((d : Int) < g.maxDepth ∨ g.maxDepth ≤ 0) ∧ 2 * g.leafSize ≤ cs.length
    · rw [if_pos hcond] at h ⊢
      simp only [Option.bind_eq_bind] at h ⊢
      obtain ⟨⟨st1, res⟩, hbest, h⟩ := Option.bind_eq_some_iff.1 h
      rw [hbest]
      simp only [Option.bind_some] at h ⊢
      cases hsp : res.split with
      | none =>
        rw [hsp] at h
        cases h
        exact ⟨_, rfl, sameQuestions_leaf _ (hR _)⟩
      | some code =>
        rw [hsp] at h
        simp only at h ⊢
        obtain ⟨f, hf, h⟩ := Option.bind_eq_some_iff.1 h
        obtain ⟨spl, hd, h⟩ := Option.bind_eq_some_iff.1 h
        obtain ⟨⟨cs', li, ri⟩, hpt, h⟩ := Option.bind_eq_some_iff.1 h
        simp only at h
        obtain ⟨⟨nl, st2⟩, hl, h⟩ := Option.bind_eq_some_iff.1 h
        simp only at h
        obtain ⟨⟨nr, st3⟩, hr, h⟩ := Option.bind_eq_some_iff.1 h
        simp only at h
        have e1 : (growChildren g.splitmissing (.nil : Node K) .nil .nil).1 = .fresh := rfl
        have e2 : (growChildren g.splitmissing (.nil : Node K) .nil .nil).2.1 = .fresh := rfl
        rw [e1] at hl
        rw [e2] at hr
        obtain ⟨nl', hl', ql⟩ := ih _ _ _ _ _ _ hl
        obtain ⟨nr', hr', qr⟩ := ih _ _ _ _ _ _ hr
        simp only [hf, hd, hpt, Option.bind_some, e1, e2, hl', hr']
        split at h
        · rename_i hm
          rw [if_pos hm]
          have e3 : (growChildren g.splitmissing (.nil : Node K) .nil .nil).2.2 = .fresh := by
            have := hm.2
            revert this
            cases g.splitmissing
            · exact fun h => by cases h
            · exact fun _ => rfl
          obtain ⟨⟨nm, st4⟩, hm, h⟩ := Option.bind_eq_some_iff.1 h
          rw [e3] at hm
          obtain ⟨nm', hm', qm⟩ := ih _ _ _ _ _ _ hm
          cases h
          exact ⟨.mk (some code) res.fi nl' nr' nm' "" (some spl), by rw [e3, hm']; rfl, rfl, rfl, rfl, .inr ⟨rfl, rfl⟩, ql, qr, qm⟩
        · rename_i hm
          rw [if_neg hm]
          cases h
          refine ⟨_, rfl, rfl, rfl, rfl, .inr ⟨rfl, rfl⟩, ql, qr, ?_⟩
          cases g.splitmissing
          · exact rfl
          · exact sameQuestions_leaf _ (.inr ⟨rfl, rfl⟩)
    · rw [if_neg hcond] at h ⊢
      cases h
      exact ⟨_, rfl, sameQuestions_leaf _ (hR _)⟩

/-- Trees that ask the same questions take every case the same way. -/
theorem SameQuestions.landing {R : String → String → Prop} (fm : FeatureMatrix K) (c : Nat) {n : Node K} :
    ∀ {n' : Node K}, SameQuestions R n n' →
      match CloudForest.landing fm n c, CloudForest.landing fm n' c with
      | none, none => True
      | some x, some x' => x'.1 = x.1 ∧ (R x.2 x'.2 ∨ x.2 = "" ∧ x'.2 = "")
      | _, _ => False := by
  induction n with
  | nil =>
    intro n' h
    cases h
    trivial
  | mk code fi l r m pred spl ihl ihr ihm =>
    intro n' h
    cases n' with
    | nil => exact h.elim
    | mk code' fi' l' r' m' pred' spl' =>
      obtain ⟨rfl, rfl, rfl, hp, hl, hr, hm⟩ := h
      rw [CloudForest.landing, CloudForest.landing]
      by_cases hs : splits code' spl' = true
      · rw [if_pos hs, if_pos hs]
        cases caseDir fm code' fi' spl' c with
        | none => trivial
        | some d =>
          cases d with
          | L =>
            have := ihl hl
            revert this
            simp only
            cases CloudForest.landing fm l c <;> cases CloudForest.landing fm l' c <;> simp
          | R =>
            have := ihr hr
            revert this
            simp only
            cases CloudForest.landing fm r c <;> cases CloudForest.landing fm r' c <;> simp
          | M =>
            have := ihm hm
            revert this
            simp only
            cases CloudForest.landing fm m c <;> cases CloudForest.landing fm m' c <;> simp
      · rw [if_neg hs, if_neg hs]
        exact ⟨rfl, hp⟩

/-- The tree asks only about features of which `P` holds, and by their numbers. -/
def AsksOnly (P : Nat → Prop) : Node K → Prop
  | .nil => True
  | .mk code fi l r m _ spl => ((code ≠ none → P fi) ∧ (code = none → spl = none)) ∧ AsksOnly P l ∧ AsksOnly P r ∧ AsksOnly P m

theorem AsksOnly.mono {P Q : Nat → Prop} (hPQ : ∀ i, P i → Q i) : ∀ {n : Node K}, AsksOnly P n → AsksOnly Q n := by
  intro n
  induction n with
  | nil => exact fun _ => trivial
  | mk code fi l r m pred spl ihl ihr ihm =>
    exact fun h => ⟨⟨fun hn => hPQ _ (h.1.1 hn), h.1.2⟩, ihl h.2.1, ihr h.2.2.1, ihm h.2.2.2⟩

/-- Where a case ends depends only on the features a tree asks about. -/
theorem AsksOnly.landing {fm fm' : FeatureMatrix K} (c : Nat) : ∀ {n : Node K},
    AsksOnly (fun i => fm'.data[i]? = fm.data[i]?) n → CloudForest.landing fm' n c = CloudForest.landing fm n c := by
  intro n
  induction n with
  | nil => exact fun _ => rfl
  | mk code fi l r m pred spl ihl ihr ihm =>
    intro h
    have hd : splits code spl = true → caseDir fm' code fi spl c = caseDir fm code fi spl c := by
      intro hs
      cases code with
      | none => rw [h.1.2 rfl] at hs; cases hs
      | some code => unfold caseDir; rw [h.1.1 (Option.some_ne_none _)]
    rw [CloudForest.landing, CloudForest.landing]
    by_cases hs : splits code spl = true
    · rw [if_pos hs, if_pos hs, hd hs, ihl h.2.1, ihr h.2.2.1, ihm h.2.2.2]
    · rw [if_neg hs, if_neg hs]

theorem grow_asks {g : Grower K σ} {fm : FeatureMatrix K} {Q : σ → Prop} {P : Nat → Prop}
    (hb : ∀ st cs nc st' res, Q st → g.best st cs nc = some (st', res) → Q st' ∧ (res.split ≠ none → P res.fi)) :
    ∀ (fuel : Nat) (st : σ) (cs : List Nat) (d nc : Nat) (a : Node K) (st' : σ), Q st →
      grow g fm fuel .fresh st cs d nc = some (a, st') → Q st' ∧ AsksOnly P a := by
  have hleaf : ∀ fi p, AsksOnly P (.mk none fi .nil .nil .nil p none : Node K) := fun fi p =>
    ⟨⟨fun h => absurd rfl h, fun _ => rfl⟩, trivial, trivial, trivial⟩
  intro fuel
  induction fuel with
  | zero => exact fun st cs d nc a st' _ h => by simp [grow] at h
  | succ fuel ih =>
    intro st cs d nc a st' hQ h
    rw [Node.fresh, grow] at h
    split at h
    · simp only [Option.bind_eq_bind] at h
      obtain ⟨⟨st1, res⟩, hbest, h⟩ := Option.bind_eq_some_iff.1 h
      obtain ⟨hQ1, hP⟩ := hb _ _ _ _ _ hQ hbest
      simp only at h
      cases hsp : res.split with
      | none =>
        rw [hsp] at h
        cases h
        exact ⟨hQ1, hleaf _ _⟩
      | some code =>
        rw [hsp] at h
        simp only at h
        obtain ⟨f, hf, h⟩ := Option.bind_eq_some_iff.1 h
        obtain ⟨spl, hd, h⟩ := Option.bind_eq_some_iff.1 h
        obtain ⟨⟨cs', li, ri⟩, hpt, h⟩ := Option.bind_eq_some_iff.1 h
        simp only at h
        obtain ⟨⟨nl, st2⟩, hl, h⟩ := Option.bind_eq_some_iff.1 h
        simp only at h
        obtain ⟨⟨nr, st3⟩, hr, h⟩ := Option.bind_eq_some_iff.1 h
        simp only at h
        have e1 : (growChildren g.splitmissing (.nil : Node K) .nil .nil).1 = .fresh := rfl
        have e2 : (growChildren g.splitmissing (.nil : Node K) .nil .nil).2.1 = .fresh := rfl
        rw [e1] at hl
        rw [e2] at hr
        obtain ⟨hQ2, ql⟩ := ih _ _ _ _ _ _ hQ1 hl
        obtain ⟨hQ3, qr⟩ := ih _ _ _ _ _ _ hQ2 hr
        have hfi : P res.fi := hP (by rw [hsp]; exact Option.some_ne_none _)
        split at h
        · rename_i hm
          have e3 : (growChildren g.splitmissing (.nil : Node K) .nil .nil).2.2 = .fresh := by
            have := hm.2
            revert this
            cases g.splitmissing
            · exact fun h => by cases h
            · exact fun _ => rfl
          obtain ⟨⟨nm, st4⟩, hm, h⟩ := Option.bind_eq_some_iff.1 h
          rw [e3] at hm
          obtain ⟨hQ4, qm⟩ := ih _ _ _ _ _ _ hQ3 hm
          cases h
          exact ⟨hQ4, ⟨fun _ => hfi, fun h => by cases h⟩, ql, qr, qm⟩
        · cases h
          refine ⟨hQ3, ⟨fun _ => hfi, fun h => by cases h⟩, ql, qr, ?_⟩
          cases g.splitmissing
          · trivial
          · exact hleaf _ _
    · cases h
      exact ⟨hQ, hleaf _ _⟩

theorem treatAlike_same {fm fm' : FeatureMatrix K} {n : Node K} : ∀ {n' : Node K} {cs : List Nat},
    TreatAlike fm fm' n n' cs → AsksOnly (fun i => fm'.data[i]? = fm.data[i]?) n → n' = n := by
  induction n with
  | nil => exact fun h _ => h
  | mk code fi l r m pred spl ihl ihr ihm =>
    intro n' cs h hP
    cases code with
    | none => exact h.1
    | some code =>
      cases n' with
      | nil => exact h.elim
      | mk code' fi' l' r' m' pred' spl' =>
        cases code' with
        | none => exact h.elim
        | some code' =>
          obtain ⟨rfl, rfl, F, F', p, hF, hF', -, hs, -, h1, h2, h3⟩ := h
          obtain ⟨hp, p1, p2, p3⟩ := hP
          have e : fm'.data[fi']? = fm.data[fi']? := hp.1 (Option.some_ne_none _)
          rw [hF, hF'] at e
          cases e
          obtain ⟨rfl, rfl⟩ := hs rfl
          rw [ihl h1 p1, ihr h2 p2, ihm h3 p3]

/-- A grown tree asks about candidates. -/
theorem treeGrower_asks {τ : Type} {fm : FeatureMatrix K} {T : Target K} {C : Contrast K τ} {o : SplitOpts} {fp : List Nat → String}
    {maxDepth : Int} {splitmissing : Bool} {fuel : Nat} {st st1 : SplitState K} {cases : List Nat} {root : Node K}
    (h : grow (treeGrower fm T C o fp maxDepth splitmissing) fm fuel .fresh st cases 0 0 = some (root, st1)) :
    AsksOnly (· ∈ st.cans) root := (grow_asks (g := treeGrower fm T C o fp maxDepth splitmissing) (fm := fm)
    (Q := fun s : SplitState K => s.cans.Perm st.cans) (P := (· ∈ st.cans)) (by
      intro s cs nc s' res hP hb
      simp only [treeGrower, Option.bind_eq_bind] at hb
      obtain ⟨d, hd, hb⟩ := Option.bind_eq_some_iff.1 hb
      cases hb
      obtain ⟨k1, k2⟩ := bestSplitter_keeps hd
      exact ⟨k1.trans hP, fun hne => hP.mem_iff.1 (k2 hne)⟩) _ _ _ _ _ _ _ (List.Perm.refl _) h).2

/-- Targets with the same impurities, matrices with the same candidates: the same questions, and the same
random numbers and candidates for what follows. -/
theorem grow_same_questions_next {τ : Type} {fm fm' : FeatureMatrix K} {T T' : Target K} {C C' : Contrast K τ}
    {good good' : τ → Prop} {o : SplitOpts} {all cases : List Nat} (hM : MatrixOk fm all) (hM' : MatrixOk fm' all)
    (hc : ∀ c ∈ cases, c ∈ all) {L : TargetLaws T all} {L' : TargetLaws T' all} (hE : L.Agrees L') {st st' : SplitState K}
    (hS : SplitSetting L fm C good o st.cans st.oob) (hS' : SplitSetting L' fm' C' good' o st'.cans st'.oob)
    (hok : L.Ok st.allocs) (hok' : L'.Ok st'.allocs) (hrng : st'.rng = st.rng) (hcans : st'.cans = st.cans)
    (hvet : o.vet = false) (hoob : o.evaloob = false)
    (hsame : ∀ i ∈ st.cans, fm'.data[i]? = fm.data[i]?) {fp fp' : List Nat → String}
    (hfp : ∀ cs cs' : List Nat, cs'.Perm cs → (∀ c ∈ cs, c ∈ all) → fp cs' = fp cs) {R : String → String → Prop}
    (hR : ∀ cs, R (fp cs) (fp' cs) ∨ fp cs = "" ∧ fp' cs = "") (maxDepth : Int) (splitmissing : Bool) :
    ∃ root root' st1 st1', (∀ fuel, cases.length < fuel →
        grow (treeGrower fm T C o fp maxDepth splitmissing) fm fuel .fresh st cases 0 0 = some (root, st1) ∧
        grow (treeGrower fm' T' C' o fp' maxDepth splitmissing) fm' fuel .fresh st' cases 0 0 = some (root', st1')) ∧
      SameQuestions R root root' ∧ st1'.rng = st1.rng ∧ st1'.cans = st1.cans := by
  obtain ⟨root, st1, h, -⟩ := c09_grow hM hc hS hok fp maxDepth splitmissing
  have hfm : ∀ i ∈ st.cans, ∃ F F', fm.data[i]? = some F ∧ fm'.data[i]? = some F' ∧ TwinFeat F F' all := by
    intro i hi
    have h1 := hS.exist i hi
    have e := hsame i hi
    rw [List.getElem?_eq_getElem h1] at e
    refine ⟨_, _, List.getElem?_eq_getElem h1, e, ?_, hS.feats _ (List.getElem_mem _), hS.feats _ (List.getElem_mem _),
      .inl rfl⟩
    cases fm.data[i] with
    | num f => exact ⟨rfl, rfl, fun _ _ _ _ => Iff.rfl⟩
    | cat f => exact (rfl : f = f)
  obtain ⟨n', s', e, hts, hta⟩ := grow_twin hE (C := C) (C' := C') hM hM' hfm hvet hoob hS.leafSize hfp maxDepth splitmissing
    (cases.length + 1) 0 "" st st' cases cases 0 0 root st1 ⟨hok, hok', hrng, hcans, List.Perm.refl _⟩ (List.Perm.refl _) hc
    (h _ (Nat.lt_succ_self _))
  have hask := treeGrower_asks (h _ (Nat.lt_succ_self _))
  cases treatAlike_same hta (hask.mono hsame)
  obtain ⟨root', e', hq⟩ := grow_questions (g := treeGrower fm' T' C' o fp maxDepth splitmissing)
    (g' := treeGrower fm' T' C' o fp' maxDepth splitmissing) (fm := fm') rfl rfl rfl rfl hR (cases.length + 1) st' cases 0 0
    root s' e
  obtain ⟨root2, st2, h2, -⟩ := c09_grow hM' hc hS' hok' fp' maxDepth splitmissing
  have := h2 _ (Nat.lt_succ_self _)
  rw [e'] at this
  cases this
  exact ⟨root, root', st1, s', fun fuel hf => ⟨h fuel hf, h2 fuel hf⟩, hq, hts.rng, hts.cans_⟩

/-- Targets with the same impurities, matrices with the same candidates: the same questions. -/
theorem grow_same_questions {τ : Type} {fm fm' : FeatureMatrix K} {T T' : Target K} {C C' : Contrast K τ}
    {good good' : τ → Prop} {o : SplitOpts} {all cases : List Nat} (hM : MatrixOk fm all) (hM' : MatrixOk fm' all)
    (hc : ∀ c ∈ cases, c ∈ all) {L : TargetLaws T all} {L' : TargetLaws T' all} (hE : L.Agrees L') {st st' : SplitState K}
    (hS : SplitSetting L fm C good o st.cans st.oob) (hS' : SplitSetting L' fm' C' good' o st'.cans st'.oob)
    (hok : L.Ok st.allocs) (hok' : L'.Ok st'.allocs) (hrng : st'.rng = st.rng) (hcans : st'.cans = st.cans)
    (hvet : o.vet = false) (hoob : o.evaloob = false)
    (hsame : ∀ i ∈ st.cans, fm'.data[i]? = fm.data[i]?) {fp fp' : List Nat → String}
    (hfp : ∀ cs cs' : List Nat, cs'.Perm cs → (∀ c ∈ cs, c ∈ all) → fp cs' = fp cs) {R : String → String → Prop}
    (hR : ∀ cs, R (fp cs) (fp' cs) ∨ fp cs = "" ∧ fp' cs = "") (maxDepth : Int) (splitmissing : Bool) :
    ∃ root root' st1 st1', (∀ fuel, cases.length < fuel →
        grow (treeGrower fm T C o fp maxDepth splitmissing) fm fuel .fresh st cases 0 0 = some (root, st1) ∧
        grow (treeGrower fm' T' C' o fp' maxDepth splitmissing) fm' fuel .fresh st' cases 0 0 = some (root', st1')) ∧
      SameQuestions R root root' := by
  obtain ⟨root, root', st1, st1', h, hq, -⟩ := grow_same_questions_next hM hM' hc hE hS hS' hok hok' hrng hcans hvet hoob hsame hfp hR
    maxDepth splitmissing
  exact ⟨root, root', st1, st1', h, hq⟩

end CloudForest
