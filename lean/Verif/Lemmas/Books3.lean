import Verif.Lemmas.Books2
import Verif.Lemmas.Splitter3
import Verif.Props.Search

/-! # The scores of a run -/

set_option linter.unusedSectionVars false

namespace CloudForest
variable {K : Type} [Field K] [LinearOrder K] [IsStrictOrderedRing K] {σ : Type} {τ : Type}
  {P : σ → Prop} {Q : Nat → Prop}

theorem noteAll_inRange : ∀ (us : List (Use K)) (imp : List (RunningMean K)) (du : List Nat)
    (b : Books K), noteAll us ⟨some imp, some du⟩ = some b →
    (∀ u ∈ us, u.feature < imp.length) ∧ ∀ u ∈ us, u.feature < du.length := by
  intro us
  induction us with
  | nil => intro imp du b _; simp
  | cons u us ih =>
    intro imp du b h
    obtain ⟨b1, h1, h2⟩ : ∃ b1, Books.note ⟨some imp, some du⟩ u.feature (.fin u.dec) u.depth =
        some b1 ∧ noteAll us b1 = some b := Option.bind_eq_some_iff.1 h
    have l1 : u.feature < imp.length := by
      by_contra hn
      simp [Books.note, Books.addImportance, List.getElem?_eq_none_iff.2 (not_lt.1 hn)] at h1
    have l2 : u.feature < du.length := by
      by_contra hn
      simp [Books.note, Books.addImportance, Books.useAt, List.getElem?_eq_getElem l1,
        List.getElem?_eq_none_iff.2 (not_lt.1 hn)] at h1
    rw [note_eq l1 l2] at h1
    cases h1
    obtain ⟨i1, i2⟩ := ih _ _ _ h2
    rw [List.length_set] at i1 i2
    constructor
    · intro v hv
      rcases List.mem_cons.1 hv with rfl | hv
      · exact l1
      · exact i1 v hv
    · intro v hv
      rcases List.mem_cons.1 hv with rfl | hv
      · exact l2
      · exact i2 v hv

/-- Bookkeeping does not fail if there is room for every feature. -/
theorem growNoting_total (g : NotingGrower K σ) (fm : FeatureMatrix K) :
    ∀ (fuel : Nat) (n : Node K) (st : σ) (cs : List Nat) (d nc : Nat) (n' : Node K) (st' : σ)
      (imp : List (RunningMean K)) (du : List Nat), imp.length = fm.data.length →
      du.length = fm.data.length → grow g.forget fm fuel n st cs d nc = some (n', st') →
      ∃ imp' du', imp'.length = fm.data.length ∧ du'.length = fm.data.length ∧
        growNoting g fm fuel n st cs d nc ⟨some imp, some du⟩ =
          some (n', st', ⟨some imp', some du'⟩) := by
  intro fuel
  induction fuel with
  | zero => intro n st cs d nc n' st' imp du _ _ h; simp [grow] at h
  | succ fuel ih =>
    intro n st cs d nc n' st' imp du hi hdu h
    cases n with
    | nil => simp [grow] at h
    | mk c0 fi0 l r m p0 s0 =>
      rw [grow] at h
      rw [growNoting]
      by_cases hc : ((d : Int) < g.maxDepth ∨ g.maxDepth ≤ 0) ∧ 2 * g.leafSize ≤ cs.length
      · rw [if_pos (show ((d : Int) < g.forget.maxDepth ∨ g.forget.maxDepth ≤ 0) ∧
          2 * g.forget.leafSize ≤ cs.length from hc)] at h
        rw [if_pos hc]
        simp only [Option.bind_eq_bind] at h
        obtain ⟨⟨st1, res⟩, hb, h⟩ := Option.bind_eq_some_iff.1 h
        obtain ⟨⟨a, b, imp1⟩, hb1, hb2⟩ := Option.map_eq_some_iff.1 hb
        simp only [Prod.mk.injEq] at hb2
        obtain ⟨rfl, rfl⟩ := hb2
        rw [hb1, Option.bind_some]
        simp only at h ⊢
        cases hres : b.split with
        | none =>
          simp only [hres] at h
          simp only [Option.some.injEq, Prod.mk.injEq] at h
          refine ⟨imp, du, hi, hdu, ?_⟩
          simp only [Option.elim]
          rw [← h.1, ← h.2]
          rfl
        | some code =>
          simp only [hres] at h
          obtain ⟨f, hf, h⟩ := Option.bind_eq_some_iff.1 h
          obtain ⟨spl, hs, h⟩ := Option.bind_eq_some_iff.1 h
          obtain ⟨⟨cs', li, ri⟩, hp, h⟩ := Option.bind_eq_some_iff.1 h
          simp only at h
          obtain ⟨⟨nl, st2⟩, hl, h⟩ := Option.bind_eq_some_iff.1 h
          obtain ⟨⟨nr, st3⟩, hr, h⟩ := Option.bind_eq_some_iff.1 h
          simp only [show g.forget.splitmissing = g.splitmissing from rfl] at hl hr h
          have hfi : b.fi < fm.data.length := (List.getElem?_eq_some_iff.1 hf).1
          have hnote : ∃ imp2 du2, Books.note ⟨some imp, some du⟩ b.fi imp1 d =
              some ⟨some imp2, some du2⟩ ∧ imp2.length = fm.data.length ∧
              du2.length = fm.data.length := by
            simp only [Books.note, Books.addImportance, Books.useAt,
              List.getElem?_eq_getElem (hi ▸ hfi : b.fi < imp.length),
              List.getElem?_eq_getElem (hdu ▸ hfi : b.fi < du.length), Option.bind_eq_bind,
              Option.bind_some]
            split
            · exact ⟨_, _, rfl, by simpa using hi, by simpa using hdu⟩
            · exact ⟨_, _, rfl, by simpa using hi, hdu⟩
          obtain ⟨imp2, du2, e2, hi2, hd2⟩ := hnote
          obtain ⟨imp3, du3, hi3, hd3, e3⟩ := ih _ _ _ _ _ _ _ _ _ hi2 hd2 hl
          obtain ⟨imp4, du4, hi4, hd4, e4⟩ := ih _ _ _ _ _ _ _ _ _ hi3 hd3 hr
          simp only [Option.elim, e2, hf, hs, hp, Option.bind_some, e3, e4]
          by_cases hm : li ≠ ri ∧ (growChildren g.splitmissing l r m).2.2.isNil = false
          · rw [if_pos hm] at h ⊢
            obtain ⟨⟨nm, st4⟩, hmm, h⟩ := Option.bind_eq_some_iff.1 h
            obtain ⟨imp5, du5, hi5, hd5, e5⟩ := ih _ _ _ _ _ _ _ _ _ hi4 hd4 hmm
            rw [e5]
            simp only [Option.some.injEq, Prod.mk.injEq] at h
            refine ⟨imp5, du5, hi5, hd5, ?_⟩
            rw [← h.1, ← h.2]
            rfl
          · rw [if_neg hm] at h ⊢
            simp only [Option.some.injEq, Prod.mk.injEq] at h
            refine ⟨imp4, du4, hi4, hd4, ?_⟩
            rw [← h.1, ← h.2]
      · rw [if_neg (show ¬ (((d : Int) < g.forget.maxDepth ∨ g.forget.maxDepth ≤ 0) ∧
          2 * g.forget.leafSize ≤ cs.length) from hc)] at h
        rw [if_neg hc]
        simp only [Option.some.injEq, Prod.mk.injEq] at h
        refine ⟨imp, du, hi, hdu, ?_⟩
        rw [← h.1, ← h.2]
        rfl

/-- The uses of the trees of a run, one list for each tree. -/
def runUses (fm : FeatureMatrix K) (dec : Nat → Coded K → List Nat → K) (jobs : List (Job K σ))
    (trees : List (Node K)) : List (List (Use K)) :=
  List.zipWith (fun (j : Job K σ) t => usesOf fm dec t j.bag 0) jobs trees

/-- The least positive depth at which feature `i` is used, if any. -/
def lowDepth (us : List (Use K)) (i : Nat) : Option Nat := ((depthsOf us i).filter (0 < ·)).min?

theorem growScored_ok {g : NotingGrower K σ} {fm : FeatureMatrix K} {cases : List Nat}
    {dec : Nat → Coded K → List Nat → K} (hM : MatrixOk fm cases)
    (hS : SearchOk g.forget fm P Q cases) (hD : DecOk g dec P Q cases) (hQ : Q 0) {fuel : Nat} :
    ∀ (jobs : List (Job K σ)) (st : σ) (s s' : Scores K) (trees : List (Node K)),
      (∀ j ∈ jobs, Startable g.splitmissing j.start ∧ (∀ c ∈ j.bag, c ∈ cases) ∧
        ∀ st, P st → P (j.prep st)) → P st →
      growScored g fm fuel jobs st s = some (trees, s') → s.mmd.length = fm.data.length →
      (∀ (i : Nat) (xs : List K), s.imp[i]? = some (.ofList xs) →
        s'.imp[i]? = some (.ofList (xs ++ (runUses fm dec jobs trees).flatMap (decsOf · i)))) ∧
      (∀ (i : Nat) (xs : List K), s.mmd[i]? = some (.ofList xs) →
        s'.mmd[i]? = some (.ofList (xs ++
          ((runUses fm dec jobs trees).filterMap (lowDepth · i)).map fun (d : Nat) => (d : K)))) ∧
      trees.length = jobs.length := by
  intro jobs
  induction jobs with
  | nil =>
    intro st s s' trees _ _ h _
    simp only [growScored, Option.some.injEq, Prod.mk.injEq] at h
    rw [← h.1, ← h.2]
    exact ⟨fun i xs h => by simpa [runUses] using h, fun i xs h => by simpa [runUses] using h, rfl⟩
  | cons j jobs ih =>
    intro st s s' trees hj hP h hlen
    obtain ⟨hj1, hj2, hj3⟩ := hj j (by simp)
    rw [growScored] at h
    simp only [Option.bind_eq_bind] at h
    obtain ⟨⟨n', st', b'⟩, hg, h⟩ := Option.bind_eq_some_iff.1 h
    obtain ⟨imp, himp, h⟩ := Option.bind_eq_some_iff.1 h
    obtain ⟨du, hdu, h⟩ := Option.bind_eq_some_iff.1 h
    obtain ⟨⟨ts, s2⟩, hrest, h⟩ := Option.bind_eq_some_iff.1 h
    simp only [Option.some.injEq, Prod.mk.injEq] at h
    obtain ⟨h1, h2⟩ := h
    subst h1 h2
    obtain ⟨hP', -, hnotes⟩ := growNoting_notes hM hS hD fuel _ _ _ _ _ _ _ _ _ hj1 (hj3 st hP) hQ
      hj2 hg
    obtain ⟨r1, r2⟩ := noteAll_inRange _ _ _ _ hnotes
    obtain ⟨imp', du', e, l1, l2, p1, p2⟩ := noteAll_eq _ _ _ r1 r2
    rw [hnotes] at e
    cases e
    simp only [Option.some.injEq] at himp hdu
    subst himp hdu
    have hdl : du'.length = s.mmd.length := by rw [l2, List.length_replicate, hlen]
    obtain ⟨q1, q2, q3⟩ := ih _ _ _ _ (fun j hj' => hj j (by simp [hj'])) hP' hrest
      (by rw [countDepths_length, hlen])
    refine ⟨?_, ?_, by simp [q3]⟩
    · intro i xs hx
      have := q1 i _ (p1 i xs hx)
      rw [this]
      simp [runUses]
    · intro i xs hx
      have hlt : i < fm.data.length := by
        rw [← hlen]; exact (List.getElem?_eq_some_iff.1 hx).1
      have hd := p2 i 0 (by rw [List.getElem?_replicate, if_pos hlt])
      rw [depthUsed_eq] at hd
      have hc := countDepths_get du' s.mmd hdl i _ _ hd hx
      have hru : runUses fm dec (j :: jobs) (n' :: ts) =
          usesOf fm dec n' j.bag 0 :: runUses fm dec jobs ts := rfl
      rw [hru, List.filterMap_cons]
      cases hlow : lowDepth (usesOf fm dec n' j.bag 0) i with
      | none =>
        rw [show ((depthsOf (usesOf fm dec n' j.bag 0) i).filter (0 < ·)).min? = none from hlow] at hc
        simp only [Option.getD_none, ne_eq, not_true_eq_false, if_false] at hc
        exact q2 i xs hc
      | some d =>
        rw [show ((depthsOf (usesOf fm dec n' j.bag 0) i).filter (0 < ·)).min? = some d from hlow] at hc
        have hd0 : d ≠ 0 := by
          have := List.mem_of_mem_filter (List.min?_mem hlow)
          have := List.min?_mem hlow
          rw [List.mem_filter] at this
          simpa using (Nat.pos_iff_ne_zero.1 (by simpa using this.2))
        simp only [Option.getD_some, if_pos hd0, XF.ofNat, RunningMean.ofList_add] at hc
        have := q2 i _ hc
        rw [this]
        simp

end CloudForest
