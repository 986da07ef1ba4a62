import Verif.Model.Books
import Verif.Spec.Books
import Verif.Lemmas.Grow
import Verif.Lemmas.Ballot

/-! # Lemmas about the bookkeeping of `Tree.Grow` -/

set_option linter.unusedSectionVars false

namespace CloudForest
variable {K : Type} [Field K] [LinearOrder K] [IsStrictOrderedRing K] {σ : Type}
  {P : σ → Prop} {Q : Nat → Prop}

/-- Bookkeeping does not change the tree. -/
theorem growNoting_forget (g : NotingGrower K σ) (fm : FeatureMatrix K) :
    ∀ (fuel : Nat) (n : Node K) (st : σ) (cs : List Nat) (d nc : Nat) (b : Books K) (n' : Node K)
      (st' : σ) (b' : Books K), growNoting g fm fuel n st cs d nc b = some (n', st', b') →
      grow g.forget fm fuel n st cs d nc = some (n', st') := by
  intro fuel
  induction fuel with
  | zero => intro n st cs d nc b n' st' b' h; simp [growNoting] at h
  | succ fuel ih =>
    intro n st cs d nc b n' st' b' h
    cases n with
    | nil => simp [growNoting] at h
    | mk c0 fi0 l r m p0 s0 =>
      rw [growNoting] at h
      rw [grow]
      by_cases hc : ((d : Int) < g.maxDepth ∨ g.maxDepth ≤ 0) ∧ 2 * g.leafSize ≤ cs.length
      · rw [if_pos hc] at h
        rw [if_pos (show ((d : Int) < g.forget.maxDepth ∨ g.forget.maxDepth ≤ 0) ∧
          2 * g.forget.leafSize ≤ cs.length from hc)]
        obtain ⟨⟨st1, res, imp⟩, hb, h⟩ := Option.bind_eq_some_iff.1 h
        have hb' : g.forget.best st cs nc = some (st1, res) := by
          simp [NotingGrower.forget, hb]
        simp only [Option.bind_eq_bind, hb', Option.bind_some]
        cases hres : res.split with
        | none =>
          simp only [hres, Option.elim] at h
          simp only [Option.some.injEq, Prod.mk.injEq] at h ⊢
          exact ⟨h.1, h.2.1⟩
        | some code =>
          simp only [hres, Option.elim] at h
          obtain ⟨b1, hn, h⟩ := Option.bind_eq_some_iff.1 h
          obtain ⟨f, hf, h⟩ := Option.bind_eq_some_iff.1 h
          obtain ⟨spl, hs, h⟩ := Option.bind_eq_some_iff.1 h
          obtain ⟨⟨cs', li, ri⟩, hp, h⟩ := Option.bind_eq_some_iff.1 h
          obtain ⟨⟨nl, st2, b2⟩, hl, h⟩ := Option.bind_eq_some_iff.1 h
          obtain ⟨⟨nr, st3, b3⟩, hr, h⟩ := Option.bind_eq_some_iff.1 h
          simp only [hf, hs, hp, Option.bind_some]
          have el := ih _ _ _ _ _ _ _ _ _ hl
          have er := ih _ _ _ _ _ _ _ _ _ hr
          simp only at el er
          simp only [show g.forget.splitmissing = g.splitmissing from rfl]
          rw [el, Option.bind_some]
          simp only
          rw [er, Option.bind_some]
          simp only
          by_cases hm : li ≠ ri ∧ (growChildren g.splitmissing l r m).2.2.isNil = false
          · rw [if_pos hm] at h ⊢
            obtain ⟨⟨nm, st4, b4⟩, hmm, h⟩ := Option.bind_eq_some_iff.1 h
            have em := ih _ _ _ _ _ _ _ _ _ hmm
            simp only at em
            rw [em, Option.bind_some]
            simp only [Option.some.injEq, Prod.mk.injEq] at h ⊢
            exact ⟨h.1, h.2.1⟩
          · rw [if_neg hm] at h ⊢
            simp only [Option.some.injEq, Prod.mk.injEq] at h ⊢
            exact ⟨h.1, h.2.1⟩
      · rw [if_neg hc] at h
        rw [if_neg (show ¬ (((d : Int) < g.forget.maxDepth ∨ g.forget.maxDepth ≤ 0) ∧
          2 * g.forget.leafSize ≤ cs.length) from hc)]
        simp only [Option.some.injEq, Prod.mk.injEq] at h ⊢
        exact ⟨h.1, h.2.1⟩

/-- The three blocks of a node's split are the cases that go the three ways. -/
theorem NodeSplitOk.block {fm : FeatureMatrix K} {coded : Option (Coded K)} {fi : Nat}
    {spl : Option (Splitter K)} {cs : List Nat} {sp : Split3}
    (h : NodeSplitOk fm coded fi spl cs sp) (d : Dir) :
    (pick d sp.left sp.right sp.missing).Perm
      (cs.filter fun c => caseDir fm coded fi spl c == some d) := by
  refine List.Perm.trans ?_ (h.perm.filter _)
  rw [List.filter_append, List.filter_append]
  have key : ∀ (d' : Dir) (blk : List Nat), (∀ c ∈ blk, caseDir fm coded fi spl c = some d') →
      (blk.filter fun c => caseDir fm coded fi spl c == some d) = if d' = d then blk else [] := by
    intro d' blk hb
    split
    · rename_i hd
      subst hd
      rw [List.filter_eq_self]
      intro c hc
      simp [hb c hc]
    · rename_i hd
      rw [List.filter_eq_nil_iff]
      intro c hc
      simp [hb c hc, hd]
  rw [key .L _ h.left, key .M _ h.missing, key .R _ h.right]
  cases d <;> simp [pick]

/-- The search reports the decrease `dec`, which does not depend on the order of the cases. -/
structure DecOk (g : NotingGrower K σ) (dec : Nat → Coded K → List Nat → K) (P : σ → Prop)
    (Q : Nat → Prop) (cases : List Nat) : Prop where
  perm : ∀ fi code cs cs', cs.Perm cs' → (∀ c ∈ cs, c ∈ cases) → dec fi code cs = dec fi code cs'
  eq : ∀ st cs nc st' res imp code, P st → Q nc → (∀ c ∈ cs, c ∈ cases) →
    g.best st cs nc = some (st', res, imp) → res.split = some code → imp = .fin (dec res.fi code cs)

theorem usesOf_perm (fm : FeatureMatrix K) {dec : Nat → Coded K → List Nat → K} {cases : List Nat}
    (hd : ∀ fi code cs cs', cs.Perm cs' → (∀ c ∈ cs, c ∈ cases) → dec fi code cs = dec fi code cs') :
    ∀ (n : Node K) (cs cs' : List Nat) (d : Nat), cs.Perm cs' → (∀ c ∈ cs, c ∈ cases) →
      usesOf fm dec n cs d = usesOf fm dec n cs' d := by
  intro n
  induction n with
  | nil => intros; rfl
  | mk coded fi l r m p spl ihl ihr ihm =>
    intro cs cs' d hp hcs
    cases coded with
    | none => rfl
    | some code =>
      have hf : ∀ q : Nat → Bool, ∀ c ∈ cs.filter q, c ∈ cases :=
        fun q c hc => hcs c (List.mem_of_mem_filter hc)
      rw [usesOf, usesOf, hd fi code cs cs' hp hcs, ihl _ _ (d + 1) (hp.filter _) (hf _),
        ihr _ _ (d + 1) (hp.filter _) (hf _), ihm _ _ (d + 1) (hp.filter _) (hf _)]

/-- Noting the uses one after the other. -/
def noteAll (us : List (Use K)) (b : Books K) : Option (Books K) :=
  us.foldlM (fun b u => b.note u.feature (.fin u.dec) u.depth) b

theorem noteAll_append (us vs : List (Use K)) (b : Books K) :
    noteAll (us ++ vs) b = (noteAll us b).bind (noteAll vs) := by
  unfold noteAll
  rw [List.foldlM_append]
  rfl

/-- A node `Grow` may be called on: without old missing branches, unless new ones are made. -/
def Startable (sm : Bool) (n : Node K) : Prop := sm = true ∨ NoMissingBranch n

theorem usesOf_fresh (fm : FeatureMatrix K) (dec : Nat → Coded K → List Nat → K) (cs : List Nat)
    (d : Nat) : usesOf fm dec .fresh cs d = [] := rfl

theorem growChildren_startable {sm : Bool} {c : Option (Coded K)} {fi : Nat} {l r m : Node K}
    {p : String} {s : Option (Splitter K)} (h : Startable sm (.mk c fi l r m p s)) :
    Startable sm (growChildren sm l r m).1 ∧ Startable sm (growChildren sm l r m).2.1 ∧
      Startable sm (growChildren sm l r m).2.2 ∧
      ((growChildren sm l r m).2.2 = .nil ∨ (growChildren sm l r m).2.2 = .fresh) ∧
      ((growChildren sm l r m).2.2 = .nil ∨ sm = true) := by
  rcases h with rfl | ⟨rfl, hl, hr⟩
  · exact ⟨.inl rfl, .inl rfl, .inl rfl, .inr rfl, .inr rfl⟩
  · refine ⟨.inr ?_, .inr ?_, .inr ?_, ?_, ?_⟩
    · unfold growChildren
      by_cases hn : (l.isNil || r.isNil) = true
      · simp only [hn, if_true]; exact ⟨rfl, trivial, trivial⟩
      · simp only [hn, if_false]; exact hl
    · unfold growChildren
      by_cases hn : (l.isNil || r.isNil) = true
      · simp only [hn, if_true]; exact ⟨rfl, trivial, trivial⟩
      · simp only [hn, if_false]; exact hr
    · unfold growChildren
      cases sm <;> simp [NoMissingBranch, Node.fresh]
    · unfold growChildren
      cases sm <;> simp
    · unfold growChildren
      cases sm <;> simp

theorem growNoting_notes {g : NotingGrower K σ} {fm : FeatureMatrix K} {cases : List Nat}
    {dec : Nat → Coded K → List Nat → K} (hM : MatrixOk fm cases)
    (hS : SearchOk g.forget fm P Q cases) (hD : DecOk g dec P Q cases) :
    ∀ (fuel : Nat) (n : Node K) (st : σ) (cs : List Nat) (d nc : Nat) (b : Books K) (n' : Node K)
      (st' : σ) (b' : Books K), Startable g.splitmissing n → P st → Q nc → (∀ c ∈ cs, c ∈ cases) →
      growNoting g fm fuel n st cs d nc b = some (n', st', b') →
      P st' ∧ Startable g.splitmissing n' ∧ noteAll (usesOf fm dec n' cs d) b = some b' := by
  intro fuel
  induction fuel with
  | zero => intro n st cs d nc b n' st' b' _ _ _ _ h; simp [growNoting] at h
  | succ fuel ih =>
    intro n st cs d nc b n' st' b' hn hP hQ hcs h
    cases n with
    | nil => simp [growNoting] at h
    | mk c0 fi0 l r m p0 s0 =>
      rw [growNoting] at h
      have hleaf : ∀ (p : String), Startable g.splitmissing (.mk none fi0 l r m p none) := by
        intro p
        rcases hn with hn | hn
        · exact .inl hn
        · exact .inr hn
      by_cases hc : ((d : Int) < g.maxDepth ∨ g.maxDepth ≤ 0) ∧ 2 * g.leafSize ≤ cs.length
      · rw [if_pos hc] at h
        obtain ⟨⟨st1, res, imp⟩, hb, h⟩ := Option.bind_eq_some_iff.1 h
        have hb' : g.forget.best st cs nc = some (st1, res) := by
          simp [NotingGrower.forget, hb]
        have hperm := hS.perm st cs nc st1 res hP hQ hcs hb'
        obtain ⟨hP1, hQ1⟩ := hS.keeps st cs nc st1 res hP hQ hcs hb'
        have hcs1 : ∀ c ∈ res.cases, c ∈ cases := fun c hc => hcs c (hperm.mem_iff.1 hc)
        cases hres : res.split with
        | none =>
          simp only [hres, Option.elim, Option.some.injEq, Prod.mk.injEq] at h
          rw [← h.1, ← h.2.1, ← h.2.2]
          exact ⟨hP1, hleaf _, rfl⟩
        | some code =>
          simp only [hres, Option.elim] at h
          obtain ⟨b1, hnote, h⟩ := Option.bind_eq_some_iff.1 h
          obtain ⟨f, hf, h⟩ := Option.bind_eq_some_iff.1 h
          obtain ⟨spl, hs, h⟩ := Option.bind_eq_some_iff.1 h
          obtain ⟨⟨cs', li, ri⟩, hpt, h⟩ := Option.bind_eq_some_iff.1 h
          obtain ⟨⟨nl, st2, b2⟩, hl, h⟩ := Option.bind_eq_some_iff.1 h
          obtain ⟨⟨nr, st3, b3⟩, hr, h⟩ := Option.bind_eq_some_iff.1 h
          simp only at hnote hf hs hpt hl hr h
          obtain ⟨f', hf', hfit⟩ := hS.fits st cs nc st1 res code hP hQ hcs hb' hres
          rw [hf] at hf'; cases hf'
          obtain ⟨cs'', li', ri', hpt', hle, hle', hlen, sp, e1, e2, e3, hok⟩ :=
            splitPoints_ok hM (some spl) hf hfit res.cases hcs1
          rw [hpt] at hpt'; cases hpt'
          have hmem : ∀ c, c ∈ sp.left ++ sp.missing ++ sp.right → c ∈ cases :=
            fun c hc => hcs1 c (hok.perm.mem_iff.1 hc)
          have hsp := hok.congr hperm
          have hml : sp.missing.length = ri - li := by
            rw [e3, List.length_take, List.length_drop]; omega
          rw [← e1] at hl
          rw [← e2] at hr
          rw [← e3] at h
          rw [hD.eq st cs nc st1 res imp code hP hQ hcs hb hres] at hnote
          obtain ⟨k1, k2, k3, k4, k5⟩ := growChildren_startable hn
          have mL : ∀ c ∈ sp.left, c ∈ cases := fun c hc => hmem c (by simp [hc])
          have mR : ∀ c ∈ sp.right, c ∈ cases := fun c hc => hmem c (by simp [hc])
          have mM : ∀ c ∈ sp.missing, c ∈ cases := fun c hc => hmem c (by simp [hc])
          obtain ⟨hP2, s2, u2⟩ := ih _ _ _ _ _ _ _ _ _ k1 hP1 hQ1 mL hl
          obtain ⟨hP3, s3, u3⟩ := ih _ _ _ _ _ _ _ _ _ k2 hP2 hQ1 mR hr
          have pL := usesOf_perm fm hD.perm nl _ _ (d + 1) (hsp.block .L) mL
          have pR := usesOf_perm fm hD.perm nr _ _ (d + 1) (hsp.block .R) mR
          have hcombine : ∀ (nm : Node K) (st4 : σ) (b4 : Books K), P st4 →
              Startable g.splitmissing nm → (nm = .nil ∨ g.splitmissing = true) →
              noteAll (usesOf fm dec nm sp.missing (d + 1)) b3 = some b4 →
              P st4 ∧ Startable g.splitmissing (.mk (some code) res.fi nl nr nm "" (some spl)) ∧
              noteAll (usesOf fm dec (.mk (some code) res.fi nl nr nm "" (some spl)) cs d) b =
                some b4 := by
            intro nm st4 b4 hP4 hs4 hn4 hu4
            refine ⟨hP4, ?_, ?_⟩
            · rcases hn4 with rfl | h4
              · rcases s2 with h | s2
                · exact .inl h
                · rcases s3 with h | s3
                  · exact .inl h
                  · exact .inr ⟨rfl, s2, s3⟩
              · exact .inl h4
            · have pM := usesOf_perm fm hD.perm nm _ _ (d + 1) (hsp.block .M) mM
              simp only [pick] at pL pR pM
              rw [usesOf, ← pL, ← pR, ← pM]
              show (Books.note b _ _ _).bind (noteAll _) = _
              rw [hnote, Option.bind_some, noteAll_append, noteAll_append, u2, Option.bind_some, u3,
                Option.bind_some, hu4]
          by_cases hm : li ≠ ri ∧ (growChildren g.splitmissing l r m).2.2.isNil = false
          · rw [if_pos hm] at h
            obtain ⟨⟨nm, st4, b4⟩, hmm, h⟩ := Option.bind_eq_some_iff.1 h
            simp only [Option.some.injEq, Prod.mk.injEq] at h
            rw [← h.1, ← h.2.1, ← h.2.2]
            obtain ⟨hP4, s4, u4⟩ := ih _ _ _ _ _ _ _ _ _ k3 hP3 hQ1 mM hmm
            refine hcombine nm st4 b4 hP4 s4 (.inr ?_) u4
            rcases k5 with h | h
            · rw [h] at hm; simp [Node.isNil] at hm
            · exact h
          · rw [if_neg hm] at h
            simp only [Option.some.injEq, Prod.mk.injEq] at h
            rw [← h.1, ← h.2.1, ← h.2.2]
            refine hcombine _ st3 b3 hP3 k3 k5 ?_
            rcases k4 with h | h <;> rw [h] <;> rfl
      · rw [if_neg hc] at h
        simp only [Option.some.injEq, Prod.mk.injEq] at h
        rw [← h.1, ← h.2.1, ← h.2.2]
        exact ⟨hP, hleaf _, rfl⟩

end CloudForest
