import Verif.Lemmas.Tree
import Verif.Spec.Grow

set_option linter.unusedSectionVars false

namespace CloudForest
variable {K : Type} [Field K] [LinearOrder K] [IsStrictOrderedRing K] {σ : Type}
  {P : σ → Prop} {Q : Nat → Prop}

/-- Shape of a tree grown from scratch on a list of cases at a depth. The flag is true for
missing branches, which may be absent or left as they were made. -/
inductive Grown (g : Grower K σ) (fm : FeatureMatrix K) (P : σ → Prop) (Q : Nat → Prop) :
    Bool → Node K → List Nat → Nat → Prop
  | absent {cs : List Nat} {d : Nat} (hsm : g.splitmissing = false) : Grown g fm P Q true .nil cs d
  | empty {d : Nat} (hsm : g.splitmissing = true) : Grown g fm P Q true .fresh [] d
  | leaf {b : Bool} {cs cs' : List Nat} {fi : Nat} {d : Nat} (hp : cs'.Perm cs) :
      Grown g fm P Q b (.mk none fi .nil .nil .nil (g.findPredicted cs') none) cs d
  | split {b : Bool} {cs : List Nat} {d nc : Nat} {st st' : σ} {res : BestResult K} {code : Coded K}
      {f : Feature K} {spl : Splitter K} {sp : Split3} {l r m : Node K}
      (hd : (d : Int) < g.maxDepth ∨ g.maxDepth ≤ 0) (hlen : 2 * g.leafSize ≤ cs.length)
      (hP : P st) (hQ : Q nc) (hb : g.best st cs nc = some (st', res)) (hs : res.split = some code)
      (hf : fm.data[res.fi]? = some f) (hfit : f.CodeFits code)
      (hdec : f.decodeSplit code = some spl)
      (hsp : NodeSplitOk fm (some code) res.fi (some spl) cs sp)
      (hl : Grown g fm P Q false l sp.left (d + 1)) (hr : Grown g fm P Q false r sp.right (d + 1))
      (hm : Grown g fm P Q true m sp.missing (d + 1)) :
      Grown g fm P Q b (.mk (some code) res.fi l r m "" (some spl)) cs d

theorem nodeOk_of {fm : FeatureMatrix K} {cases : List Nat} (hM : MatrixOk fm cases)
    {fi : Nat} {f : Feature K} {code : Coded K} (spl : Option (Splitter K))
    (hf : fm.data[fi]? = some f) (hfit : f.CodeFits code) :
    NodeOk fm cases (some code) fi spl :=
  ⟨f, hf, hfit, hM.sound f (List.mem_of_getElem? hf), hM.valid f (List.mem_of_getElem? hf)⟩

theorem NodeSplitOk.congr {fm : FeatureMatrix K} {coded : Option (Coded K)} {fi : Nat}
    {spl : Option (Splitter K)} {cs cs' : List Nat} {sp : Split3}
    (h : NodeSplitOk fm coded fi spl cs sp) (hp : cs.Perm cs') :
    NodeSplitOk fm coded fi spl cs' sp :=
  ⟨h.perm.trans hp, h.left, h.right, h.missing⟩

/-- `SplitPoints` gives the blocks of the node's split. -/
theorem splitPoints_ok {fm : FeatureMatrix K} {cases : List Nat} (hM : MatrixOk fm cases)
    {fi : Nat} {f : Feature K} {code : Coded K} (spl : Option (Splitter K))
    (hf : fm.data[fi]? = some f) (hfit : f.CodeFits code) (cs : List Nat)
    (hcs : ∀ c ∈ cs, c ∈ cases) :
    ∃ cs' li ri, f.splitPoints code cs = some (cs', li, ri) ∧ li ≤ ri ∧ ri ≤ cs'.length ∧
      cs'.length = cs.length ∧
      ∃ sp, sp.left = cs'.take li ∧ sp.right = cs'.drop ri ∧
        sp.missing = (cs'.drop li).take (ri - li) ∧
        NodeSplitOk fm (some code) fi spl cs sp := by
  have hmem := List.mem_of_getElem? hf
  obtain ⟨sp, h1, h2⟩ := nodeSplit_ok (nodeOk_of hM spl hf hfit) cs hcs
  obtain ⟨r, cs', li, ri, hr, h3, hp, hle, hle', e1, e2, e3, e4⟩ :=
    c01_coded_split f code hfit cs (fun c hc => hM.valid f hmem c (hcs c hc))
  have : sp = r := by
    simp only [nodeSplit, hf, hr, Option.bind_eq_bind, Option.bind_some, Option.some.injEq] at h1
    exact h1.symm
  subst this
  refine ⟨cs', li, ri, hp, hle, hle', ?_, sp, e2, e4, e3, h2⟩
  rw [← e1]; exact h3.perm.length_eq

theorem fresh_eq : (Node.fresh : Node K) = .mk none 0 .nil .nil .nil "" none := rfl

theorem grow_grown {g : Grower K σ} {fm : FeatureMatrix K} {cases : List Nat}
    (hM : MatrixOk fm cases) (hS : SearchOk g fm P Q cases) :
    ∀ (fuel : Nat) (fi0 : Nat) (p0 : String) (st : σ) (cs : List Nat) (d nc : Nat) (n : Node K)
      (st' : σ), P st → Q nc → (∀ c ∈ cs, c ∈ cases) →
      grow g fm fuel (.mk none fi0 .nil .nil .nil p0 none) st cs d nc = some (n, st') →
      P st' ∧ ∀ b, Grown g fm P Q b n cs d := by
  intro fuel
  induction fuel with
  | zero => intro fi0 p0 st cs d nc n st' _ _ _ h; simp [grow] at h
  | succ fuel ih =>
    intro fi0 p0 st cs d nc n st' hP hQ hcs h
    rw [grow] at h
    split at h
    · rename_i hcond
      simp only [Option.bind_eq_bind, Option.bind_eq_some_iff] at h
      obtain ⟨⟨st1, res⟩, hb, h⟩ := h
      have hperm := hS.perm st cs nc st1 res hP hQ hcs hb
      obtain ⟨hP1, hQ1⟩ := hS.keeps st cs nc st1 res hP hQ hcs hb
      have hcs1 : ∀ c ∈ res.cases, c ∈ cases := fun c hc => hcs c (hperm.mem_iff.1 hc)
      cases hres : res.split with
      | none =>
        simp only [hres, Option.some.injEq, Prod.mk.injEq] at h
        rw [← h.1, ← h.2]
        exact ⟨hP1, fun b => .leaf hperm⟩
      | some code =>
        simp only [hres, Option.bind_eq_some_iff] at h
        obtain ⟨f, hf, spl, hdec, ⟨cs', li, ri⟩, hpt, h⟩ := h
        obtain ⟨f', hf', hfit⟩ := hS.fits st cs nc st1 res code hP hQ hcs hb hres
        rw [hf] at hf'; cases hf'
        obtain ⟨cs'', li', ri', hpt', hle, hle', hlen, sp, e1, e2, e3, hok⟩ :=
          splitPoints_ok hM (some spl) hf hfit res.cases hcs1
        rw [hpt] at hpt'; cases hpt'
        have hmem : ∀ c, c ∈ sp.left ++ sp.missing ++ sp.right → c ∈ cases :=
          fun c hc => hcs1 c (hok.perm.mem_iff.1 hc)
        have hsp := hok.congr hperm
        have hml : sp.missing.length = ri - li := by
          rw [e3, List.length_take, List.length_drop]; omega
        rw [← e1, ← e2, ← e3] at h
        cases hsm : g.splitmissing with
        | false =>
          rw [hsm, show growChildren false (.nil : Node K) .nil .nil = (.fresh, .fresh, .nil) from
            rfl] at h
          obtain ⟨⟨nl, st2⟩, hl, ⟨nr, st3⟩, hr, h⟩ := h
          obtain ⟨hP2, gl⟩ := ih _ _ _ _ _ _ _ _ hP1 hQ1 (fun c hc => hmem c (by simp [hc])) hl
          obtain ⟨hP3, gr⟩ := ih _ _ _ _ _ _ _ _ hP2 hQ1 (fun c hc => hmem c (by simp [hc])) hr
          simp [Node.isNil] at h
          rw [← h.1, ← h.2]
          exact ⟨hP3, fun b => .split hcond.1 hcond.2 hP hQ hb hres hf hfit hdec hsp (gl _) (gr _)
            (.absent hsm)⟩
        | true =>
          rw [hsm, show growChildren true (.nil : Node K) .nil .nil = (.fresh, .fresh, .fresh) from
            rfl] at h
          obtain ⟨⟨nl, st2⟩, hl, ⟨nr, st3⟩, hr, h⟩ := h
          obtain ⟨hP2, gl⟩ := ih _ _ _ _ _ _ _ _ hP1 hQ1 (fun c hc => hmem c (by simp [hc])) hl
          obtain ⟨hP3, gr⟩ := ih _ _ _ _ _ _ _ _ hP2 hQ1 (fun c hc => hmem c (by simp [hc])) hr
          by_cases hli : li = ri
          · simp only [hli, ne_eq, not_true_eq_false, false_and, if_false, Option.some.injEq,
              Prod.mk.injEq] at h
            rw [← h.1, ← h.2]
            have hnil : sp.missing = [] := List.eq_nil_of_length_eq_zero (by omega)
            refine ⟨hP3, fun b => .split hcond.1 hcond.2 hP hQ hb hres hf hfit hdec hsp (gl _) (gr _) ?_⟩
            rw [hnil]
            exact .empty hsm
          · rw [if_pos ⟨hli, rfl⟩] at h
            obtain ⟨⟨nm, st4⟩, hmm, h⟩ := Option.bind_eq_some_iff.1 h
            simp only [Option.some.injEq, Prod.mk.injEq] at h
            rw [← h.1, ← h.2]
            obtain ⟨hP4, gm⟩ := ih _ _ _ _ _ _ _ _ hP3 hQ1 (fun c hc => hmem c (by simp [hc])) hmm
            exact ⟨hP4, fun b => .split hcond.1 hcond.2 hP hQ hb hres hf hfit hdec hsp (gl _) (gr _) (gm _)⟩
    · simp only [Option.some.injEq, Prod.mk.injEq] at h
      rw [← h.1, ← h.2]
      exact ⟨hP, fun b => .leaf (List.Perm.refl _)⟩

theorem splits_some (code : Coded K) (spl : Option (Splitter K)) :
    splits (some code) spl = true := rfl

theorem Grown.usable {g : Grower K σ} {fm : FeatureMatrix K} {cases : List Nat}
    (hM : MatrixOk fm cases) {b : Bool} {n : Node K} {cs : List Nat} {d : Nat}
    (h : Grown g fm P Q b n cs d) : n = .nil ∨ Usable fm cases n := by
  induction h with
  | absent => exact .inl rfl
  | empty => exact .inr ⟨rfl, rfl⟩
  | leaf hp => exact .inr ⟨rfl, rfl⟩
  | split hd hlen hP hQ hb hs hf hfit hdec hsp hl hr hm ihl ihr ihm =>
    right
    refine (usable_split (splits_some _ _)).2 ⟨nodeOk_of hM _ hf hfit, ?_, ?_, ihm⟩
    · rcases ihl with h | h
      · subst h; cases hl
      · exact h
    · rcases ihr with h | h
      · subst h; cases hr
      · exact h

theorem Grown.not_nil {g : Grower K σ} {fm : FeatureMatrix K} {n : Node K} {cs : List Nat} {d : Nat}
    (h : Grown g fm P Q false n cs d) : n ≠ .nil := by
  rintro rfl; cases h

theorem Grown.codesDecoded {g : Grower K σ} {fm : FeatureMatrix K} {cases : List Nat}
    (hM : MatrixOk fm cases) {b : Bool} {n : Node K} {cs : List Nat} {d : Nat}
    (h : Grown g fm P Q b n cs d) : CodesDecoded fm n := by
  induction h with
  | absent => trivial
  | empty => exact ⟨by simp, trivial, trivial, trivial⟩
  | leaf hp => exact ⟨by simp, trivial, trivial, trivial⟩
  | @split b cs d nc st st' res code f spl sp l r m hd hlen hP hQ hb hs hf hfit hdec hsp hl hr hm ihl ihr ihm =>
    refine ⟨?_, ihl, ihr, ihm⟩
    intro code' hc
    cases hc
    refine ⟨f, spl, hf, rfl, hM.catwf f (List.mem_of_getElem? hf), hdec, ?_⟩
    have := hM.named _ f hf
    rw [FeatureMatrix.featureOf, c02_decode_name f code spl hdec, this]
    exact hf

theorem Grown.every_lands {g : Grower K σ} {fm : FeatureMatrix K} (hsm : g.splitmissing = true)
    {b : Bool} {n : Node K} {cs : List Nat} {d : Nat}
    (h : Grown g fm P Q b n cs d) : ∀ c ∈ cs, landing fm n c ≠ none := by
  induction h with
  | absent hs => rw [hsm] at hs; cases hs
  | empty => simp
  | leaf hp => intro c _; simp [landing, splits]
  | split hd hlen hP hQ hb hs hf hfit hdec hsp hl hr hm ihl ihr ihm =>
    intro c hc
    have := hsp.perm.mem_iff.2 hc
    simp only [List.mem_append] at this
    rcases this with (h | h) | h
    · rw [landing_of_dir (splits_some _ _) (hsp.left c h)]; simpa [pick] using ihl c h
    · rw [landing_of_dir (splits_some _ _) (hsp.missing c h)]; simpa [pick] using ihm c h
    · rw [landing_of_dir (splits_some _ _) (hsp.right c h)]; simpa [pick] using ihr c h

/-- Filtering by path, one step down. -/
theorem filter_path {fm : FeatureMatrix K} {coded : Option (Coded K)} {fi : Nat}
    {l r m : Node K} {pred : String} {spl : Option (Splitter K)} {cs : List Nat} {sp : Split3}
    (hs : splits coded spl = true) (hok : NodeSplitOk fm coded fi spl cs sp) (d : Dir)
    (p : List Dir) :
    (cs.filter fun c => (landing fm (.mk coded fi l r m pred spl) c).map (·.1) == some (d :: p)).Perm
      ((pick d sp.left sp.right sp.missing).filter fun c =>
        (landing fm (pick d l r m) c).map (·.1) == some p) := by
  refine (hok.perm.symm.filter _).trans ?_
  rw [List.filter_append, List.filter_append]
  have key : ∀ (d' : Dir) (blk : List Nat), (∀ c ∈ blk, caseDir fm coded fi spl c = some d') →
      (blk.filter fun c =>
        (landing fm (.mk coded fi l r m pred spl) c).map (·.1) == some (d :: p)) =
      if d' = d then blk.filter fun c =>
        (landing fm (pick d l r m) c).map (·.1) == some p else [] := by
    intro d' blk hb
    split
    · rename_i hd
      subst hd
      apply List.filter_congr
      intro c hc
      rw [landing_of_dir hs (hb c hc), Bool.eq_iff_iff]
      simp only [beq_iff_eq]
      cases landing fm (pick d' l r m) c with
      | none => simp
      | some x => simp
    · rename_i hd
      rw [List.filter_eq_nil_iff]
      intro c hc
      rw [landing_of_dir hs (hb c hc)]
      simp only [beq_iff_eq]
      cases landing fm (pick d' l r m) c with
      | none => simp
      | some x => simp [hd]
  rw [key .L _ hok.left, key .R _ hok.right, key .M _ hok.missing]
  cases d <;> simp [pick]

theorem Grown.leaves {g : Grower K σ} {fm : FeatureMatrix K} {b : Bool} {n : Node K}
    {cs : List Nat} {d : Nat} (h : Grown g fm P Q b n cs d) :
    ∀ x ∈ leavesOf n,
      (∃ L, L.Perm (cs.filter fun c => (landing fm n c).map (·.1) == some x.1) ∧
        x.2 = g.findPredicted L) ∨
      (g.splitmissing = true ∧ (b = true ∧ x.1 = [] ∨ x.1.getLast? = some .M) ∧ x.2 = "" ∧
        ∀ c ∈ cs, (landing fm n c).map (·.1) ≠ some x.1) := by
  induction h with
  | absent => intro x hx; simp [leavesOf] at hx
  | empty hsm =>
    intro x hx
    simp [leavesOf, Node.fresh, splits] at hx
    subst hx
    exact .inr ⟨hsm, .inl ⟨rfl, rfl⟩, rfl, by simp⟩
  | leaf hp =>
    intro x hx
    simp [leavesOf, splits] at hx
    subst hx
    refine .inl ⟨_, ?_, rfl⟩
    refine hp.trans ?_
    rw [List.filter_eq_self.2]
    intro c _
    simp [landing, splits]
  | @split b cs d nc st st' res code f spl sp l r m hd hlen hP hQ hb hs hf hfit hdec hsp hl hr hm ihl ihr ihm =>
    intro x hx
    rw [leavesOf, if_pos (splits_some _ _)] at hx
    simp only [List.mem_append, List.mem_map] at hx
    have hstep : ∀ (dd : Dir) (bb : Bool) (y : List Dir × String), (bb = true → dd = .M) →
        ((∃ L, L.Perm ((pick dd sp.left sp.right sp.missing).filter fun c =>
            (landing fm (pick dd l r m) c).map (·.1) == some y.1) ∧ y.2 = g.findPredicted L) ∨
        (g.splitmissing = true ∧ (bb = true ∧ y.1 = [] ∨ y.1.getLast? = some .M) ∧ y.2 = "" ∧
          ∀ c ∈ pick dd sp.left sp.right sp.missing,
            (landing fm (pick dd l r m) c).map (·.1) ≠ some y.1)) →
        (∃ L, L.Perm (cs.filter fun c => (landing fm (.mk (some code) res.fi l r m "" (some spl))
          c).map (·.1) == some (dd :: y.1)) ∧ y.2 = g.findPredicted L) ∨
        (g.splitmissing = true ∧ (b = true ∧ dd :: y.1 = [] ∨ (dd :: y.1).getLast? = some .M) ∧
          y.2 = "" ∧ ∀ c ∈ cs, (landing fm (.mk (some code) res.fi l r m "" (some spl)) c).map
            (·.1) ≠ some (dd :: y.1)) := by
      intro dd bb y hbb hy
      have hfp := filter_path (l := l) (r := r) (m := m) (pred := "") (splits_some _ _) hsp dd y.1
      rcases hy with ⟨L, hL, hp⟩ | ⟨h1, h2, h3, h4⟩
      · exact .inl ⟨L, hL.trans hfp.symm, hp⟩
      · refine .inr ⟨h1, .inr ?_, h3, ?_⟩
        · rcases h2 with ⟨hb1, h2⟩ | h2
          · rw [hbb hb1, h2]; rfl
          · rw [List.getLast?_cons]; simp [h2]
        · intro c hc hcon
          have := hfp.mem_iff.1 (List.mem_filter.2 ⟨hc, by simpa using hcon⟩)
          rw [List.mem_filter] at this
          exact h4 c this.1 (by simpa using this.2)
    rcases hx with (⟨y, hy, rfl⟩ | ⟨y, hy, rfl⟩) | ⟨y, hy, rfl⟩
    · exact hstep .L false y (by simp) (ihl y hy)
    · exact hstep .R false y (by simp) (ihr y hy)
    · exact hstep .M true y (by simp) (ihm y hy)

end CloudForest
