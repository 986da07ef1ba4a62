import Verif.Lemmas.Grow

set_option linter.unusedSectionVars false

namespace CloudForest
variable {K : Type} [Field K] [LinearOrder K] [IsStrictOrderedRing K] {σ : Type}
  {P : σ → Prop} {Q : Nat → Prop}

theorem caseDir_coded {fm : FeatureMatrix K} {fi : Nat} {f : Feature K} {code : Coded K}
    {spl : Option (Splitter K)} (hf : fm.data[fi]? = some f) (c : Nat) :
    (caseDir fm (some code) fi spl c = some .L →
      f.isMissing c = some false ∧ f.codedLeft code c = some true) ∧
    (caseDir fm (some code) fi spl c = some .R →
      f.isMissing c = some false ∧ f.codedLeft code c = some false) ∧
    (caseDir fm (some code) fi spl c = some .M → f.isMissing c = some true) := by
  simp only [caseDir, hf]
  cases h1 : f.isMissing c with
  | none => simp
  | some b1 =>
    cases h2 : f.codedLeft code c with
    | none => cases b1 <;> simp
    | some b2 => cases b1 <;> cases b2 <;> simp

theorem counts_of_split {fm : FeatureMatrix K} {fi : Nat} {f : Feature K} {code : Coded K}
    {spl : Option (Splitter K)} (hf : fm.data[fi]? = some f) {cs : List Nat} {sp : Split3}
    (h : NodeSplitOk fm (some code) fi spl cs sp) :
    leftCount f code cs = sp.left.length ∧ rightCount f code cs = sp.right.length := by
  have hL := fun c hc => (caseDir_coded (spl := spl) (code := code) hf c).1 (h.left c hc)
  have hR := fun c hc => (caseDir_coded (spl := spl) (code := code) hf c).2.1 (h.right c hc)
  have hM := fun c hc => (caseDir_coded (spl := spl) (code := code) hf c).2.2 (h.missing c hc)
  constructor
  · rw [leftCount, (h.perm.symm.filter _).length_eq, List.filter_append, List.filter_append,
      List.filter_eq_self.2, List.filter_eq_nil_iff.2, List.filter_eq_nil_iff.2]
    · simp
    · intro c hc; simp [hR c hc]
    · intro c hc; simp [hM c hc]
    · intro c hc; simp [hL c hc]
  · rw [rightCount, (h.perm.symm.filter _).length_eq, List.filter_append, List.filter_append,
      List.filter_eq_nil_iff.2, List.filter_eq_nil_iff.2, List.filter_eq_self.2]
    · simp
    · intro c hc; simp [hR c hc]
    · intro c hc; simp [hM c hc]
    · intro c hc; simp [hL c hc]

theorem Grown.height_le {g : Grower K σ} {fm : FeatureMatrix K} {b : Bool} {n : Node K}
    {cs : List Nat} {d : Nat} (h : Grown g fm P Q b n cs d) (hpos : 0 < g.maxDepth)
    (hd : (d : Int) ≤ g.maxDepth) : (d : Int) + height n ≤ g.maxDepth := by
  induction h with
  | absent => simpa [height] using hd
  | empty => simpa [height, Node.fresh, splits] using hd
  | leaf => simpa [height, splits] using hd
  | @split b cs d nc st st' res code f spl sp l r m hd' hlen hP hQ hb hs hf hfit hdec hsp hl hr hm ihl ihr ihm =>
    have hlt : (d : Int) < g.maxDepth := by
      rcases hd' with h | h
      · exact h
      · omega
    have h1 := ihl (by push_cast; omega)
    have h2 := ihr (by push_cast; omega)
    have h3 := ihm (by push_cast; omega)
    rw [height, if_pos (splits_some _ _)]
    push_cast at h1 h2 h3 ⊢
    omega

theorem subtreeAt_nil (p : List Dir) : subtreeAt (.nil : Node K) p = .nil := by
  induction p with
  | nil => rfl
  | cons d p ih => simpa [subtreeAt, Node.child] using ih

theorem subtreeAt_leaf {coded : Option (Coded K)} {fi : Nat} {pred : String}
    {spl : Option (Splitter K)} {p : List Dir} (hp : p ≠ []) :
    subtreeAt (.mk coded fi .nil .nil .nil pred spl) p = .nil := by
  cases p with
  | nil => exact absurd rfl hp
  | cons d p => cases d <;> exact subtreeAt_nil p

/-- Cases walking a path, one step down. -/
theorem filter_reaches {fm : FeatureMatrix K} {coded : Option (Coded K)} {fi : Nat}
    {l r m : Node K} {pred : String} {spl : Option (Splitter K)} {cs : List Nat} {sp : Split3}
    (hok : NodeSplitOk fm coded fi spl cs sp) (d : Dir) (p : List Dir) :
    (cs.filter (reaches fm (.mk coded fi l r m pred spl) (d :: p))).Perm
      ((pick d sp.left sp.right sp.missing).filter (reaches fm (pick d l r m) p)) := by
  refine (hok.perm.symm.filter _).trans ?_
  rw [List.filter_append, List.filter_append]
  have key : ∀ (d' : Dir) (blk : List Nat), (∀ c ∈ blk, caseDir fm coded fi spl c = some d') →
      (blk.filter (reaches fm (.mk coded fi l r m pred spl) (d :: p))) =
      if d' = d then blk.filter (reaches fm (pick d l r m) p) else [] := by
    intro d' blk hb
    split
    · rename_i hd
      subst hd
      apply List.filter_congr
      intro c hc
      rw [reaches, hb c hc]
      cases d' <;> simp [Node.child, pick]
    · rename_i hd
      rw [List.filter_eq_nil_iff]
      intro c hc
      rw [reaches, hb c hc]
      simp [hd]
  rw [key .L _ hok.left, key .R _ hok.right, key .M _ hok.missing]
  cases d <;> simp [pick]

theorem filter_reaches_nil {fm : FeatureMatrix K} {n : Node K} (hn : n ≠ .nil) (cs : List Nat) :
    cs.filter (reaches fm n []) = cs := by
  rw [List.filter_eq_self]
  intro c _
  cases n with
  | nil => exact absurd rfl hn
  | mk => rfl

theorem Grown.leafSize {g : Grower K σ} {fm : FeatureMatrix K} {cases : List Nat}
    (hA : Admissible g fm P Q cases) {b : Bool} {n : Node K}
    {cs : List Nat} {d : Nat} (h : Grown g fm P Q b n cs d) (hcs : ∀ c ∈ cs, c ∈ cases) :
    ∀ (p : List Dir) (x : Dir), x ≠ .M → subtreeAt n (p ++ [x]) ≠ .nil →
      g.leafSize ≤ (cs.filter (reaches fm n (p ++ [x]))).length := by
  induction h with
  | absent => intro p x _ h; exact absurd (subtreeAt_nil _) h
  | empty =>
    intro p x _ h
    exfalso; apply h
    exact subtreeAt_leaf (by simp)
  | leaf =>
    intro p x _ h
    exfalso; apply h
    exact subtreeAt_leaf (by simp)
  | @split b cs d nc st st' res code f spl sp l r m hd hlen hP hQ hb hs hf hfit hdec hsp hl hr hm ihl ihr ihm =>
    have hmem : ∀ c, c ∈ sp.left ++ sp.missing ++ sp.right → c ∈ cases :=
      fun c hc => hcs c (hsp.perm.mem_iff.1 hc)
    obtain ⟨a1, a2⟩ := hA _ _ _ _ _ _ _ hP hQ hcs hb hs hf
    obtain ⟨c1, c2⟩ := counts_of_split hf hsp
    intro p x hx hne
    cases p with
    | nil =>
      rw [List.nil_append, (filter_reaches hsp x []).length_eq]
      cases x with
      | L => simp only [pick]; rw [filter_reaches_nil hl.not_nil]; omega
      | R => simp only [pick]; rw [filter_reaches_nil hr.not_nil]; omega
      | M => exact absurd rfl hx
    | cons e p =>
      rw [List.cons_append, (filter_reaches hsp e _).length_eq]
      cases e with
      | L => exact ihl (fun c hc => hmem c (by simp [hc])) p x hx hne
      | R => exact ihr (fun c hc => hmem c (by simp [hc])) p x hx hne
      | M => exact ihm (fun c hc => hmem c (by simp [hc])) p x hx hne

/-- More fuel changes nothing. -/
theorem grow_fuel (g : Grower K σ) (fm : FeatureMatrix K) :
    ∀ (fuel : Nat) (n : Node K) (st : σ) (cs : List Nat) (d nc : Nat) (r : Node K × σ),
      grow g fm fuel n st cs d nc = some r → grow g fm (fuel + 1) n st cs d nc = some r := by
  intro fuel
  induction fuel with
  | zero => intro n st cs d nc r h; simp [grow] at h
  | succ fuel ih =>
    intro n st cs d nc r h
    cases n with
    | nil => simp [grow] at h
    | mk coded fi0 l r0 m p s =>
      rw [grow] at h ⊢
      split
      · rename_i hcond
        rw [if_pos hcond] at h
        simp only [Option.bind_eq_bind, Option.bind_eq_some_iff] at h ⊢
        obtain ⟨⟨st1, res⟩, hb, h⟩ := h
        refine ⟨_, hb, ?_⟩
        cases hres : res.split with
        | none => simpa [hres] using h
        | some code =>
          simp only [hres, Option.bind_eq_some_iff] at h ⊢
          obtain ⟨f, hf, spl, hdec, ⟨cs', li, ri⟩, hpt, ⟨nl, st2⟩, hl, ⟨nr, st3⟩, hr, h⟩ := h
          refine ⟨f, hf, spl, hdec, _, hpt, _, ih _ _ _ _ _ _ hl, _, ih _ _ _ _ _ _ hr, ?_⟩
          split
          · rename_i hne
            rw [if_pos hne] at h
            obtain ⟨x, hm, h⟩ := Option.bind_eq_some_iff.1 h
            rw [ih _ _ _ _ _ _ hm]
            exact h
          · rename_i hne
            rw [if_neg hne] at h
            exact h
      · rename_i hcond
        rw [if_neg hcond] at h
        exact h

theorem grow_fuel_le (g : Grower K σ) (fm : FeatureMatrix K) {fuel fuel' : Nat} (hle : fuel ≤ fuel')
    {n : Node K} {st : σ} {cs : List Nat} {d nc : Nat} {r : Node K × σ}
    (h : grow g fm fuel n st cs d nc = some r) : grow g fm fuel' n st cs d nc = some r := by
  induction hle with
  | refl => exact h
  | step _ ih => exact grow_fuel g fm _ _ _ _ _ _ _ ih

/-- With admissible splits one unit of fuel per case suffices. -/
theorem grow_total {g : Grower K σ} {fm : FeatureMatrix K} {cases : List Nat}
    (hM : MatrixOk fm cases) (hS : SearchOk g fm P Q cases) (hA : Admissible g fm P Q cases)
    (hls : 1 ≤ g.leafSize)
    (hT : ∀ st cs nc, P st → Q nc → (∀ c ∈ cs, c ∈ cases) → 2 * g.leafSize ≤ cs.length → g.best st cs nc ≠ none) :
    ∀ (fuel : Nat) (fi0 : Nat) (p0 : String) (st : σ) (cs : List Nat) (d nc : Nat),
      P st → Q nc → (∀ c ∈ cs, c ∈ cases) → cs.length < fuel →
      grow g fm fuel (.mk none fi0 .nil .nil .nil p0 none) st cs d nc ≠ none := by
  intro fuel
  induction fuel with
  | zero => intro fi0 p0 st cs d nc _ _ _ h; omega
  | succ fuel ih =>
    intro fi0 p0 st cs d nc hP hQ hcs hlt
    rw [grow]
    split
    · rename_i hcond
      obtain ⟨⟨st1, res⟩, hb⟩ := Option.ne_none_iff_exists'.1 (hT st cs nc hP hQ hcs hcond.2)
      have hperm := hS.perm st cs nc st1 res hP hQ hcs hb
      obtain ⟨hP1, hQ1⟩ := hS.keeps st cs nc st1 res hP hQ hcs hb
      have hcs1 : ∀ c ∈ res.cases, c ∈ cases := fun c hc => hcs c (hperm.mem_iff.1 hc)
      simp only [hb, Option.bind_eq_bind, Option.bind_some]
      cases hres : res.split with
      | none => simp
      | some code =>
        obtain ⟨f, hf, hfit⟩ := hS.fits st cs nc st1 res code hP hQ hcs hb hres
        obtain ⟨spl, hdec⟩ : ∃ spl, f.decodeSplit code = some spl := by
          match f, code, hfit with
          | .cat f, .int _, _ => exact ⟨_, rfl⟩
          | .cat f, .big _, _ => exact ⟨_, rfl⟩
          | .num f, .num _, _ => exact ⟨_, rfl⟩
        obtain ⟨cs', li, ri, hpt, hle, hle', hlen, sp, e1, e2, e3, hok⟩ :=
          splitPoints_ok hM (some spl) hf hfit res.cases hcs1
        have hmem : ∀ c, c ∈ sp.left ++ sp.missing ++ sp.right → c ∈ cases :=
          fun c hc => hcs1 c (hok.perm.mem_iff.1 hc)
        obtain ⟨a1, a2⟩ := hA _ _ _ _ _ _ _ hP hQ hcs hb hres hf
        obtain ⟨c1, c2⟩ := counts_of_split hf (hok.congr hperm)
        have htot := (hok.congr hperm).perm.length_eq
        simp only [List.length_append] at htot
        simp only [hf, hdec, hpt, Option.bind_some]
        rw [← e1, ← e2, ← e3]
        cases hsm : g.splitmissing with
        | false =>
          rw [show growChildren false (.nil : Node K) .nil .nil = (.fresh, .fresh, .nil) from rfl]
          obtain ⟨x, hx⟩ := Option.ne_none_iff_exists'.1
            (ih 0 "" st1 sp.left (d + 1) res.nconstants hP1 hQ1 (fun c hc => hmem c (by simp [hc]))
              (by omega))
          have hP2 := (grow_grown hM hS fuel 0 "" st1 sp.left (d + 1) res.nconstants x.1 x.2 hP1 hQ1
            (fun c hc => hmem c (by simp [hc])) hx).1
          obtain ⟨y, hy⟩ := Option.ne_none_iff_exists'.1
            (ih 0 "" x.2 sp.right (d + 1) res.nconstants hP2 hQ1 (fun c hc => hmem c (by simp [hc]))
              (by omega))
          simp only [fresh_eq, hx, hy, Option.bind_some]
          simp [Node.isNil]
        | true =>
          rw [show growChildren true (.nil : Node K) .nil .nil = (.fresh, .fresh, .fresh) from rfl]
          obtain ⟨x, hx⟩ := Option.ne_none_iff_exists'.1
            (ih 0 "" st1 sp.left (d + 1) res.nconstants hP1 hQ1 (fun c hc => hmem c (by simp [hc]))
              (by omega))
          have hP2 := (grow_grown hM hS fuel 0 "" st1 sp.left (d + 1) res.nconstants x.1 x.2 hP1 hQ1
            (fun c hc => hmem c (by simp [hc])) hx).1
          obtain ⟨y, hy⟩ := Option.ne_none_iff_exists'.1
            (ih 0 "" x.2 sp.right (d + 1) res.nconstants hP2 hQ1 (fun c hc => hmem c (by simp [hc]))
              (by omega))
          have hP3 := (grow_grown hM hS fuel 0 "" x.2 sp.right (d + 1) res.nconstants y.1 y.2 hP2 hQ1
            (fun c hc => hmem c (by simp [hc])) hy).1
          obtain ⟨z, hz⟩ := Option.ne_none_iff_exists'.1
            (ih 0 "" y.2 sp.missing (d + 1) res.nconstants hP3 hQ1 (fun c hc => hmem c (by simp [hc]))
              (by omega))
          simp only [fresh_eq, hx, hy, hz, Option.bind_some]
          split <;> simp
    · simp

end CloudForest
