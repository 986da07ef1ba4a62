import Verif.Lemmas.RoundedGrow2

/-! # Growing trees that are greedily optimal up to rounding -/

set_option linter.unusedSectionVars false

namespace CloudForest
variable {τ : Type}

section
variable {fm : FeatureMatrix ℚ} {T : Target ℚ} {cases : List Nat} {L : TargetLaws T cases} {imp : List Nat → ℚ} {δ B cut : ℚ} {N : Nat}
  {C : Contrast ℚ τ} {good : τ → Prop} {o : SplitOpts} {cs oob cans : List Nat}

theorem room_length {F : Feature ℚ} {leafSize : Nat} {p : Nat → Bool} (h : F.Room leafSize p cs) :
    2 * leafSize ≤ cs.length := by
  have h1 := filter_lengths (F.knowns cs) p
  have h2 : (F.knowns cs).length ≤ cs.length := List.length_filter_le _ _
  have h3 := h.1
  have h4 : leafSize ≤ (F.toRight p cs).length := by
    have := h.2
    cases F with
    | num f => exact le_of_lt this
    | cat f => exact this
  unfold Feature.toLeft at h3
  unfold Feature.toRight at h4
  omega

theorem room_fits {F : Feature ℚ} {leafSize : Nat} (hls : 1 ≤ leafSize) {p : Nat → Bool} (h : F.Room leafSize p cs)
    {code : Coded ℚ} (hp : ∀ c ∈ F.knowns cs, F.codedLeft code c = some (p c)) : F.CodeFits code := by
  have h1 := h.1
  obtain ⟨a, ha⟩ := List.exists_mem_of_length_pos (l := F.toLeft p cs) (by omega)
  have := hp a (List.mem_of_mem_filter ha)
  cases F <;> cases code <;> first | trivial | (simp [Feature.codedLeft] at this)

theorem greedyUpTo_perm {ε : ℚ} (hp : ∀ l l', l.Perm l' → imp l = imp l') {leafSize : Nat} {md : Int} :
    ∀ (n : Node ℚ) (cs cs' : List Nat) (d : Nat), cs.Perm cs' → GreedyUpTo ε fm cans imp leafSize md n cs d →
      GreedyUpTo ε fm cans imp leafSize md n cs' d := by
  intro n
  induction n with
  | nil => intro cs cs' d _ h; exact h
  | mk coded fi l r m pred spl ihl ihr ihm =>
    intro cs cs' d hc h
    cases coded with
    | none =>
      rw [GreedyUpTo] at h ⊢
      rcases h with h | h
      · exact .inl h
      · refine .inr fun i hi F hF p hd hr hk => ?_
        rw [← gain3_perm' hp F p hc]
        exact h i hi F hF p hd (room_perm F leafSize p hc.symm hr) (by rw [knownGain_perm' hp F p hc]; exact hk)
    | some code =>
      rw [GreedyUpTo] at h ⊢
      obtain ⟨h1, F, p, h2, h3, h4, h5, h6, h7, h8, h9, h10⟩ := h
      refine ⟨h1, F, p, h2, fun c hcm => h3 c ((F.knowns_perm hc).mem_iff.2 hcm), h4, room_perm F leafSize p hc h5, ?_, ?_,
        ihl _ _ _ (F.toLeft_perm p hc) h8, ihr _ _ _ (F.toRight_perm p hc) h9, ?_⟩
      · rw [← gain3_perm' hp F p hc]; exact h6
      · intro i hi F' hF' q hd hr hk
        rw [← gain3_perm' hp F p hc, ← gain3_perm' hp F' q hc]
        exact h7 i hi F' hF' q hd (room_perm F' leafSize q hc.symm hr) (by rw [knownGain_perm' hp F' q hc]; exact hk)
      · rcases h10 with h | h
        · exact .inl h
        · exact .inr (ihm _ _ _ (F.missings_perm hc) h)

/-- What evaluating candidate `i` in double precision says. -/
def CanNear (fm : FeatureMatrix ℚ) (imp : List Nat → ℚ) (δ : ℚ) (leafSize : Nat) (cans cs : List Nat) (i : Nat)
    (r : Found ℚ) : Prop :=
  i ∈ cans ∧ ∃ F, fm.data[i]? = some F ∧ FeatNear imp δ F leafSize cs r

theorem apart_mono {F : Feature ℚ} {cs : List Nat} (h : F.Apart Rep64 F64.round (.fin cut) (F.knowns cases))
    (hcs : ∀ c ∈ cs, c ∈ cases) : F.Apart Rep64 F64.round (.fin cut) (F.knowns cs) := by
  refine h.mono fun c hc => ?_
  unfold Feature.knowns at hc ⊢
  rw [List.mem_filter] at hc ⊢
  exact ⟨hcs c hc.1, hc.2⟩

theorem evalFeatureR_near (hw : L.Near imp δ B N) (hcut : 0 ≤ cut) (hM : ∀ f ∈ fm.data, FeatOk f cases)
    (hsome : ∀ i ∈ cans, ∀ F, fm.data[i]? = some F →
      F.Exhaustive ∧ F.Apart Rep64 F64.round (.fin cut) (F.knowns cases))
    (hv : o.vet = false) (he : o.evaloob = false) (hx : o.extraRandom = false) (hls : 1 ≤ o.leafSize)
    (hcs : ∀ c ∈ cs, c ∈ cases) (hne : cs ≠ []) (hbig : cs.length ≤ N) {s : Searching ℚ τ}
    (hs : EvalState L good cs oob s) {best : XF ℚ} {i : Nat} (hi : i ∈ cans) (hlt : i < fm.data.length) :
    ∃ r s', evalFeatureR F64.round (.fin cut) fm T C o (L.I cs) s best i = some (r, s') ∧
      EvalState L good cs oob s' ∧ CanNear fm imp δ o.leafSize cans cs i r := by
  unfold evalFeatureR
  have hf : fm.data[i]? = some fm.data[i] := List.getElem?_eq_getElem hlt
  have hF := hM fm.data[i] (List.getElem_mem hlt)
  obtain ⟨hex, hties⟩ := hsome i hi _ hf
  have hwc : ∀ c ∈ s.work.cases, c ∈ cases := fun c hc => hcs c (hs.cases_.subset hc)
  have hwn : s.work.cases ≠ [] := fun h => hne (by have := hs.cases_; rw [h] at this; exact this.nil_eq.symm)
  obtain ⟨r, w', e1, hp, hok, hb⟩ := bestSplitR_near hw hcut fm.data[i] hex hls s.work hwc hwn
    (hs.cases_.length_eq.trans_le hbig) (hF.searchable hwc)
    (apart_mono hties hwc) (fun c hc => hF.isMissing (hwc c hc)) hF.sound hs.allocs
  rw [hf]
  have hI : L.I cs = L.I s.work.cases := (L.I_perm _ _ hs.cases_).symm
  simp only [Option.bind_eq_bind, Option.bind_some, hx, hI, e1, oobStepR, oobStep, vetStepR, hv, he, Bool.false_eq_true,
    false_and, if_false, Option.map_some]
  exact ⟨_, _, rfl, ⟨hp.trans hs.cases_, hok, hs.oob_, hs.contrast⟩, hi, _, hf, hb.perm hw.perm hs.cases_⟩

theorem gain3_le_near (hw : L.Near imp δ B N) (F : Feature ℚ) (p : Nat → Bool) (hcs : ∀ c ∈ cs, c ∈ cases) :
    F.gain3 imp p cs ≤ imp cs := by
  have hn : ∀ l : List Nat, (∀ c ∈ l, c ∈ cases) → 0 ≤ (l.length : ℚ) * imp l := by
    intro l hl
    by_cases h : l = []
    · simp [h]
    · exact mul_nonneg (by positivity) (hw.nonneg l h hl)
  unfold Feature.gain3
  rw [sub_le_self_iff]
  refine div_nonneg (add_nonneg (add_nonneg (hn _ ?_) (hn _ ?_)) (hn _ ?_)) (by positivity)
  · exact fun c h => hcs c (F.mem_toLeft h)
  · exact fun c h => hcs c (F.mem_toRight h)
  · exact fun c h => hcs c (F.mem_missings h)

/-- `BestSplitter` looking at all candidates. -/
theorem bestSplitterR_near (hw : L.Near imp δ B N) (hcut : 0 ≤ cut) (hM : ∀ f ∈ fm.data, FeatOk f cases)
    (hsome : ∀ i ∈ cans, ∀ F, fm.data[i]? = some F →
      F.Exhaustive ∧ F.Apart Rep64 F64.round (.fin cut) (F.knowns cases))
    (hv : o.vet = false) (he : o.evaloob = false) (hx : o.extraRandom = false) (hls : 1 ≤ o.leafSize)
    (hgood : good C.start) {st : SplitState ℚ} (hcans : st.cans.Perm cans) (hin : ∀ i ∈ cans, i < fm.data.length)
    (hm : o.mTry = cans.length) {nc : Nat} (hnc : nc ≤ cans.length) (hcs : ∀ c ∈ cs, c ∈ cases) (hne : cs ≠ [])
    (hbig : cs.length ≤ N)
    (hok : L.Ok st.allocs)
    (hknown : ∀ i ∈ st.cans.drop (cans.length - nc), ∀ F, fm.data[i]? = some F → F.NoRoom o.leafSize cs) :
    ∃ d, bestSplitterR F64.round (.fin cut) fm T C o st cs nc = some d ∧ d.st.work.cases.Perm cs ∧ L.Ok d.st.work.allocs ∧ d.cans.Perm cans ∧
      nc ≤ d.nConst ∧ d.nConst ≤ cans.length ∧
      d.cans.drop (cans.length - nc) = st.cans.drop (cans.length - nc) ∧
      (∀ i ∈ d.cans.drop (cans.length - d.nConst), ∀ F, fm.data[i]? = some F → F.NoRoom o.leafSize cs) ∧
      (d.split = none → ∀ i ∈ cans, ∀ F, fm.data[i]? = some F → ∀ p, F.Divides p → F.Room o.leafSize p cs →
        1 / 10000000 + 8 * δ < F.knownGain imp p cs → F.gain3 imp p cs ≤ 1 / 10000000 + 8 * δ) ∧
      (∀ code, d.split = some code → d.fi ∈ cans ∧ ∃ F p, fm.data[d.fi]? = some F ∧
        (∀ c ∈ F.knowns cs, F.codedLeft code c = some (p c)) ∧ F.Divides p ∧ F.Room o.leafSize p cs ∧
        1 / 10000000 - 8 * δ < F.gain3 imp p cs ∧
        ∀ i ∈ cans, ∀ F', fm.data[i]? = some F' → ∀ q, F'.Divides q → F'.Room o.leafSize q cs →
          1 / 10000000 + 8 * δ < F'.knownGain imp q cs → F'.gain3 imp q cs ≤ F.gain3 imp p cs + 8 * δ) := by
  have hδ := hw.pos
  have hlen := hcans.length_eq
  unfold bestSplitterR
  obtain ⟨a, e, hok'⟩ := L.impurity st.allocs cs hok hcs
  rw [e]
  simp only
  have hs : EvalState L good cs st.oob ⟨⟨cs, a, st.rng⟩, st.oob, C.start⟩ :=
    ⟨List.Perm.refl _, hok', List.Perm.refl _, hgood⟩
  obtain ⟨e0, hI, hI2, -⟩ := hw.impurity cs hne hcs hbig
  by_cases hp : L.I cs ≤ minImp ∧ .fin 0 ≤ L.I cs
  · rw [if_pos hp]
    refine ⟨_, rfl, List.Perm.refl _, hok', hcans, le_refl _, hnc, rfl, hknown, fun _ i hi F hF p _ _ _ => ?_, fun _ h => by cases h⟩
    have h1 := hp.1
    rw [hI] at h1
    have h2 : e0 ≤ 1 / 10000000 := h1
    have h3 := gain3_le_near hw F p hcs
    have h4 := (abs_le.1 hI2).1
    linarith
  · rw [if_neg hp]
    have h0 := drawInv_start (K := ℚ) (G := CanNear fm imp δ o.leafSize cans cs) (nc := nc) (cans := st.cans) (by omega) hs
    obtain ⟨d, j, e2, h1, h2, h4⟩ := bestLoop_ok (P := EvalState L good cs st.oob)
      (G := CanNear fm imp δ o.leafSize cans cs) (eval := evalFeatureR F64.round (.fin cut) fm T C o (L.I cs))
      (intn := Searching.intn) (cans := st.cans) (nc := nc) (mTry := o.mTry) (force := o.force) (by omega)
      (fun s best i hs hi hb => evalFeatureR_near hw hcut hM hsome hv he hx hls hcs hne hbig hs (hcans.subset hi)
        (hin i (hcans.subset hi)))
      (fun s n hs hn => searching_intn s n hs hn) (o.mTry + 2 * st.cans.length + 1) 0 _ h0
      (.inl (Nat.zero_le _)) (by omega) (Nat.zero_le _)
    have hsum := h1.sum
    have hfits := h1.fits
    have hdrawn := h1.drawn
    have hmore := h1.more
    have hnews := h1.news
    have hdlen := h1.len
    rw [hlen] at hfits hnews
    -- all candidates were evaluated or known to be constant
    have hall : d.lastSample + d.nConst = cans.length := by
      rcases h2.stop with h | h
      · have : ¬ j < o.mTry := fun h' => h (.inr h')
        omega
      · omega
    have hevery : ∀ i ∈ cans, (∃ e ∈ d.log, e.1 = i) ∨ i ∈ st.cans.drop (cans.length - nc) := by
      intro i hi
      have hi' : i ∈ d.cans := (h1.perm.trans hcans).mem_iff.2 hi
      rw [← List.take_append_drop d.lastSample d.cans] at hi'
      rcases List.mem_append.1 hi' with h | h
      · rw [h1.olds, List.mem_reverse, List.mem_map] at h
        obtain ⟨e, he, rfl⟩ := h
        exact .inl ⟨e, List.mem_of_mem_filter he, rfl⟩
      · rw [show d.lastSample = cans.length - d.nConst by omega, hnews] at h
        rcases List.mem_append.1 h with h | h
        · obtain ⟨e, he, rfl⟩ := List.mem_map.1 h
          exact .inl ⟨e, List.mem_of_mem_filter he, rfl⟩
        · exact .inr h
    refine ⟨d, e2, h1.st.cases_, h1.st.allocs, h1.perm.trans hcans, hmore, by omega, ?_, ?_, ?_, ?_⟩
    · have hk : ((d.log.filter (·.2.constant)).map (·.1)).length = d.nConst - nc := by
        have := congrArg List.length hnews
        simp only [List.length_drop, List.length_append] at this
        omega
      have : d.cans.drop (cans.length - nc) = (d.cans.drop (cans.length - d.nConst)).drop (d.nConst - nc) := by
        rw [List.drop_drop]
        congr 1
        omega
      rw [this, hnews, ← hk, List.drop_left]
    · intro i hi F hF
      rw [hnews] at hi
      rcases List.mem_append.1 hi with h | h
      · obtain ⟨e, he, rfl⟩ := List.mem_map.1 h
        obtain ⟨hel, hec⟩ := List.mem_filter.1 he
        obtain ⟨-, F', hF', hb⟩ := h1.good e hel
        rw [hF] at hF'
        cases hF'
        exact hb.constant hec
      · exact hknown i h F hF
    · intro hsp i hi F hF p hd ho hk
      have hno : ∀ e ∈ d.log, ¬ minImp < e.2.imp := by
        rcases h1.best with hb | ⟨hb, ⟨e, he, -, h5, h6⟩, -⟩
        · exact hb.2.2.2
        · obtain ⟨-, F', hF', hb'⟩ := h1.good e he
          obtain ⟨code, p, x, h7, -⟩ := hb'.found (by rw [h6]; exact hb)
          rw [h5, hsp] at h7
          cases h7
      rcases hevery i hi with ⟨e, hel, rfl⟩ | h
      · obtain ⟨-, F', hF', hb⟩ := h1.good e hel
        rw [hF] at hF'
        cases hF'
        have hle := hb.best p hd ho hk
        by_contra hgt
        refine hno e hel (XF.lt_of_lt_of_le' ?_ hle)
        show (1 / 10000000 : ℚ) < _
        linarith
      · exact absurd ho (hknown i h F hF p hd)
    · intro code hsp
      rcases h1.best with hb | ⟨hb, ⟨e, hel, h5, h6, h7⟩, hmax⟩
      · rw [hb.2.1] at hsp; cases hsp
      obtain ⟨hec, F, hF, hfb⟩ := h1.good e hel
      obtain ⟨code', p, x, h8, h9, h10, h10', h11, h12⟩ := hfb.found (by rw [h7]; exact hb)
      rw [h6, hsp] at h8
      cases h8
      rw [h5] at hF
      refine ⟨h5 ▸ hec, F, p, hF, h9, h10, h10', ?_, ?_⟩
      · rw [← h7, h11] at hb
        have hb' : (1 / 10000000 : ℚ) < x := hb
        have := (abs_le.1 h12).2
        linarith
      · intro i hi F' hF' q hd ho hk
        rcases hevery i hi with ⟨e', hel', rfl⟩ | h
        · obtain ⟨-, F'', hF'', hb''⟩ := h1.good e' hel'
          rw [hF'] at hF''
          cases hF''
          have hle := hb''.best q hd ho hk
          have hno := hmax e' hel'
          rw [← h7, h11] at hno
          by_contra hgt
          refine hno (XF.lt_of_lt_of_le' ?_ hle)
          rw [XF.fin_lt]
          have := (abs_le.1 h12).2
          linarith
        · exact absurd ho (hknown i h F' hF' q hd)

theorem grow_near (hMat : MatrixOk fm cases) (hw : L.Near imp δ B N) (hcut : 0 ≤ cut) (hM : ∀ f ∈ fm.data, FeatOk f cases)
    (hsome : ∀ i ∈ cans, ∀ F, fm.data[i]? = some F →
      F.Exhaustive ∧ F.Apart Rep64 F64.round (.fin cut) (F.knowns cases))
    (hv : o.vet = false) (he : o.evaloob = false) (hx : o.extraRandom = false) (hls : 1 ≤ o.leafSize)
    (hgood : good C.start) (hin : ∀ i ∈ cans, i < fm.data.length) (hm : o.mTry = cans.length)
    (fp : List Nat → String) (md : Int) (sm : Bool) :
    ∀ (fuel : Nat) (fi0 : Nat) (p0 : String) (st : SplitState ℚ) (cs : List Nat) (d nc : Nat) (n : Node ℚ)
      (st' : SplitState ℚ), GreedyState L cans st → nc ≤ cans.length → (∀ c ∈ cs, c ∈ cases) → cs.length ≤ N →
      (∀ i ∈ st.cans.drop (cans.length - nc), ∀ F, fm.data[i]? = some F → F.NoRoom o.leafSize cs) →
      grow (treeGrowerR F64.round (.fin cut) fm T C o fp md sm) fm fuel (.mk none fi0 .nil .nil .nil p0 none) st cs d nc = some (n, st') →
      GreedyState L cans st' ∧ st'.cans.drop (cans.length - nc) = st.cans.drop (cans.length - nc) ∧
        GreedyUpTo (8 * δ) fm cans imp o.leafSize md n cs d := by
  intro fuel
  induction fuel with
  | zero => intro fi0 p0 st cs d nc n st' _ _ _ _ _ h; simp [grow] at h
  | succ fuel ih =>
    intro fi0 p0 st cs d nc n st' hst hnc hcs hbig hknown h
    rw [grow] at h
    split at h
    · rename_i hcond
      simp only [Option.bind_eq_bind, Option.bind_eq_some_iff] at h
      obtain ⟨⟨st1, res⟩, hb, h⟩ := h
      have hlen : 2 * o.leafSize ≤ cs.length := hcond.2
      have hne : cs ≠ [] := List.ne_nil_of_length_pos (by omega)
      obtain ⟨dr, e, hperm, hok1, hcan1, hnc1, hnc2, hkeep, hflat, hleaf, hsplit⟩ := bestSplitterR_near (C := C) (o := o)
        hw hcut hM hsome hv he hx hls hgood hst.cans_ hin hm hnc hcs hne hbig hst.allocs hknown
      simp only [treeGrowerR, e, Option.bind_eq_bind, Option.bind_some, Option.some.injEq, Prod.mk.injEq] at hb
      obtain ⟨rfl, rfl⟩ := hb
      have hst1 : GreedyState L cans ⟨dr.st.work.allocs, dr.st.work.rng, dr.cans, dr.st.oob⟩ := ⟨hok1, hcan1⟩
      cases hres : dr.split with
      | none =>
        simp only [hres, Option.some.injEq, Prod.mk.injEq] at h
        rw [← h.1, ← h.2]
        refine ⟨hst1, hkeep, ?_⟩
        rw [GreedyUpTo]
        exact .inr (hleaf hres)
      | some code =>
        obtain ⟨hfi, F, p, hF, hcode, hdiv, hroom, hgt, hmax⟩ := hsplit code hres
        simp only [hres, Option.bind_eq_some_iff] at h
        obtain ⟨f, hf, spl, hdec, ⟨cs', li, ri⟩, hpt, h⟩ := h
        rw [hF] at hf
        cases hf
        have hfit := room_fits hls hroom hcode
        have hcs1 : ∀ c ∈ dr.st.work.cases, c ∈ cases := fun c hc => hcs c (hperm.mem_iff.1 hc)
        obtain ⟨cs'', li', ri', hpt', hle, hle', hlen', sp, e1, e2, e3, hok⟩ :=
          splitPoints_ok hMat (some spl) hF hfit dr.st.work.cases hcs1
        rw [hpt] at hpt'; cases hpt'
        have hsp := hok.congr hperm
        obtain ⟨hbl, hbr, hbm⟩ := nodeSplit_blocks hF hsp hcode
        have hml : sp.missing.length = ri - li := by
          rw [e3, List.length_take, List.length_drop]; omega
        rw [← e1, ← e2, ← e3] at h
        have hsubl : sp.left.Subperm cs := hbl.subperm.trans ((List.filter_sublist.trans List.filter_sublist).subperm)
        have hsubr : sp.right.Subperm cs := hbr.subperm.trans ((List.filter_sublist.trans List.filter_sublist).subperm)
        have hsubm : sp.missing.Subperm cs := hbm.subperm.trans List.filter_sublist.subperm
        have hflat' : ∀ {cs' : List Nat}, cs'.Subperm cs → ∀ {X : List Nat},
            X.drop (cans.length - dr.nConst) = dr.cans.drop (cans.length - dr.nConst) →
            ∀ i ∈ X.drop (cans.length - dr.nConst), ∀ F, fm.data[i]? = some F → F.NoRoom o.leafSize cs' := by
          intro cs' hs X hX i hi F hF
          rw [hX] at hi
          exact (hflat i hi F hF).sub hs
        have hback : ∀ {X : List Nat}, X.drop (cans.length - dr.nConst) = dr.cans.drop (cans.length - dr.nConst) →
            X.drop (cans.length - nc) = st.cans.drop (cans.length - nc) := by
          intro X hX
          have : ∀ Y : List Nat, Y.drop (cans.length - nc) = (Y.drop (cans.length - dr.nConst)).drop (dr.nConst - nc) := by
            intro Y
            rw [List.drop_drop]
            congr 1
            omega
          rw [← hkeep, this, hX, ← this]
        have hgl : ∀ {m : Node ℚ} {x : Nat}, GreedyUpTo (8 * δ) fm cans imp o.leafSize md m sp.left x →
            GreedyUpTo (8 * δ) fm cans imp o.leafSize md m (F.toLeft p cs) x :=
          fun h => greedyUpTo_perm hw.perm _ _ _ _ hbl h
        have hgr : ∀ {m : Node ℚ} {x : Nat}, GreedyUpTo (8 * δ) fm cans imp o.leafSize md m sp.right x →
            GreedyUpTo (8 * δ) fm cans imp o.leafSize md m (F.toRight p cs) x :=
          fun h => greedyUpTo_perm hw.perm _ _ _ _ hbr h
        have hgm : ∀ {m : Node ℚ} {x : Nat}, GreedyUpTo (8 * δ) fm cans imp o.leafSize md m sp.missing x →
            GreedyUpTo (8 * δ) fm cans imp o.leafSize md m (F.missings cs) x :=
          fun h => greedyUpTo_perm hw.perm _ _ _ _ hbm h
        cases hsm : sm with
        | false =>
          rw [show (treeGrowerR F64.round (.fin cut) fm T C o fp md sm).splitmissing = false from hsm,
            show growChildren false (.nil : Node ℚ) .nil .nil = (.fresh, .fresh, .nil) from rfl] at h
          obtain ⟨⟨nl, st2⟩, hl, ⟨nr, st3⟩, hr, h⟩ := h
          obtain ⟨hs2, hk2, gl⟩ := ih _ _ _ _ _ _ _ _ hst1 hnc2 (fun c hc => hcs c (hsubl.subset hc)) (hsubl.length_le.trans hbig) (hflat' hsubl rfl) hl
          obtain ⟨hs3, hk3, gr⟩ := ih _ _ _ _ _ _ _ _ hs2 hnc2 (fun c hc => hcs c (hsubr.subset hc)) (hsubr.length_le.trans hbig) (hflat' hsubr hk2) hr
          simp [Node.isNil] at h
          rw [← h.1, ← h.2]
          refine ⟨hs3, hback (hk3.trans hk2), ?_⟩
          rw [GreedyUpTo]
          exact ⟨hfi, F, p, hF, hcode, hdiv, hroom, hgt, hmax, hgl gl, hgr gr, .inl rfl⟩
        | true =>
          rw [show (treeGrowerR F64.round (.fin cut) fm T C o fp md sm).splitmissing = true from hsm,
            show growChildren true (.nil : Node ℚ) .nil .nil = (.fresh, .fresh, .fresh) from rfl] at h
          obtain ⟨⟨nl, st2⟩, hl, ⟨nr, st3⟩, hr, h⟩ := h
          obtain ⟨hs2, hk2, gl⟩ := ih _ _ _ _ _ _ _ _ hst1 hnc2 (fun c hc => hcs c (hsubl.subset hc)) (hsubl.length_le.trans hbig) (hflat' hsubl rfl) hl
          obtain ⟨hs3, hk3, gr⟩ := ih _ _ _ _ _ _ _ _ hs2 hnc2 (fun c hc => hcs c (hsubr.subset hc)) (hsubr.length_le.trans hbig) (hflat' hsubr hk2) hr
          by_cases hli : li = ri
          · simp only [hli, ne_eq, not_true_eq_false, false_and, if_false, Option.some.injEq,
              Prod.mk.injEq] at h
            rw [← h.1, ← h.2]
            refine ⟨hs3, hback (hk3.trans hk2), ?_⟩
            rw [GreedyUpTo]
            refine ⟨hfi, F, p, hF, hcode, hdiv, hroom, hgt, hmax, hgl gl, hgr gr, .inr (hgm ?_)⟩
            have hnil : sp.missing = [] := List.eq_nil_of_length_eq_zero (by omega)
            rw [hnil, Node.fresh, GreedyUpTo]
            refine .inr fun i hi F hF q hd ho => ?_
            have := room_length ho
            simp at this
            omega
          · rw [if_pos ⟨hli, rfl⟩] at h
            obtain ⟨⟨nm, st4⟩, hmm, h⟩ := Option.bind_eq_some_iff.1 h
            simp only [Option.some.injEq, Prod.mk.injEq] at h
            rw [← h.1, ← h.2]
            obtain ⟨hs4, hk4, gm⟩ := ih _ _ _ _ _ _ _ _ hs3 hnc2 (fun c hc => hcs c (hsubm.subset hc)) (hsubm.length_le.trans hbig)
              (hflat' hsubm (hk3.trans hk2)) hmm
            refine ⟨hs4, hback (hk4.trans (hk3.trans hk2)), ?_⟩
            rw [GreedyUpTo]
            exact ⟨hfi, F, p, hF, hcode, hdiv, hroom, hgt, hmax, hgl gl, hgr gr, .inr (hgm gm)⟩
    · rename_i hcond
      simp only [Option.some.injEq, Prod.mk.injEq] at h
      rw [← h.1, ← h.2]
      refine ⟨hst, rfl, ?_⟩
      rw [GreedyUpTo]
      by_cases hd : 0 < md ∧ md ≤ d
      · exact .inl hd
      · refine .inr fun i hi F hF p hd' ho => ?_
        have h1 := room_length ho
        exact absurd ⟨by show (d : Int) < md ∨ md ≤ 0; omega, h1⟩ hcond

end
end CloudForest
