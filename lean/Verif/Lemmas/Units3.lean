import Verif.Lemmas.Units2

/-! # Lemmas about growing the same tree in another order or in other units -/

set_option linter.unusedSectionVars false

namespace CloudForest
variable {K : Type} [Field K] [LinearOrder K] [IsStrictOrderedRing K] {τ : Type}

theorem Feature.Rescaled.isMissing {F F' : Feature K} {cs : List Nat} (h : F.Rescaled F' cs) : F'.isMissing = F.isMissing := by
  cases F <;> cases F' <;> simp only [Feature.Rescaled] at h
  · rw [h]
  · funext c
    simp only [Feature.isMissing, h.1]

theorem Feature.Rescaled.missingVals {F F' : Feature K} {cs : List Nat} (h : F.Rescaled F' cs) :
    F'.missingVals = F.missingVals := by
  cases F <;> cases F' <;> simp only [Feature.Rescaled] at h
  · rw [h]
  · exact h.2.1.symm

theorem Feature.Rescaled.knowns {F F' : Feature K} {cs : List Nat} (h : F.Rescaled F' cs) (l : List Nat) :
    F'.knowns l = F.knowns l := by
  unfold Feature.knowns
  rw [h.isMissing]

theorem Feature.Rescaled.missings {F F' : Feature K} {cs : List Nat} (h : F.Rescaled F' cs) (l : List Nat) :
    F'.missings l = F.missings l := by
  unfold Feature.missings
  rw [h.isMissing]

/-- A feature and the same feature in other units, both fit for searching. -/
structure TwinFeat (F F' : Feature K) (all : List Nat) : Prop where
  rescaled : F.Rescaled F' all
  ok : FeatOk F all
  ok' : FeatOk F' all
  ties : F' = F ∨ (F.NoNearTies (F.knowns all) ∧ F'.NoNearTies (F.knowns all))

theorem knowns_mem {F : Feature K} {cs cs' : List Nat} (h : ∀ c ∈ cs, c ∈ cs') : ∀ c ∈ F.knowns cs, c ∈ F.knowns cs' := by
  intro c hc
  unfold Feature.knowns at hc ⊢
  rw [List.mem_filter] at hc ⊢
  exact ⟨h c hc.1, hc.2⟩

section
variable {T T' : Target K} {all : List Nat} {L : TargetLaws T all} {L' : TargetLaws T' all} (hE : L.Agrees L')
  (parentImp : XF K)

include hE in
/-- Searching known cases. -/
theorem search_twin {F F' : Feature K} (hF : TwinFeat F F' all) {leafSize : Nat} (hls : 1 ≤ leafSize) (rs : Bool)
    {w w' : Work K} (hk : ∀ c ∈ w.cases, c ∈ F.knowns all) (hw : TwinWork L L' w w') :
    ∃ r r' w1 w1', F.search T parentImp leafSize rs w = some (r, w1) ∧
      F'.search T' parentImp leafSize rs w' = some (r', w1') ∧ TwinWork L L' w1 w1' ∧ TwinFound F F' w.cases r r' ∧
      (∀ code, r.code = some code → F.CodeFits code) ∧ ∀ code, r'.code = some code → F'.CodeFits code := by
  have hcs : ∀ c ∈ w.cases, c ∈ all := fun c hc => F.mem_knowns (hk c hc)
  have hcs' : ∀ c ∈ w'.cases, c ∈ all := fun c hc => hcs c (hw.perm.mem_iff.1 hc)
  have hs : F.Searchable w.cases := by
    have := hF.ok.vals
    cases F <;> exact fun c hc => this c (hk c hc)
  have hs' : F'.Searchable w'.cases := by
    have := hF.ok'.vals
    have hk' : ∀ c ∈ w'.cases, c ∈ F'.knowns all := by
      rw [hF.rescaled.knowns]
      exact fun c hc => hk c (hw.perm.mem_iff.1 hc)
    cases F' <;> exact fun c hc => this c (hk' c hc)
  suffices h : ∃ r r' w1 w1', F.search T parentImp leafSize rs w = some (r, w1) ∧
      F'.search T' parentImp leafSize rs w' = some (r', w1') ∧ TwinWork L L' w1 w1' ∧ TwinFound F F' w.cases r r' by
    obtain ⟨r, r', w1, w1', e, e', h1, h2⟩ := h
    obtain ⟨r2, w2, e2, -, -, h3⟩ := search_ok L parentImp leafSize F hls rs w hcs hs hw.ok
    obtain ⟨r2', w2', e2', -, -, h3'⟩ := search_ok L' parentImp leafSize F' hls rs w' hcs' hs' hw.ok'
    rw [e] at e2
    rw [e'] at e2'
    cases e2
    cases e2'
    exact ⟨r, r', w1, w1', e, e', h1, h2, h3.fits, h3'.fits⟩
  cases F with
  | num f =>
    cases F' with
    | cat f' => exact absurd hF.rescaled id
    | num f' =>
      exact bestNumSplit_twin hE parentImp f f' hls rs hcs hs (fun c hc => hs' c (hw.perm.mem_iff.2 hc))
        (hF.ties.imp (fun h => Feature.num.inj h) fun h =>
          ⟨fun c hc d hd => h.1 c (hk c hc) d (hk d hd), fun c hc d hd => h.2 c (hk c hc) d (hk d hd)⟩)
        (fun c hc d hd => hF.rescaled.2.2 c (hk c hc) d (hk d hd)) hw
  | cat f =>
    cases F' with
    | num f' => exact absurd hF.rescaled id
    | cat f' =>
      have : f = f' := hF.rescaled
      subst this
      obtain ⟨r, w1, w1', e, e', h⟩ := searchCat_twin hE parentImp f leafSize rs hs hcs hw
      obtain ⟨r2, w2, e2, -, -, h3⟩ := search_ok L parentImp leafSize (.cat f) hls rs w hcs hs hw.ok
      rw [e] at e2
      cases e2
      refine ⟨r, r, w1, w1', e, e', h, rfl, rfl, fun hlt => ?_, fun _ => rfl, fun _ _ _ _ h => nomatch h⟩
      obtain ⟨code, hc, -⟩ := h3.adm hlt
      have hfit := h3.fits code hc
      have hv : f.HasVals w.cases := fun c hc => (hs c hc).imp fun k hk => hk.1
      cases code with
      | num v => exact absurd hfit id
      | int b =>
        refine ⟨_, _, fun c => b.testBit (f.cat c), hc, hc, fun c hcm => ?_⟩
        simp only [Feature.codedLeft, hv.eq hcm, Option.bind_eq_bind, Option.bind_some, and_self]
      | big b =>
        refine ⟨_, _, fun c => b.testBit (f.cat c), hc, hc, fun c hcm => ?_⟩
        simp only [Feature.codedLeft, hv.eq hcm, Option.bind_eq_bind, Option.bind_some, and_self]

include hE in
/-- Searching all cases. -/
theorem bestSplit_twin {F F' : Feature K} (hF : TwinFeat F F' all) {leafSize : Nat} (hls : 1 ≤ leafSize) (rs : Bool)
    {w w' : Work K} (hcs : ∀ c ∈ w.cases, c ∈ all) (hw : TwinWork L L' w w') :
    ∃ r r' w1 w1', F.bestSplit T parentImp leafSize rs w = some (r, w1) ∧
      F'.bestSplit T' parentImp leafSize rs w' = some (r', w1') ∧ TwinWork L L' w1 w1' ∧ w1.cases.Perm w.cases ∧
      TwinFound F F' (F.knowns w.cases) r r' ∧
      (∀ code, r.code = some code → F.CodeFits code) ∧ ∀ code, r'.code = some code → F'.CodeFits code := by
  have hcs' : ∀ c ∈ w'.cases, c ∈ all := fun c hc => hcs c (hw.perm.mem_iff.1 hc)
  have hz : ¬ (minImp : XF K) < .fin 0 := by
    unfold minImp
    rw [XF.fin_lt]; norm_num
  have hkp := F.knowns_perm hw.perm
  have hmp := F.missings_perm hw.perm
  obtain ⟨x0, w0, e0, hp0, -⟩ := bestSplit_ok L parentImp leafSize F hls rs w hcs (hF.ok.searchable hcs)
    (fun c hc => hF.ok.isMissing (hcs c hc)) hF.ok.sound hw.ok
  suffices h : ∃ r r' w1 w1', F.bestSplit T parentImp leafSize rs w = some (r, w1) ∧
      F'.bestSplit T' parentImp leafSize rs w' = some (r', w1') ∧ TwinWork L L' w1 w1' ∧
      TwinFound F F' (F.knowns w.cases) r r' ∧
      (∀ code, r.code = some code → F.CodeFits code) ∧ ∀ code, r'.code = some code → F'.CodeFits code by
    obtain ⟨r, r', w1, w1', e, e', h1, h2, h3, h4⟩ := h
    rw [e] at e0
    injection e0 with e0
    injection e0 with _ e0
    subst e0
    exact ⟨r, r', w1, w1', e, e', h1, hp0, h2, h3, h4⟩
  clear e0 hp0
  unfold Feature.bestSplit
  rw [hF.rescaled.missingVals]
  by_cases hmv : F.missingVals = true
  · rw [if_pos hmv, if_pos hmv, missing_sift F _ fun c hc => hF.ok.isMissing (hcs c hc),
      missing_sift F' _ fun c hc => hF.ok'.isMissing (hcs' c hc), hF.rescaled.knowns, hF.rescaled.missings]
    simp only [Option.bind_eq_bind, Option.bind_some, hkp.length_eq, hmp.length_eq, hw.perm.length_eq]
    by_cases h0 : (F.knowns w.cases).length = 0
    · rw [if_pos h0, if_pos h0]
      exact ⟨_, _, _, _, rfl, rfl, hw, ⟨rfl, rfl, fun h => absurd h hz, fun _ => rfl,
        fun _ _ _ _ _ _ _ h => absurd h hz⟩, (fun _ h => nomatch h),
        (fun _ h => nomatch h)⟩
    · rw [if_neg h0, if_neg h0]
      obtain ⟨a, e1, hok⟩ := L.impurity w.allocs (F.knowns w.cases) hw.ok fun c hc => hcs c (F.mem_knowns hc)
      obtain ⟨a', e1', hok'⟩ := L'.impurity w'.allocs (F.knowns w'.cases) hw.ok' fun c hc => hcs' c (F.mem_knowns hc)
      rw [e1, e1', hE.I_perm hkp fun c hc => hcs c (F.mem_knowns hc)]
      simp only [Option.bind_some]
      obtain ⟨mi, a1, a1', e2, e2', hok1, hok1'⟩ : ∃ mi a1 a1', missingImpurity T a (F.missings w.cases) = some (mi, a1) ∧
          missingImpurity T' a' (F.missings w'.cases) = some (mi, a1') ∧ L.Ok a1 ∧ L'.Ok a1' := by
        unfold missingImpurity
        rw [hmp.length_eq]
        split
        · obtain ⟨a1, e2, h1⟩ := L.impurity a (F.missings w.cases) hok fun c hc => hcs c (F.mem_missings hc)
          obtain ⟨a1', e2', h1'⟩ := L'.impurity a' (F.missings w'.cases) hok' fun c hc => hcs' c (F.mem_missings hc)
          rw [hE.I_perm hmp fun c hc => hcs c (F.mem_missings hc)] at e2'
          exact ⟨_, a1, a1', e2, e2', h1, h1'⟩
        · exact ⟨_, a, a', rfl, rfl, hok, hok'⟩
      rw [e2, e2']
      simp only [Option.bind_some]
      obtain ⟨r, r', w1, w1', e, e', h1, h2, h3, h4⟩ := search_twin hE (L.I (F.knowns w.cases)) hF hls rs
        (w := ⟨F.knowns w.cases, a1, w.rng⟩) (w' := ⟨F.knowns w'.cases, a1', w'.rng⟩) (knowns_mem hcs)
        ⟨hkp, hok1, hok1', hw.rng⟩
      rw [e, e']
      simp only [Option.bind_some, h2.imp]
      by_cases hc : 0 < (F.missings w.cases).length ∧ minImp < r.imp
      · rw [if_pos hc, if_pos hc]
        exact ⟨_, _, _, _, rfl, rfl, ⟨hw.perm, h1.ok, h1.ok', h1.rng⟩,
          ⟨rfl, h2.constant, fun _ => h2.code hc.2, h2.same, fun f f' a b e1 e2 e3 _ => h2.affine f f' a b e1 e2 e3 hc.2⟩, h3, h4⟩
      · rw [if_neg hc, if_neg hc]
        exact ⟨_, _, _, _, rfl, rfl, ⟨hw.perm, h1.ok, h1.ok', h1.rng⟩, h2, h3, h4⟩
  · rw [if_neg hmv, if_neg hmv]
    have hall : F.knowns w.cases = w.cases := by
      apply List.filter_eq_self.2
      intro c hc
      rcases h : F.isMissing c with _ | b
      · exact absurd h (hF.ok.isMissing (hcs c hc))
      · cases b
        · rfl
        · exact absurd (hF.ok.sound c h) hmv
    rw [hall]
    exact search_twin hE parentImp hF hls rs (fun c hc => by rw [← hall] at hc; exact knowns_mem hcs c hc) hw

/-! ## The candidates -/

/-- The states of two searches. -/
structure TwinSearching (L : TargetLaws T all) (L' : TargetLaws T' all) (cs : List Nat) (s s' : Searching K τ) : Prop where
  work : TwinWork L L' s.work s'.work
  perm : s.work.cases.Perm cs

theorem TwinFound.perm {F F' : Feature K} {cs cs' : List Nat} {r r' : Found K} (h : TwinFound F F' cs r r')
    (hp : cs.Perm cs') : TwinFound F F' cs' r r' :=
  ⟨h.imp, h.constant, fun hlt => by
    obtain ⟨a, b, p, h1, h2, h3⟩ := h.code hlt
    exact ⟨a, b, p, h1, h2, fun c hc => h3 c (hp.mem_iff.2 hc)⟩, h.same,
    fun f f' a b e1 e2 e3 => h.affine f f' a b e1 e2 fun c hc => e3 c (hp.mem_iff.1 hc)⟩

/-- Codes for feature `i` that send the same of the listed cases left. -/
def TwinCode (all : List Nat) (fm fm' : FeatureMatrix K) (cs : List Nat) (i : Nat) (c c' : Option (Coded K)) : Prop :=
  ∃ (F F' : Feature K) (code code' : Coded K) (p : Nat → Bool), fm.data[i]? = some F ∧ fm'.data[i]? = some F' ∧ c = some code ∧ c' = some code' ∧
    F.CodeFits code ∧ F'.CodeFits code' ∧ F.Rescaled F' all ∧
    (∀ c ∈ F.knowns cs, F.codedLeft code c = some (p c) ∧ F'.codedLeft code' c = some (p c)) ∧ (F' = F → code' = code) ∧
    F.MovesWith F' (F.knowns cs) code code'

variable {fm fm' : FeatureMatrix K} {C C' : Contrast K τ} {o : SplitOpts} {cans : List Nat}

include hE in
theorem evalFeature_twin (hfm : ∀ i ∈ cans, ∃ F F', fm.data[i]? = some F ∧ fm'.data[i]? = some F' ∧ TwinFeat F F' all)
    (hv : o.vet = false) (he : o.evaloob = false) (hls : 1 ≤ o.leafSize) {cs : List Nat} (hcs : ∀ c ∈ cs, c ∈ all)
    {s s' : Searching K τ} (hs : TwinSearching L L' cs s s') (best : XF K) {i : Nat} (hi : i ∈ cans) :
    ∃ r r' s1 s1', evalFeature fm T C o parentImp s best i = some (r, s1) ∧
      evalFeature fm' T' C' o parentImp s' best i = some (r', s1') ∧ TwinSearching L L' cs s1 s1' ∧
      r'.imp = r.imp ∧ r'.constant = r.constant ∧ (minImp < r.imp → TwinCode all fm fm' cs i r.code r'.code) := by
  obtain ⟨F, F', hf, hf', hF⟩ := hfm i hi
  obtain ⟨r, r', w1, w1', e, e', h1, hp, h2, h3, h4⟩ := bestSplit_twin hE parentImp hF hls o.extraRandom
    (fun c hc => hcs c (hs.perm.mem_iff.1 hc)) hs.work
  unfold evalFeature
  simp only [hf, hf', e, e', Option.bind_eq_bind, Option.bind_some, oobStep, vetStep, hv, he, Bool.false_eq_true, false_and,
    if_false]
  refine ⟨_, _, _, _, rfl, rfl, ⟨h1, hp.trans hs.perm⟩, h2.imp, h2.constant, fun hlt => ?_⟩
  obtain ⟨a, b, p, h5, h6, h7⟩ := h2.code hlt
  refine ⟨F, F', a, b, p, hf, hf', h5, h6, h3 a h5, h4 b h6, hF.rescaled, fun c hc => h7 c ?_, fun hff => ?_, ?_⟩
  · exact (F.knowns_perm hs.perm).mem_iff.2 hc
  · have := h2.same hff
    rw [h5, h6] at this
    exact Option.some.inj this
  · intro f f' x y e1 e2 e3
    obtain ⟨v, h8, h9⟩ := h2.affine f f' x y e1 e2 (fun c hc => e3 c ((F.knowns_perm hs.perm).mem_iff.1 hc)) hlt
    rw [h5] at h8
    rw [h6] at h9
    exact ⟨v, Option.some.inj h8, Option.some.inj h9⟩

/-- Two runs of the loop over the candidates. -/
structure TwinDraw (L : TargetLaws T all) (L' : TargetLaws T' all) (cs : List Nat) (d d' : Draw K (Searching K τ)) : Prop where
  cans_ : d'.cans = d.cans
  lastSample : d'.lastSample = d.lastSample
  nDrawn : d'.nDrawn = d.nDrawn
  nConst : d'.nConst = d.nConst
  fi : d'.fi = d.fi
  imp : d'.imp = d.imp
  split : (d.imp = minImp ∧ d.split = none ∧ d'.split = none) ∨
    (minImp < d.imp ∧ TwinCode all fm fm' cs d.fi d.split d'.split)
  st : TwinSearching L L' cs d.st d'.st
  mem : d.cans.Perm cans

include hE in
theorem evalAt_twin (hfm : ∀ i ∈ cans, ∃ F F', fm.data[i]? = some F ∧ fm'.data[i]? = some F' ∧ TwinFeat F F' all)
    (hv : o.vet = false) (he : o.evaloob = false) (hls : 1 ≤ o.leafSize) {cs : List Nat} (hcs : ∀ c ∈ cs, c ∈ all)
    {d d' d1 : Draw K (Searching K τ)} (hd : TwinDraw L L' (fm := fm) (fm' := fm') (cans := cans) cs d d')
    (h : evalAt (evalFeature fm T C o parentImp) d = some d1) :
    ∃ d1', evalAt (evalFeature fm' T' C' o parentImp) d' = some d1' ∧
      TwinDraw L L' (fm := fm) (fm' := fm') (cans := cans) cs d1 d1' := by
  unfold evalAt at h ⊢
  rw [hd.cans_, hd.lastSample]
  cases hi : d.cans[d.lastSample]? with
  | none => rw [hi] at h; cases h
  | some i =>
    rw [hi] at h
    obtain ⟨r, r', s1, s1', e, e', h1, h2, h3, h4⟩ := evalFeature_twin hE parentImp (C := C) (C' := C') hfm hv he hls hcs hd.st
      d.imp (hd.mem.mem_iff.1 (List.mem_of_getElem? hi))
    simp only [e] at h
    rw [hd.imp]
    simp only [e', h2, h3, hd.nDrawn, hd.nConst]
    have hbest : ∀ {x : Nat × Option (Coded K) × XF K} {x' : Nat × Option (Coded K) × XF K},
        (if d.imp < r.imp then (i, r.code, r.imp) else (d.fi, d.split, d.imp)) = x →
        (if d.imp < r.imp then (i, r'.code, r.imp) else (d'.fi, d'.split, d.imp)) = x' →
        x'.1 = x.1 ∧ x'.2.2 = x.2.2 ∧ ((x.2.2 = minImp ∧ x.2.1 = none ∧ x'.2.1 = none) ∨
          (minImp < x.2.2 ∧ TwinCode all fm fm' cs x.1 x.2.1 x'.2.1)) := by
      intro x x' hx hx'
      by_cases hlt : d.imp < r.imp
      · rw [if_pos hlt] at hx hx'
        subst hx hx'
        have hm : minImp < r.imp := by
          rcases hd.split with h | h
          · rw [← h.1]; exact hlt
          · exact XF.lt_trans' h.1 hlt
        exact ⟨rfl, rfl, .inr ⟨hm, h4 hm⟩⟩
      · rw [if_neg hlt] at hx hx'
        subst hx hx'
        exact ⟨hd.fi, rfl, hd.split⟩
    obtain ⟨b1, b2, b3⟩ := hbest rfl rfl
    by_cases hc : r.constant = true
    · simp only [hc, if_true] at h ⊢
      cases hs : swp d.cans (d.cans.length - (d.nConst + 1)) d.lastSample with
      | none => rw [hs] at h; cases h
      | some cans1 =>
        rw [hs] at h
        cases h
        exact ⟨_, rfl, rfl, rfl, rfl, rfl, b1, b2, b3, h1, (swp_perm hs).trans hd.mem⟩
    · simp only [hc, Bool.false_eq_true, if_false, Option.some.injEq] at h ⊢
      cases h
      exact ⟨_, rfl, rfl, rfl, rfl, rfl, b1, b2, b3, h1, hd.mem⟩

include hE in
theorem bestLoop_twin (hfm : ∀ i ∈ cans, ∃ F F', fm.data[i]? = some F ∧ fm'.data[i]? = some F' ∧ TwinFeat F F' all)
    (hv : o.vet = false) (he : o.evaloob = false) (hls : 1 ≤ o.leafSize) {cs : List Nat} (hcs : ∀ c ∈ cs, c ∈ all)
    (mTry : Nat) (force : Bool) : ∀ (fuel j : Nat) (d d' d1 : Draw K (Searching K τ)),
      TwinDraw L L' (fm := fm) (fm' := fm') (cans := cans) cs d d' →
      bestLoop (evalFeature fm T C o parentImp) Searching.intn mTry force fuel j d = some d1 →
      ∃ d1', bestLoop (evalFeature fm' T' C' o parentImp) Searching.intn mTry force fuel j d' = some d1' ∧
        TwinDraw L L' (fm := fm) (fm' := fm') (cans := cans) cs d1 d1' := by
  intro fuel
  induction fuel with
  | zero => intro j d d' d1 _ h; cases h
  | succ fuel ih =>
    intro j d d' d1 hd h
    rw [bestLoop] at h ⊢
    rw [hd.nDrawn, hd.nConst, hd.cans_, hd.lastSample]
    split at h
    · rename_i h1
      rw [if_pos h1]
      split at h
      · rename_i h2
        cases h
        rw [if_pos h2]
        exact ⟨d', rfl, hd⟩
      · rename_i h2
        rw [if_neg h2]
        split at h
        · rename_i h3
          rw [if_pos h3]
          have hx : ∀ {n x : Nat} {s1}, Searching.intn d.st n = some (x, s1) →
              ∃ s1', Searching.intn d'.st n = some (x, s1') ∧ TwinSearching L L' cs s1 s1' := by
            intro n x s1 hx
            unfold Searching.intn at hx ⊢
            rw [hd.st.work.rng]
            obtain ⟨⟨y, rng⟩, hy, hx⟩ := Option.bind_eq_some_iff.1 hx
            rw [hy]
            cases hx
            exact ⟨_, rfl, ⟨⟨hd.st.work.perm, hd.st.work.ok, hd.st.work.ok', rfl⟩, hd.st.perm⟩⟩
          cases hi : Searching.intn d.st (d.cans.length - d.nDrawn - d.lastSample) with
          | none => rw [hi] at h; cases h
          | some xs =>
            obtain ⟨x, s1⟩ := xs
            obtain ⟨s1', hi', hs1⟩ := hx hi
            rw [hi] at h
            rw [hi']
            simp only at h ⊢
            split at h
            · rename_i h4
              rw [if_pos h4]
              refine ih _ _ _ _ ?_ h
              exact ⟨rfl, rfl, rfl, rfl, hd.fi, hd.imp, hd.split, hs1, hd.mem⟩
            · rename_i h4
              rw [if_neg h4]
              cases hs : swp d.cans (d.lastSample + x) d.lastSample with
              | none => rw [hs] at h; cases h
              | some cans1 =>
                rw [hs] at h
                simp only at h ⊢
                cases hev : evalAt (evalFeature fm T C o parentImp) { d with cans := cans1, st := s1 } with
                | none => rw [hev] at h; cases h
                | some d2 =>
                  rw [hev] at h
                  obtain ⟨d2', hev', hd2⟩ := evalAt_twin hE parentImp (C' := C') hfm hv he hls hcs
                    (d' := { d' with cans := cans1, lastSample := d.lastSample, nDrawn := d.nDrawn, nConst := d.nConst, st := s1' })
                    (d := { d with cans := cans1, st := s1 })
                    ⟨rfl, rfl, rfl, rfl, hd.fi, hd.imp, hd.split, hs1,
                      (swp_perm hs).trans hd.mem⟩ hev
                  rw [hev']
                  exact ih _ _ _ _ hd2 h
        · rename_i h3
          rw [if_neg h3]
          cases hev : evalAt (evalFeature fm T C o parentImp) d with
          | none => rw [hev] at h; cases h
          | some d2 =>
            rw [hev] at h
            obtain ⟨d2', hev', hd2⟩ := evalAt_twin hE parentImp (C' := C') hfm hv he hls hcs hd hev
            rw [hev']
            exact ih _ _ _ _ hd2 h
    · rename_i h1
      cases h
      rw [if_neg h1]
      exact ⟨d', rfl, hd⟩


/-! ## The tree -/

/-- The states of two growers. -/
structure TwinState (L : TargetLaws T all) (L' : TargetLaws T' all) (cans : List Nat) (st st' : SplitState K) : Prop where
  ok : L.Ok st.allocs
  ok' : L'.Ok st'.allocs
  rng : st'.rng = st.rng
  cans_ : st'.cans = st.cans
  mem : st.cans.Perm cans

include hE in
theorem bestSplitter_twin (hfm : ∀ i ∈ cans, ∃ F F', fm.data[i]? = some F ∧ fm'.data[i]? = some F' ∧ TwinFeat F F' all)
    (hv : o.vet = false) (he : o.evaloob = false) (hls : 1 ≤ o.leafSize) {cs cs' : List Nat} (hp : cs'.Perm cs)
    (hcs : ∀ c ∈ cs, c ∈ all) {st st' : SplitState K} (hst : TwinState L L' cans st st') (nc : Nat)
    {d : Draw K (Searching K τ)} (h : bestSplitter fm T C o st cs nc = some d) :
    ∃ d', bestSplitter fm' T' C' o st' cs' nc = some d' ∧
      TwinDraw L L' (fm := fm) (fm' := fm') (cans := cans) cs d d' := by
  unfold bestSplitter at h ⊢
  obtain ⟨a, e, hok⟩ := L.impurity st.allocs cs hst.ok hcs
  obtain ⟨a', e', hok'⟩ := L'.impurity st'.allocs cs' hst.ok' fun c hc => hcs c (hp.mem_iff.1 hc)
  rw [e] at h
  rw [e', hE.I_perm hp hcs, hst.cans_, hst.rng]
  simp only at h ⊢
  have h0 : TwinDraw L L' (fm := fm) (fm' := fm') (cans := cans) cs
      (⟨st.cans, 0, 0, nc, 0, none, minImp, [], ⟨⟨cs, a, st.rng⟩, st.oob, C.start⟩⟩ : Draw K (Searching K τ))
      ⟨st.cans, 0, 0, nc, 0, none, minImp, [], ⟨⟨cs', a', st.rng⟩, st'.oob, C'.start⟩⟩ :=
    ⟨rfl, rfl, rfl, rfl, rfl, rfl, .inl ⟨rfl, rfl, rfl⟩, ⟨⟨hp, hok, hok', rfl⟩, .refl _⟩, hst.mem⟩
  split at h
  · rename_i hc
    rw [if_pos hc]
    cases h
    exact ⟨_, rfl, h0⟩
  · rename_i hc
    rw [if_neg hc]
    exact bestLoop_twin hE _ hfm hv he hls hcs _ _ _ _ _ _ _ h0 h

theorem Feature.Rescaled.decode {F F' : Feature K} {cs : List Nat} (h : F.Rescaled F' cs) {code code' : Coded K}
    (hf : F.CodeFits code) (hf' : F'.CodeFits code') (hs : F' = F → code' = code) {spl : Splitter K}
    (hd : F.decodeSplit code = some spl) : ∃ spl', F'.decodeSplit code' = some spl' ∧ (F' = F → spl' = spl) := by
  cases F with
  | cat f =>
    cases F' with
    | num f' => exact absurd h id
    | cat f' =>
      have : f = f' := h
      subst this
      rw [hs rfl]
      exact ⟨spl, hd, fun _ => rfl⟩
  | num f =>
    cases F' with
    | cat f' => exact absurd h id
    | num f' =>
      cases code' with
      | num x =>
        refine ⟨_, rfl, fun hff => ?_⟩
        rw [← hs hff, ← hff] at hd
        cases hd
        rfl
      | int b => exact absurd hf' id
      | big b => exact absurd hf' id

theorem treatAlike_perm {n : Node K} : ∀ {n' : Node K} {cs cs' : List Nat}, cs.Perm cs' → TreatAlike fm fm' n n' cs →
    TreatAlike fm fm' n n' cs' := by
  induction n with
  | nil =>
    intro n' cs cs' _ h
    rw [TreatAlike] at h ⊢
    exact h
  | mk coded fi l r m pred spl ihl ihr ihm =>
    intro n' cs cs' hp h
    match coded, n' with
    | none, n' =>
      rw [TreatAlike] at h ⊢
      exact h
    | some code, .nil => rw [TreatAlike] at h; exact absurd h id
    | some code, .mk none _ _ _ _ _ _ => rw [TreatAlike] at h; exact absurd h id
    | some code, .mk (some code') fi' l' r' m' pred' spl' =>
      rw [TreatAlike] at h ⊢
      obtain ⟨h1, h2, F, F', p, hF, hF', h3, h4, h8, h5, h6, h7⟩ := h
      have hk := F.knowns_perm hp
      exact ⟨h1, h2, F, F', p, hF, hF', fun c hc => h3 c (hk.mem_iff.2 hc), h4,
        fun f f' a b e1 e2 e3 => h8 f f' a b e1 e2 fun c hc => e3 c (hk.mem_iff.1 hc), ihl (hk.filter _) h5,
        ihr (hk.filter _) h6, ihm (F.missings_perm hp) h7⟩

include hE in
theorem grow_twin (hMat : MatrixOk fm all) (hMat' : MatrixOk fm' all)
    (hfm : ∀ i ∈ cans, ∃ F F', fm.data[i]? = some F ∧ fm'.data[i]? = some F' ∧ TwinFeat F F' all)
    (hv : o.vet = false) (he : o.evaloob = false) (hls : 1 ≤ o.leafSize)
    {fp : List Nat → String} (hfp : ∀ cs cs' : List Nat, cs'.Perm cs → (∀ c ∈ cs, c ∈ all) → fp cs' = fp cs)
    (md : Int) (sm : Bool) :
    ∀ (fuel : Nat) (fi0 : Nat) (p0 : String) (st st' : SplitState K) (cs cs' : List Nat) (d nc : Nat) (n : Node K)
      (st1 : SplitState K), TwinState L L' cans st st' → cs'.Perm cs → (∀ c ∈ cs, c ∈ all) →
      grow (treeGrower fm T C o fp md sm) fm fuel (.mk none fi0 .nil .nil .nil p0 none) st cs d nc = some (n, st1) →
      ∃ n' st1', grow (treeGrower fm' T' C' o fp md sm) fm' fuel (.mk none fi0 .nil .nil .nil p0 none) st' cs' d nc =
        some (n', st1') ∧ TwinState L L' cans st1 st1' ∧ TreatAlike fm fm' n n' cs := by
  intro fuel
  induction fuel with
  | zero => intro fi0 p0 st st' cs cs' d nc n st1 _ _ _ h; simp [grow] at h
  | succ fuel ih =>
    intro fi0 p0 st st' cs cs' d nc n st1 hst hp hcs h
    rw [grow] at h ⊢
    rw [hp.length_eq]
    split at h
    · rename_i hcond
      rw [if_pos (show ((d : Int) < (treeGrower fm' T' C' o fp md sm).maxDepth ∨ (treeGrower fm' T' C' o fp md sm).maxDepth ≤ 0) ∧
        2 * (treeGrower fm' T' C' o fp md sm).leafSize ≤ cs.length from hcond)]
      simp only [Option.bind_eq_bind, Option.bind_eq_some_iff] at h
      obtain ⟨⟨sta, res⟩, hb, h⟩ := h
      simp only [treeGrower, Option.bind_eq_bind, Option.bind_eq_some_iff] at hb
      obtain ⟨dr, hb, hb1⟩ := hb
      obtain ⟨dr', hb', hdr⟩ := bestSplitter_twin hE (C' := C') hfm hv he hls hp hcs hst nc hb
      simp only [Option.some.injEq, Prod.mk.injEq] at hb1
      obtain ⟨rfl, rfl⟩ := hb1
      rw [show (treeGrower fm' T' C' o fp md sm).best st' cs' nc =
        some (⟨dr'.st.work.allocs, dr'.st.work.rng, dr'.cans, dr'.st.oob⟩,
          ⟨dr'.st.work.cases, dr'.fi, dr'.split, dr'.nConst⟩) by
        simp only [treeGrower, hb', Option.bind_eq_bind, Option.bind_some]]
      simp only [Option.bind_eq_bind, Option.bind_some]
      have hperm : dr.st.work.cases.Perm cs := hdr.st.perm
      have hperm' : dr'.st.work.cases.Perm cs := hdr.st.work.perm.trans hperm
      have hst1 : TwinState L L' cans ⟨dr.st.work.allocs, dr.st.work.rng, dr.cans, dr.st.oob⟩
          ⟨dr'.st.work.allocs, dr'.st.work.rng, dr'.cans, dr'.st.oob⟩ :=
        ⟨hdr.st.work.ok, hdr.st.work.ok', hdr.st.work.rng, hdr.cans_, hdr.mem⟩
      rcases hdr.split with ⟨-, h1, h2⟩ | ⟨-, F, F', code, code', p, hF, hF', h1, h2, hfit, hfit', hres, hroute, hsame, hmv⟩
      · simp only [h1, Option.some.injEq, Prod.mk.injEq] at h
        simp only [h2]
        rw [← h.1, ← h.2]
        refine ⟨_, _, rfl, hst1, ?_⟩
        rw [TreatAlike, show (treeGrower fm' T' C' o fp md sm).findPredicted dr'.st.work.cases = fp cs from
          hfp _ _ hperm' hcs, show (treeGrower fm T C o fp md sm).findPredicted dr.st.work.cases = fp cs from
          hfp _ _ hperm hcs]
        exact ⟨rfl, rfl, rfl, rfl, rfl⟩
      · simp only [h1, Option.bind_eq_some_iff] at h
        obtain ⟨f, hf, spl, hdec, ⟨cs2, li, ri⟩, hpt, h⟩ := h
        rw [hF] at hf
        cases hf
        simp only [h2, hdr.fi, hF', Option.bind_some]
        have hcs1 : ∀ c ∈ dr.st.work.cases, c ∈ all := fun c hc => hcs c (hperm.mem_iff.1 hc)
        have hcs1' : ∀ c ∈ dr'.st.work.cases, c ∈ all := fun c hc => hcs c (hperm'.mem_iff.1 hc)
        obtain ⟨cs3, li1, ri1, hpt1, hle, hle', hlen', sp, e1, e2, e3, hok⟩ :=
          splitPoints_ok hMat (some spl) hF hfit dr.st.work.cases hcs1
        rw [hpt] at hpt1; cases hpt1
        obtain ⟨cs2', li', ri', hpt', hle2, hle2', hlen2', sp', e1', e2', e3', hok'⟩ :=
          splitPoints_ok hMat' (some spl) hF' hfit' dr'.st.work.cases hcs1'
        obtain ⟨hbl, hbr, hbm⟩ := nodeSplit_blocks hF (hok.congr hperm) fun c hc => (hroute c hc).1
        obtain ⟨hbl', hbr', hbm'⟩ := nodeSplit_blocks hF' (hok'.congr hperm') (p := p) fun c hc => by
          rw [hres.knowns] at hc
          exact (hroute c hc).2
        have htl : F'.toLeft p cs = F.toLeft p cs := by unfold Feature.toLeft; rw [hres.knowns]
        have htr : F'.toRight p cs = F.toRight p cs := by unfold Feature.toRight; rw [hres.knowns]
        rw [htl] at hbl'
        rw [htr] at hbr'
        rw [hres.missings] at hbm'
        obtain ⟨spl', hdec', hspl⟩ := hres.decode hfit hfit' hsame hdec
        rw [hdec', hpt']
        simp only [Option.bind_some, hdr.nConst]
        have hml : sp.missing.length = ri - li := by
          rw [e3, List.length_take, List.length_drop]; omega
        have hml' : sp'.missing.length = ri' - li' := by
          rw [e3', List.length_take, List.length_drop]; omega
        have hmm : sp'.missing.length = sp.missing.length := (hbm'.trans hbm.symm).length_eq
        have hlr : li' ≠ ri' ↔ li ≠ ri := by omega
        rw [← e1, ← e2, ← e3] at h
        rw [← e1', ← e2', ← e3']
        have hsl : ∀ c ∈ sp.left, c ∈ all := fun c hc =>
          hcs c ((List.filter_sublist.trans List.filter_sublist).subset (hbl.subset hc))
        have hsr : ∀ c ∈ sp.right, c ∈ all := fun c hc =>
          hcs c ((List.filter_sublist.trans List.filter_sublist).subset (hbr.subset hc))
        have hsm : ∀ c ∈ sp.missing, c ∈ all := fun c hc => hcs c (List.filter_sublist.subset (hbm.subset hc))
        have hta : ∀ {nl nl' nr nr' nm nm' : Node K}, TreatAlike fm fm' nl nl' sp.left →
            TreatAlike fm fm' nr nr' sp.right → TreatAlike fm fm' nm nm' sp.missing →
            TreatAlike fm fm' (.mk (some code) dr.fi nl nr nm "" (some spl))
              (.mk (some code') dr.fi nl' nr' nm' "" (some spl')) cs := by
          intro nl nl' nr nr' nm nm' h3 h4 h5
          rw [TreatAlike]
          exact ⟨rfl, rfl, F, F', p, hF, hF', hroute, fun e => ⟨hsame e, by rw [hspl e]⟩, hmv, treatAlike_perm hbl h3,
            treatAlike_perm hbr h4, treatAlike_perm hbm h5⟩
        cases hsmb : sm with
        | false =>
          rw [show (treeGrower fm T C o fp md sm).splitmissing = false from hsmb,
            show growChildren false (.nil : Node K) .nil .nil = (.fresh, .fresh, .nil) from rfl] at h
          rw [show (treeGrower fm' T' C' o fp md false).splitmissing = false from rfl,
            show growChildren false (.nil : Node K) .nil .nil = (.fresh, .fresh, .nil) from rfl]
          subst hsmb
          obtain ⟨⟨nl, st2⟩, hl, ⟨nr, st3⟩, hr, h⟩ := h
          obtain ⟨nl', st2', hl', hs2, gl⟩ := ih _ _ _ _ _ _ _ _ _ _ hst1 (hbl'.trans hbl.symm) hsl hl
          obtain ⟨nr', st3', hr', hs3, gr⟩ := ih _ _ _ _ _ _ _ _ _ _ hs2 (hbr'.trans hbr.symm) hsr hr
          simp [Node.isNil] at h
          rw [← h.1, ← h.2]
          refine ⟨.mk (some code') dr.fi nl' nr' .nil "" (some spl'), st3', ?_, hs3, hta gl gr (by rw [TreatAlike])⟩
          rw [Node.fresh, hl']
          simp only [Option.bind_some]
          rw [hr']
          simp [Node.isNil]
        | true =>
          rw [show (treeGrower fm T C o fp md sm).splitmissing = true from hsmb,
            show growChildren true (.nil : Node K) .nil .nil = (.fresh, .fresh, .fresh) from rfl] at h
          rw [show (treeGrower fm' T' C' o fp md true).splitmissing = true from rfl,
            show growChildren true (.nil : Node K) .nil .nil = (.fresh, .fresh, .fresh) from rfl]
          subst hsmb
          obtain ⟨⟨nl, st2⟩, hl, ⟨nr, st3⟩, hr, h⟩ := h
          obtain ⟨nl', st2', hl', hs2, gl⟩ := ih _ _ _ _ _ _ _ _ _ _ hst1 (hbl'.trans hbl.symm) hsl hl
          obtain ⟨nr', st3', hr', hs3, gr⟩ := ih _ _ _ _ _ _ _ _ _ _ hs2 (hbr'.trans hbr.symm) hsr hr
          by_cases hli : li = ri
          · have hli' : li' = ri' := by omega
            simp only [hli, ne_eq, not_true_eq_false, false_and, if_false, Option.some.injEq, Prod.mk.injEq] at h
            rw [← h.1, ← h.2]
            refine ⟨.mk (some code') dr.fi nl' nr' .fresh "" (some spl'), st3', ?_, hs3,
              hta gl gr (by rw [Node.fresh, TreatAlike]; exact ⟨rfl, rfl, rfl, rfl, rfl⟩)⟩
            rw [show (Node.fresh : Node K) = .mk none 0 .nil .nil .nil "" none from rfl, hl']
            simp only [Option.bind_some]
            rw [hr']
            simp only [Option.bind_some, hli', ne_eq, not_true_eq_false, false_and, if_false]
          · have hli' : li' ≠ ri' := hlr.2 hli
            rw [if_pos ⟨hli, rfl⟩] at h
            obtain ⟨⟨nm, st4⟩, hmm, h⟩ := Option.bind_eq_some_iff.1 h
            simp only [Option.some.injEq, Prod.mk.injEq] at h
            rw [← h.1, ← h.2]
            obtain ⟨nm', st4', hm', hs4, gm⟩ := ih _ _ _ _ _ _ _ _ _ _ hs3 (hbm'.trans hbm.symm) hsm hmm
            refine ⟨.mk (some code') dr.fi nl' nr' nm' "" (some spl'), st4', ?_, hs4, hta gl gr gm⟩
            rw [show (Node.fresh : Node K) = .mk none 0 .nil .nil .nil "" none from rfl, hl']
            simp only [Option.bind_some]
            rw [hr']
            simp only [Option.bind_some]
            rw [if_pos ⟨hli', rfl⟩, hm']
            rfl
    · rename_i hcond
      rw [if_neg (show ¬ (((d : Int) < (treeGrower fm' T' C' o fp md sm).maxDepth ∨ (treeGrower fm' T' C' o fp md sm).maxDepth ≤ 0) ∧
        2 * (treeGrower fm' T' C' o fp md sm).leafSize ≤ cs.length) from hcond)]
      simp only [Option.some.injEq, Prod.mk.injEq] at h
      rw [← h.1, ← h.2]
      refine ⟨_, _, rfl, hst, ?_⟩
      rw [TreatAlike, show (treeGrower fm' T' C' o fp md sm).findPredicted cs' = fp cs from hfp _ _ hp hcs]
      exact ⟨rfl, rfl, rfl, rfl, rfl⟩

end
end CloudForest
