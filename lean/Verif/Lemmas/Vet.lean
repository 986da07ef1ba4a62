import Verif.Lemmas.Greedy
import Verif.Spec.Vet

/-! # Lemmas about vetting -/

set_option linter.unusedSectionVars false

namespace CloudForest
variable {K : Type} [Field K] [LinearOrder K] [IsStrictOrderedRing K] {τ : Type}

/-- Dividing cases does not increase the impurity averaged over them. -/
def Superadditive (imp : List Nat → K) : Prop :=
  ∀ l r, (l.length : K) * imp l + r.length * imp r ≤ (l ++ r).length * imp (l ++ r)

theorem gini_super (f : CatFeature) (n : Nat) : Superadditive (f.gini K n) := fun l r => giniMass_superadd f n l r

theorem sse_super (f : NumFeature K) : Superadditive f.sse := by
  intro l r
  have h := sse_superadd f l r
  have h1 := sse_nonneg f l
  have h2 := sse_nonneg f r
  have hl : (0 : K) ≤ l.length := Nat.cast_nonneg _
  have hr : (0 : K) ≤ r.length := Nat.cast_nonneg _
  rw [List.length_append]
  push_cast
  have a : (l.length : K) * f.sse l ≤ l.length * f.sse (l ++ r) := mul_le_mul_of_nonneg_left (by linarith) hl
  have b : (r.length : K) * f.sse r ≤ r.length * f.sse (l ++ r) := mul_le_mul_of_nonneg_left (by linarith) hr
  linarith

theorem codeSides_perm (F : Feature K) {code : Coded K} (hfit : F.CodeFits code) {cs : List Nat} (h : F.Searchable cs) :
    (F.lefts code cs ++ F.rights code cs).Perm cs := by
  have hb : ∀ c ∈ cs, ∃ b, F.codedLeft code c = some b := by
    intro c hc
    cases F with
    | num f =>
      obtain ⟨x, hx⟩ := h c hc
      cases code <;> first | exact absurd hfit id | simp [Feature.codedLeft, hx]
    | cat f =>
      obtain ⟨k, hk, -⟩ := h c hc
      cases code <;> first | exact absurd hfit id | simp [Feature.codedLeft, hk]
  have : F.rights code cs = cs.filter fun c => !(F.codedLeft code c == some true) := by
    unfold Feature.rights
    apply List.filter_congr
    intro c hc
    obtain ⟨b, hb⟩ := hb c hc
    rw [hb]
    cases b <;> rfl
  rw [this]
  exact List.filter_append_perm _ _

section
variable {T : Target K} {cases : List Nat} {L : TargetLaws T cases} {imp : List Nat → K}

/-- The decrease by a code, as a number. -/
theorem codeGain_value (hw : L.Weighted imp) (F : Feature K) {leafSize : Nat} (hls : 1 ≤ leafSize) {cs : List Nat}
    (hcs : ∀ c ∈ cs, c ∈ cases) (hF : F.Searchable cs) {code : Coded K} (hfit : F.CodeFits code)
    (ha : AdmCode F leafSize cs code) :
    codeGain L (.fin (imp cs)) F cs code = .fin (imp cs - ((F.lefts code cs).length * imp (F.lefts code cs) +
      (F.rights code cs).length * imp (F.rights code cs)) / cs.length) := by
  have hp := codeSides_perm F hfit hF
  have hl : F.lefts code cs ≠ [] := List.ne_nil_of_length_pos (by have := ha.1; omega)
  have hr : F.rights code cs ≠ [] := List.ne_nil_of_length_pos (by have := ha.2; omega)
  have hne : cs ≠ [] := by
    rintro rfl
    exact hl rfl
  unfold codeGain
  rw [hw.mean _ _ hl hr fun c h => hcs c (hp.mem_iff.1 h)]
  unfold gain
  rw [if_neg, XF.fin_sub, ← hp.length_eq, List.length_append]
  · push_cast
    rfl
  · rw [XF.fin_lt]
    exact not_lt.2 (hw.nonneg cs hne hcs)

/-- What a search reports. -/
theorem search_value (F : Feature K) {leafSize : Nat} (hls : 1 ≤ leafSize) (randomSplit : Bool) (parentImp : XF K)
    (w : Work K) (hcs : ∀ c ∈ w.cases, c ∈ cases) (hF : F.Searchable w.cases) (hok : L.Ok w.allocs) {r : Found K}
    {w' : Work K} (he : F.search T parentImp leafSize randomSplit w = some (r, w')) :
    minImp < r.imp ∨ r.imp = minImp ∨ r.imp = .fin 0 ∨
      ∃ code, F.CodeFits code ∧ AdmCode F leafSize w.cases code ∧ r.imp = codeGain L parentImp F w.cases code := by
  cases F with
  | num f =>
    obtain ⟨r1, w1, e, h⟩ := bestNumSplit_ok f (L.mono hcs) hF parentImp hls randomSplit w (fun c hc => hc) hok
    have : some (r, w') = some (r1, w1) := he.symm.trans e
    cases this
    rcases h.found with h1 | ⟨h1, -⟩
    · exact .inr (.inl h1)
    · exact .inl h1
  | cat f =>
    have hv : f.HasVals w.cases := fun c hc => (hF c hc).imp fun k hk => hk.1
    unfold Feature.search at he
    simp only [] at he
    split_ifs at he with h1 h2 h3 h4
    · obtain ⟨r1, w1, e, -, -, -, hm, -⟩ := bestCatSplitIter_ok L parentImp f leafSize w hv hcs hok
      rw [bestCatSplitIterBig_eq, e] at he
      cases he
      exact hm.elim (fun h => .inr (.inl h)) .inl
    · obtain ⟨r1, w1, e, -, -, -, hm, -⟩ := bestCatSplitIter_ok L parentImp f leafSize w hv hcs hok
      rw [e] at he
      cases he
      exact hm.elim (fun h => .inr (.inl h)) .inl
    · unfold CatFeature.bestCatSplitBig at he
      obtain ⟨⟨b, imp, a, rng⟩, e, hok', hf⟩ := bigFold_ok L parentImp f leafSize w.cases hv hcs
        (decide (f.cm.nCats ≤ 10)) (List.range' 1 (nPartitions f.cm.nCats 10 - 1))
        (0, minImp, w.allocs, w.rng) hok (.inl ⟨rfl, rfl⟩)
      simp only [e, Option.bind_eq_bind, Option.bind_some] at he
      cases he
      rcases hf with ⟨h, -⟩ | ⟨h, -⟩
      · exact .inr (.inl h)
      · exact .inl h
    · obtain ⟨r1, w1, e, -, -, h5, h6⟩ := bestBinSplit_ok L parentImp f leafSize w hv (by
        intro c hc
        obtain ⟨k, hk, hlt⟩ := hF c hc
        rw [hv.eq hc] at hk; cases hk
        rwa [h4] at hlt) hcs hok
      by_cases ha : AdmCode (.cat (K := K) f) leafSize w.cases (.int 1)
      · rw [e] at he
        cases he
        exact .inr (.inr (.inr ⟨.int 1, trivial, ha, h5 ha⟩))
      · have hc := h6.2 ha
        rw [e] at he
        cases he
        unfold CatFeature.bestBinSplit at e
        simp only [Option.bind_eq_bind] at e
        obtain ⟨x, -, e⟩ := Option.bind_eq_some_iff.1 e
        split_ifs at e with h7
        · cases e
          exact .inr (.inr (.inl rfl))
        · obtain ⟨y, -, e⟩ := Option.bind_eq_some_iff.1 e
          cases e
          cases hc
    · rcases bestCatSplit_imp L _ f leafSize 10 w hv hcs hok he with h | h
      · exact .inr (.inl h)
      · exact .inl h

/-- What a search of a feature reports is between zero and the impurity of the cases, or negligible. -/
theorem bestSplit_value (hw : L.Weighted imp) (hsup : Superadditive imp) (F : Feature K) {leafSize : Nat}
    (hls : 1 ≤ leafSize) (randomSplit : Bool)
    (w : Work K) (hcs : ∀ c ∈ w.cases, c ∈ cases) (hne : w.cases ≠ []) (hF : F.Searchable (F.knowns w.cases))
    (hties : F.NoNearTies (F.knowns w.cases)) (hmiss : ∀ c ∈ w.cases, F.isMissing c ≠ none) (hsound : F.MissingSound)
    (hok : L.Ok w.allocs) :
    ∃ r w', F.bestSplit T (.fin (imp w.cases)) leafSize randomSplit w = some (r, w') ∧
      w'.cases.Perm w.cases ∧ L.Ok w'.allocs ∧
      ∃ y : K, r.imp = .fin y ∧ 0 ≤ y ∧ (y ≤ imp w.cases ∨ ¬ minImp < r.imp) := by
  obtain ⟨r, w', e, hp, hok', h⟩ := bestSplit_ok L (.fin (imp w.cases)) leafSize F hls randomSplit w hcs hF hmiss hsound hok
  refine ⟨r, w', e, hp, hok', ?_⟩
  have hz : ¬ (minImp : XF K) < .fin 0 := by
    unfold minImp
    rw [XF.fin_lt]; norm_num
  have hkm : ∀ c ∈ F.knowns w.cases, c ∈ cases := fun c h => hcs c (F.mem_knowns h)
  have hmm : ∀ c ∈ F.missings w.cases, c ∈ cases := fun c h => hcs c (F.mem_missings h)
  have hlen : (0 : K) < ((w.cases.length : Nat) : K) := by
    exact_mod_cast List.length_pos_of_ne_nil hne
  rcases h with ⟨hk, -, rfl⟩ | ⟨r0, w0, w1, hw0, hok0, hs, hsf, hcode, hcon, himp⟩
  · exact ⟨0, rfl, le_refl _, .inr hz⟩
  by_cases hk : F.knowns w.cases = []
  · -- without known cases nothing is found
    have hno : ¬ minImp < r0.imp := by
      intro hlt
      obtain ⟨code, -, ha⟩ := hsf.adm hlt
      have := ha.1
      rw [hk] at this
      simp [Feature.lefts] at this
      omega
    have hr : r.imp = r0.imp := by rw [himp, if_neg (fun h => hno h.2)]
    rw [hr]
    rcases search_value (L := L) F hls randomSplit _ w0 (by rw [hw0]; exact hkm) (by rw [hw0]; exact hF) hok0 hs with
      h | h | h | ⟨code, -, ha, -⟩
    · exact absurd h hno
    · exact ⟨1 / 10000000, h, by norm_num, .inr hno⟩
    · exact ⟨0, h, le_refl _, .inr hno⟩
    · have := ha.1
      rw [hw0, hk] at this
      simp [Feature.lefts] at this
      omega
  have hpk : (F.missings w.cases ++ F.knowns w.cases).Perm w.cases := by
    have : F.knowns w.cases = w.cases.filter fun c => !(F.isMissing c == some true) := by
      apply List.filter_congr
      intro c hc
      rcases h : F.isMissing c with _ | b
      · exact absurd h (hmiss c hc)
      · cases b <;> rfl
    rw [this]
    exact List.filter_append_perm _ _
  have hpar : (if F.missingVals then L.I (F.knowns w.cases) else .fin (imp w.cases)) = .fin (imp (F.knowns w.cases)) := by
    split
    · exact hw.finite _ hk hkm
    · rename_i hmv
      have : F.knowns w.cases = w.cases := by
        apply List.filter_eq_self.2
        intro c hc
        rcases h : F.isMissing c with _ | b
        · exact absurd h (hmiss c hc)
        · cases b
          · rfl
          · exact absurd (hsound c h) hmv
      rw [this]
  rw [hpar] at hs hsf
  have hcode : ∀ code, F.CodeFits code → AdmCode F leafSize (F.knowns w.cases) code →
      ∃ g : K, codeGain L (.fin (imp (F.knowns w.cases))) F (F.knowns w.cases) code = .fin g ∧ 0 ≤ g ∧
        g ≤ imp (F.knowns w.cases) ∧
        (F.knowns w.cases).length * (imp (F.knowns w.cases) - g) ≤
          (F.knowns w.cases).length * imp (F.knowns w.cases) := by
    intro code hfit ha
    refine ⟨_, codeGain_value hw F hls hkm hF hfit ha, ?_, ?_, ?_⟩
    all_goals
      have hpp := codeSides_perm F hfit hF
      have hlk : (0 : K) < (F.knowns w.cases).length := by exact_mod_cast List.length_pos_of_ne_nil hk
      have hl : F.lefts code (F.knowns w.cases) ≠ [] := List.ne_nil_of_length_pos (by have := ha.1; omega)
      have hr : F.rights code (F.knowns w.cases) ≠ [] := List.ne_nil_of_length_pos (by have := ha.2; omega)
      have h1 := hw.nonneg _ hl fun c h => hkm c (hpp.mem_iff.1 (List.mem_append_left _ h))
      have h2 := hw.nonneg _ hr fun c h => hkm c (hpp.mem_iff.1 (List.mem_append_right _ h))
      have h3 := hsup (F.lefts code (F.knowns w.cases)) (F.rights code (F.knowns w.cases))
      rw [hpp.length_eq, hw.imp_perm hpp fun c h => hkm c (hpp.mem_iff.1 h)] at h3
      have h4 : (0 : K) ≤ (F.lefts code (F.knowns w.cases)).length := Nat.cast_nonneg _
      have h5 : (0 : K) ≤ (F.rights code (F.knowns w.cases)).length := Nat.cast_nonneg _
      have h6 := mul_nonneg h4 h1
      have h7 := mul_nonneg h5 h2
      have h8 : ((F.lefts code (F.knowns w.cases)).length * imp (F.lefts code (F.knowns w.cases)) +
          (F.rights code (F.knowns w.cases)).length * imp (F.rights code (F.knowns w.cases))) /
          (F.knowns w.cases).length ≤ imp (F.knowns w.cases) := by
        rw [div_le_iff₀ hlk]; linarith
      have h9 : 0 ≤ ((F.lefts code (F.knowns w.cases)).length * imp (F.lefts code (F.knowns w.cases)) +
          (F.rights code (F.knowns w.cases)).length * imp (F.rights code (F.knowns w.cases))) /
          (F.knowns w.cases).length := div_nonneg (by linarith) hlk.le
    · linarith
    · linarith
    · exact mul_le_mul_of_nonneg_left (by linarith) hlk.le
  by_cases hlt : minImp < r0.imp
  · obtain ⟨code, hc, ha⟩ := hsf.adm hlt
    obtain ⟨g, hg, hg0, hg1, hg2⟩ := hcode code (hsf.fits code hc) ha
    have hg3 := hsf.gain hties hlt code hc
    rw [hg] at hg3
    by_cases hmn : F.missings w.cases = []
    · rw [if_neg (fun h => h.1 hmn), hg3] at himp
      rw [hmn, List.nil_append] at hpk
      rw [← hw.imp_perm hpk hkm]
      exact ⟨g, himp, hg0, .inl hg1⟩
    · rw [if_pos ⟨hmn, hlt⟩, hg3, hw.finite _ hk hkm, hw.finite _ hmn hmm] at himp
      unfold XF.ofNat at himp
      rw [XF.fin_sub, XF.fin_mul, XF.fin_mul, XF.fin_sub, XF.fin_div _ hlen.ne', XF.fin_add] at himp
      have h3 := hsup (F.missings w.cases) (F.knowns w.cases)
      rw [hpk.length_eq, hw.imp_perm hpk fun c h => hcs c (hpk.mem_iff.1 h)] at h3
      have h4 : (0 : K) ≤ (F.missings w.cases).length := Nat.cast_nonneg _
      have h5 := mul_nonneg h4 (hw.nonneg _ hmn hmm)
      have hlk : (0 : K) ≤ (F.knowns w.cases).length := Nat.cast_nonneg _
      have h6 : ((F.knowns w.cases).length * (g - imp (F.knowns w.cases)) -
          (F.missings w.cases).length * imp (F.missings w.cases)) / (w.cases.length : K) ≤ 0 :=
        div_nonpos_of_nonpos_of_nonneg (by
          have := mul_nonneg hlk (sub_nonneg.2 hg1)
          linarith) hlen.le
      have h7 : -imp w.cases ≤ ((F.knowns w.cases).length * (g - imp (F.knowns w.cases)) -
          (F.missings w.cases).length * imp (F.missings w.cases)) / (w.cases.length : K) := by
        rw [le_div_iff₀ hlen]
        linarith
      exact ⟨_, himp, by linarith, .inl (by linarith)⟩
  · rw [if_neg (fun h => hlt h.2)] at himp
    rw [himp]
    rcases search_value (L := L) F hls randomSplit _ w0 (by rw [hw0]; exact hkm) (by rw [hw0]; exact hF) hok0 hs with
      h | h | h | ⟨code, hfit, ha, h⟩
    · exact absurd h hlt
    · exact ⟨1 / 10000000, h, by norm_num, .inr hlt⟩
    · exact ⟨0, h, le_refl _, .inr hlt⟩
    · rw [hw0] at ha h
      obtain ⟨g, hg, hg0, -⟩ := hcode code hfit ha
      exact ⟨g, by rw [h, hg], hg0, .inr hlt⟩

end

/-! ## RearrangedOn targets -/

theorem RearrangedOn.perm {α : Type} {cs cs' : List Nat} {d d' : List α} (h : RearrangedOn cs d d') (hp : cs.Perm cs') :
    RearrangedOn cs' d d' := (hp.symm.map _).trans (h.trans (hp.map _))

theorem RearrangedOn.refl {α : Type} (cs : List Nat) (d : List α) : RearrangedOn cs d d := List.Perm.refl _

theorem RearrangedOn.trans {α : Type} {cs : List Nat} {d d' d'' : List α} (h : RearrangedOn cs d d') (h' : RearrangedOn cs d' d'') :
    RearrangedOn cs d d'' := List.Perm.trans h' h

theorem gini_rearranged {f g : CatFeature} {cs : List Nat} (n : Nat) (h : RearrangedOn cs f.catData g.catData) :
    g.gini K n cs = f.gini K n cs := by
  have : ∀ k, g.catCount cs k = f.catCount cs k := by
    intro k
    have h1 : ∀ f : CatFeature, f.catCount cs k = (cs.map fun c => f.catData[c]?).countP (· == some k) := by
      intro f
      unfold CatFeature.catCount
      rw [List.countP_map]
      rfl
    rw [h1, h1]
    exact h.countP_eq _
  unfold CatFeature.gini
  simp only [this]

theorem sse_rearranged {f g : NumFeature K} {cs : List Nat} (h : RearrangedOn cs f.numData g.numData) :
    g.sse cs = f.sse cs := by
  have hv : (cs.map g.value).Perm (cs.map f.value) := by
    have h1 : ∀ f : NumFeature K, cs.map f.value = (cs.map fun c => f.numData[c]?).map fun x =>
        match x with
        | some (.fin x) => x
        | _ => 0 := by
      intro f
      rw [List.map_map]
      rfl
    rw [h1, h1]
    exact List.Perm.map _ h
  have hm : g.meanOf cs = f.meanOf cs := by
    unfold NumFeature.meanOf
    rw [hv.sum_eq]
  unfold NumFeature.sse
  rw [hm]
  have h2 : ∀ g : NumFeature K, (cs.map fun c => (g.value c - f.meanOf cs) ^ 2) =
      (cs.map g.value).map fun x => (x - f.meanOf cs) ^ 2 := by
    intro g
    rw [List.map_map]
    rfl
  rw [h2, h2]
  exact (hv.map _).sum_eq

/-- Shuffling the values of different cases rearranges them. -/
theorem shuffleLoop_rearranged {α : Type} {cs : List Nat} (hnd : cs.Nodup) {n : Nat} (hn : ∀ c ∈ cs, c < n)
    {miss : List Bool} {data : List α} (hm : miss.length = n) (hd : data.length = n) (rng : Rng) :
    ∃ miss' data' rng', shuffleLoop cs miss data rng 0 = some (miss', data', rng') ∧ miss'.length = n ∧ data'.length = n ∧
      RearrangedOn cs data data' ∧ ∀ c, c ∉ cs → data'[c]? = data[c]? := by
  obtain ⟨m, d, r, π, e, hm', hd', hfix, hπ⟩ := shuffleLoop_ok cs n hn _ 0 rfl miss data rng hm hd
  refine ⟨m, d, r, e, hm', hd', ?_, fun c hc => by rw [(hπ c).2, hfix c hc]⟩
  have hin : ∀ c, π c ∈ cs ↔ c ∈ cs := by
    intro c
    by_cases h : c ∈ cs
    · simp only [h, iff_true]
      by_contra h'
      have := π.injective (hfix _ h')
      rw [this] at h'
      exact h' h
    · rw [hfix c h]
  have hp : (cs.map π).Perm cs := by
    refine (List.perm_ext_iff_of_nodup (hnd.map π.injective) hnd).2 fun a => ?_
    rw [List.mem_map]
    constructor
    · rintro ⟨c, hc, rfl⟩
      exact (hin c).2 hc
    · intro ha
      exact ⟨π.symm a, (hin _).1 (by rwa [Equiv.apply_symm_apply]), Equiv.apply_symm_apply π a⟩
  unfold RearrangedOn
  have : (cs.map fun c => d[c]?) = (cs.map π).map fun c => data[c]? := by
    rw [List.map_map]
    exact List.map_congr_left fun c _ => (hπ c).2
  rw [this]
  exact hp.map _

section
variable {T : Target K} {cases : List Nat} {L : TargetLaws T cases} {imp : List Nat → K} {C : Contrast K τ}

/-- What vetting needs of the shuffled target: it measures impurity in its own way, but the node's cases as before. -/
structure VetOk (L : TargetLaws T cases) (imp : List Nat → K) (C : Contrast K τ) (cs : List Nat) (P : τ → Prop) : Prop where
  shuffle : ∀ c cs' rng, P c → cs'.Perm cs → ∃ c' rng', C.shuffle c cs' rng = some (c', rng') ∧ P c'
  laws : ∀ c, P c → ∃ (L' : TargetLaws (C.target c) cases) (imp' : List Nat → K), L'.Ok = L.Ok ∧ L'.Weighted imp' ∧
    Superadditive imp' ∧ imp' cs = imp cs

/-- Evaluating a feature with vetting. -/
theorem evalFeature_vet (hw : L.Weighted imp) {fm : FeatureMatrix K} {o : SplitOpts} (hvet : o.vet = true)
    (hoob : o.evaloob = false) (hls : 1 ≤ o.leafSize) {i : Nat} {F : Feature K} (hi : fm.data[i]? = some F)
    (hF : FeatOk F cases) {s : Searching K τ} {P : τ → Prop} (hC : VetOk L imp C s.work.cases P) (hP : P s.contrast)
    (hcs : ∀ c ∈ s.work.cases, c ∈ cases) (hne : s.work.cases ≠ []) (hties : F.NoNearTies (F.knowns s.work.cases))
    (hok : L.Ok s.work.allocs) (hbig : (minImp : XF K) < .fin (imp s.work.cases)) (best : XF K) :
    ∃ r w found s', F.bestSplit T (.fin (imp s.work.cases)) o.leafSize o.extraRandom s.work = some (r, w) ∧
      evalFeature fm T C o (.fin (imp s.work.cases)) s best i = some (found, s') ∧
      s'.work.cases.Perm s.work.cases ∧ L.Ok s'.work.allocs ∧ P s'.contrast ∧ (¬ best < r.imp → found = r) ∧
      (best < r.imp → ∃ y, 0 ≤ y ∧ y ≤ imp s.work.cases ∧ found = ⟨r.code, r.imp - .fin y, r.constant⟩) := by
  obtain ⟨r, w, e, hp, hok', -⟩ := bestSplit_ok L (.fin (imp s.work.cases)) o.leafSize F hls o.extraRandom s.work hcs
    (hF.searchable hcs) (fun c hc => hF.isMissing (hcs c hc)) hF.sound hok
  refine ⟨r, w, ?_⟩
  unfold evalFeature oobStep vetStep
  simp only [hi, e, hoob, hvet, Option.bind_eq_bind, Option.bind_some, Bool.false_eq_true, false_and, if_false, true_and]
  by_cases hb : best < r.imp
  · rw [if_pos hb]
    obtain ⟨c', rng', e1, hP'⟩ := hC.shuffle s.contrast w.cases w.rng hP hp
    obtain ⟨L', imp', hL', hw', hsup, himp⟩ := hC.laws c' hP'
    have hwc : ∀ c ∈ w.cases, c ∈ cases := fun c hc => hcs c (hp.mem_iff.1 hc)
    have himp2 : imp' w.cases = imp s.work.cases := by rw [hw'.imp_perm hp hwc, himp]
    obtain ⟨v, w', e2, hp2, hok2, y, hy, hy0, hy1⟩ := bestSplit_value hw' hsup F hls o.extraRandom
      ⟨w.cases, w.allocs, rng'⟩ hwc (fun h => hne (by
        have h : w.cases = [] := h
        rw [h] at hp; exact hp.symm.eq_nil)) (hF.searchable hwc)
      (by
        show F.NoNearTies (F.knowns w.cases)
        cases F with
        | cat f => trivial
        | num f => exact fun c hc d hd => hties c (((hp.filter _).mem_iff).1 hc) d (((hp.filter _).mem_iff).1 hd))
      (fun c hc => hF.isMissing (hwc c hc)) hF.sound (by rw [hL']; exact hok')
    simp only [himp2] at e2 hy1
    simp only [e1, Option.bind_some, e2]
    refine ⟨_, _, rfl, hp2.trans hp, by rw [← hL']; exact hok2, hP', fun h => absurd hb h,
      fun _ => ⟨y, hy0, ?_, by rw [hy]⟩⟩
    rcases hy1 with h | h
    · exact h
    · rw [hy] at h
      have h1 : y ≤ 1 / 10000000 := not_lt.1 fun h' => h h'
      have h2 : (1 / 10000000 : K) < imp s.work.cases := hbig
      exact h1.trans h2.le
  · rw [if_neg hb]
    exact ⟨_, _, rfl, hp, hok', hP, fun _ => rfl, fun h => absurd h hb⟩

end

end CloudForest
