import Verif.Lemmas.CatSearch

/-! # Lemmas about searching one feature, with missing values -/

set_option linter.unusedSectionVars false

namespace CloudForest
variable {K : Type} [Field K] [LinearOrder K] [IsStrictOrderedRing K]

theorem decrease_eq (p s : XF K) : gain p s = decrease p s := rfl

/-- Laws on more cases are laws on fewer. -/
def TargetLaws.mono {T : Target K} {cases cs : List Nat} (L : TargetLaws T cases)
    (h : ∀ c ∈ cs, c ∈ cases) : TargetLaws T cs where
  I := L.I
  S := L.S
  Ok := L.Ok
  Tracks := L.Tracks
  tracks_ok := L.tracks_ok
  I_perm := L.I_perm
  S_perm := L.S_perm
  S_comm := L.S_comm
  impurity a cs hok hcs := L.impurity a cs hok fun c hc => h c (hcs c hc)
  split a l r hok hcs := L.split a l r hok fun c hc => h c (hcs c hc)
  update a l r l' r' mv ht hcs := L.update a l r l' r' mv ht fun c hc => h c (hcs c hc)

/-- What every search guarantees. -/
structure SearchFound {T : Target K} {cases : List Nat} (L : TargetLaws T cases)
    (parentImp : XF K) (F : Feature K) (leafSize : Nat) (cs : List Nat) (r : Found K) : Prop where
  fits : ∀ code, r.code = some code → F.CodeFits code
  adm : minImp < r.imp → ∃ code, r.code = some code ∧ AdmCode F leafSize cs code
  gain : F.NoNearTies cs → minImp < r.imp → ∀ code, r.code = some code →
    r.imp = codeGain L parentImp F cs code
  constant : r.constant = true → ¬ minImp < r.imp

section
variable {T : Target K} {cases : List Nat} (L : TargetLaws T cases) (parentImp : XF K)
  (leafSize : Nat)

theorem SearchFound.perm {F : Feature K} {cs cs' : List Nat} {r : Found K}
    (h : SearchFound L parentImp F leafSize cs r) (hp : cs.Perm cs') :
    SearchFound L parentImp F leafSize cs' r := by
  refine ⟨h.fits, ?_, ?_, h.constant⟩
  · intro hlt
    obtain ⟨code, h1, h2⟩ := h.adm hlt
    exact ⟨code, h1, (admCode_perm leafSize hp code).1 h2⟩
  · intro hn hlt code hc
    rw [← codeGain_perm L parentImp hp]
    refine h.gain ?_ hlt code hc
    cases F with
    | cat f => trivial
    | num f => exact fun c hc d hd => hn c (hp.mem_iff.1 hc) d (hp.mem_iff.1 hd)

theorem CatFound.toSearch {f : CatFeature} {w : Work K} {r : Found K} {w' : Work K}
    (h : CatFound L parentImp f leafSize w r w') :
    SearchFound L parentImp (.cat f) leafSize w.cases r := by
  obtain ⟨b, hb⟩ := h.code
  refine ⟨?_, ?_, fun _ hlt code hc => (h.found hlt code hc).2, h.constant⟩
  · intro code hc
    rcases hb with hb | hb <;> rw [hb] at hc <;> cases hc <;> trivial
  · intro hlt
    rcases hb with hb | hb <;> exact ⟨_, hb, (h.found hlt _ hb).1⟩

theorem search_ok (F : Feature K) (hls : 1 ≤ leafSize) (randomSplit : Bool) (w : Work K)
    (hcs : ∀ c ∈ w.cases, c ∈ cases) (hF : F.Searchable w.cases) (hok : L.Ok w.allocs) :
    ∃ r w', F.search T parentImp leafSize randomSplit w = some (r, w') ∧
      w'.cases.Perm w.cases ∧ L.Ok w'.allocs ∧
      SearchFound L parentImp F leafSize w.cases r := by
  cases F with
  | num f =>
    obtain ⟨r, w', e, h⟩ := bestNumSplit_ok f (L.mono hcs) hF parentImp hls randomSplit w
      (fun c hc => hc) hok
    refine ⟨r, w', e, h.perm, h.ok, ⟨?_, ?_, ?_, ?_⟩⟩
    · intro code hc
      obtain ⟨t, rfl⟩ := h.code code hc
      trivial
    · intro hlt
      rcases h.found with h1 | ⟨-, t, h2, h3, h4, -⟩
      · exact absurd hlt (by rw [h1]; exact XF.lt_irrefl' _)
      · exact ⟨_, h2, h3, h4.le⟩
    · intro hn hlt code hc
      rcases h.found with h1 | ⟨-, t, h2, h3, h4, h5⟩
      · exact absurd hlt (by rw [h1]; exact XF.lt_irrefl' _)
      · rw [h2] at hc; cases hc
        exact h5 hn
    · intro hc
      rw [(h.constant hc).1]; exact XF.lt_irrefl' _
  | cat f =>
    have hv : f.HasVals w.cases := fun c hc => (hF c hc).imp fun k hk => hk.1
    unfold Feature.search
    simp only []
    split_ifs with h1 h2 h3 h4
    · obtain ⟨r, w', e, h, ⟨b, hb⟩, hc, -⟩ := bestCatSplitIter_ok L parentImp f leafSize w hv hcs hok
      rw [bestCatSplitIterBig_eq, e]
      refine ⟨_, w', rfl, h.perm, h.ok, ?_, ?_, ?_, ?_⟩
      · intro code hcode
        rw [hb] at hcode; cases hcode; trivial
      · intro hlt
        rw [hb]
        exact ⟨.big b, rfl, (h.found hlt _ hb).1⟩
      · intro _ hlt code hcode
        rw [hb] at hcode; cases hcode
        exact (h.found hlt _ hb).2
      · intro h'; rw [show _ = r.constant from rfl, hc] at h'; cases h'
    · obtain ⟨r, w', e, h, -⟩ := bestCatSplitIter_ok L parentImp f leafSize w hv hcs hok
      exact ⟨r, w', e, h.perm, h.ok, h.toSearch⟩
    · obtain ⟨r, w', e, h, -⟩ := bestCatSplitBig_ok L parentImp f leafSize 10 w hv hcs hok
      exact ⟨r, w', e, h.perm, h.ok, h.toSearch⟩
    · obtain ⟨r, w', e, h, -⟩ := bestBinSplit_ok L parentImp f leafSize w hv (by
        intro c hc
        obtain ⟨k, hk, hlt⟩ := hF c hc
        rw [hv.eq hc] at hk; cases hk
        rwa [h4] at hlt) hcs hok
      exact ⟨r, w', e, h.perm, h.ok, h.toSearch⟩
    · obtain ⟨r, w', e, h, -⟩ := bestCatSplit_ok L parentImp f leafSize 10 w hv hcs hok
      exact ⟨r, w', e, h.perm, h.ok, h.toSearch⟩

end

theorem sides_length (F : Feature K) {code : Coded K} (hfit : F.CodeFits code) {cs : List Nat}
    (h : F.Searchable cs) :
    cs.length = (F.lefts code cs).length + (F.rights code cs).length := by
  have hb : ∀ c ∈ cs, ∃ b, F.codedLeft code c = some b := by
    intro c hc
    cases F with
    | num f =>
      obtain ⟨x, hx⟩ := h c hc
      cases code <;> first | exact absurd hfit id | simp [Feature.codedLeft, hx]
    | cat f =>
      obtain ⟨k, hk, -⟩ := h c hc
      cases code <;> first | exact absurd hfit id | simp [Feature.codedLeft, hk]
  unfold Feature.lefts Feature.rights
  clear h
  induction cs with
  | nil => rfl
  | cons c cs ih =>
    have h1 := ih fun c hc => hb c (by simp [hc])
    obtain ⟨b, hb⟩ := hb c (by simp)
    cases b <;> simp [hb] <;> omega

/-! ## Missing values -/

theorem missing_sift (F : Feature K) (cs : List Nat) (h : ∀ c ∈ cs, F.isMissing c ≠ none) :
    sift F.isMissing cs = some (F.missings cs, F.knowns cs) :=
  sift_eq _ _ h

section
variable {T : Target K} {cases : List Nat} (L : TargetLaws T cases) (parentImp : XF K)
  (leafSize : Nat)

theorem bestSplit_ok (F : Feature K) (hls : 1 ≤ leafSize) (randomSplit : Bool) (w : Work K)
    (hcs : ∀ c ∈ w.cases, c ∈ cases) (hF : F.Searchable (F.knowns w.cases))
    (hmiss : ∀ c ∈ w.cases, F.isMissing c ≠ none) (hsound : F.MissingSound)
    (hok : L.Ok w.allocs) :
    ∃ r w', F.bestSplit T parentImp leafSize randomSplit w = some (r, w') ∧
      w'.cases.Perm w.cases ∧ L.Ok w'.allocs ∧
      ((F.knowns w.cases = [] ∧ F.missingVals = true ∧ r = ⟨none, .fin 0, false⟩) ∨
       ∃ r0 w0 w1, w0.cases = F.knowns w.cases ∧ L.Ok w0.allocs ∧
         F.search T (if F.missingVals then L.I (F.knowns w.cases) else parentImp) leafSize
           randomSplit w0 = some (r0, w1) ∧
         SearchFound L (if F.missingVals then L.I (F.knowns w.cases) else parentImp) F leafSize
            (F.knowns w.cases) r0 ∧ r.code = r0.code ∧ r.constant = r0.constant ∧
         r.imp = if F.missings w.cases ≠ [] ∧ minImp < r0.imp then
            parentImp + (XF.ofNat (F.knowns w.cases).length *
              (r0.imp - L.I (F.knowns w.cases)) -
              XF.ofNat (F.missings w.cases).length * L.I (F.missings w.cases)) /
                XF.ofNat w.cases.length
          else r0.imp) := by
  have hk : ∀ c ∈ F.knowns w.cases, c ∈ cases := fun c hc => hcs c (List.mem_of_mem_filter hc)
  have hm : ∀ c ∈ F.missings w.cases, c ∈ cases := fun c hc => hcs c (List.mem_of_mem_filter hc)
  unfold Feature.bestSplit
  by_cases hmv : F.missingVals = true
  · rw [if_pos hmv, missing_sift F _ hmiss]
    simp only [Option.bind_eq_bind, Option.bind_some]
    by_cases hnil : F.knowns w.cases = []
    · rw [if_pos (by rw [hnil]; rfl)]
      exact ⟨_, _, rfl, List.Perm.refl _, hok, .inl ⟨hnil, hmv, rfl⟩⟩
    rw [if_neg (by rwa [List.length_eq_zero_iff])]
    obtain ⟨a1, e1, hok1⟩ := L.impurity w.allocs _ hok hk
    rw [e1]
    simp only [Option.bind_some]
    obtain ⟨a2, mi, e2, hok2, hmi⟩ : ∃ a2 mi, missingImpurity T a1 (F.missings w.cases) =
        some (mi, a2) ∧ L.Ok a2 ∧ (F.missings w.cases ≠ [] → mi = L.I (F.missings w.cases)) := by
      unfold missingImpurity
      by_cases h0 : 0 < (F.missings w.cases).length
      · rw [if_pos h0]
        obtain ⟨a2, e2, hok2⟩ := L.impurity a1 _ hok1 hm
        exact ⟨a2, _, e2, hok2, fun _ => rfl⟩
      · rw [if_neg h0]
        refine ⟨a1, _, rfl, hok1, ?_⟩
        intro hne
        exact absurd (List.length_pos_of_ne_nil hne) h0
    rw [e2]
    simp only [Option.bind_some]
    obtain ⟨r0, w', e3, hp3, hok3, hf⟩ := search_ok L (L.I (F.knowns w.cases)) leafSize F hls
      randomSplit ⟨F.knowns w.cases, a2, w.rng⟩ hk hF hok2
    rw [e3]
    simp only [Option.bind_some]
    by_cases hc : 0 < (F.missings w.cases).length ∧ minImp < r0.imp
    · rw [if_pos hc]
      have hne : F.missings w.cases ≠ [] := List.ne_nil_of_length_pos hc.1
      refine ⟨_, _, rfl, List.Perm.refl _, hok3,
        .inr ⟨r0, ⟨F.knowns w.cases, a2, w.rng⟩, w', rfl, hok2, ?_, ?_, rfl, rfl, ?_⟩⟩
      · rwa [if_pos hmv]
      · rwa [if_pos hmv]
      · rw [if_pos ⟨hne, hc.2⟩, hmi hne]
    · rw [if_neg hc]
      refine ⟨_, _, rfl, List.Perm.refl _, hok3,
        .inr ⟨r0, ⟨F.knowns w.cases, a2, w.rng⟩, w', rfl, hok2, ?_, ?_, rfl, rfl, ?_⟩⟩
      · rwa [if_pos hmv]
      · rwa [if_pos hmv]
      · rw [if_neg (fun h => hc ⟨List.length_pos_of_ne_nil h.1, h.2⟩)]
  · rw [if_neg hmv]
    have hall : F.knowns w.cases = w.cases := by
      apply List.filter_eq_self.2
      intro c hc
      rcases h : F.isMissing c with _ | b
      · exact absurd h (hmiss c hc)
      · cases b
        · rfl
        · exact absurd (hsound c h) hmv
    have hnone : F.missings w.cases = [] := by
      apply List.filter_eq_nil_iff.2
      intro c hc h
      exact hmv (hsound c (by simpa using h))
    have hF' := hF
    rw [hall] at hF' ⊢
    obtain ⟨r0, w', e3, hp3, hok3, hf⟩ := search_ok L parentImp leafSize F hls
      randomSplit w hcs hF' hok
    refine ⟨r0, w', e3, hp3, hok3, .inr ⟨r0, w, w', rfl, hok, ?_, ?_, rfl, rfl, ?_⟩⟩
    · rwa [if_neg hmv]
    · rwa [if_neg hmv]
    · rw [if_neg (fun h => h.1 hnone)]

/-! ## Constant features -/

/-- Nothing to find: all values alike, or no admissible division. -/
def Feature.Flat (F : Feature K) (leafSize : Nat) (cs : List Nat) : Prop :=
  match F with
  | .num f => ∀ c ∈ cs, ∀ d ∈ cs, f.value c ≤ f.value d + cutoff
  | .cat f => ∀ b, ¬ AdmCode (.cat (K := K) f) leafSize cs (.int b)

theorem Feature.Flat.subperm {F : Feature K} {cs cs' : List Nat} (h : F.Flat leafSize cs)
    (hp : cs'.Subperm cs) : F.Flat leafSize cs' := by
  cases F with
  | num f => exact fun c hc d hd => h c (hp.subset hc) d (hp.subset hd)
  | cat f =>
    intro b hb
    apply h b
    exact ⟨hb.1.trans (hp.filter _).length_le, hb.2.trans (hp.filter _).length_le⟩

theorem search_constant (F : Feature K) (hex : F.Exhaustive) (hls : 1 ≤ leafSize)
    (randomSplit : Bool) (w : Work K) (hcs : ∀ c ∈ w.cases, c ∈ cases)
    (hF : F.Searchable w.cases) (hok : L.Ok w.allocs) {r : Found K} {w' : Work K}
    (he : F.search T parentImp leafSize randomSplit w = some (r, w')) (hc : r.constant = true) :
    F.Flat leafSize w.cases := by
  cases F with
  | num f =>
    obtain ⟨r1, w1, e, h⟩ := bestNumSplit_ok f (L.mono hcs) hF parentImp hls randomSplit w
      (fun c hc => hc) hok
    have : some (r, w') = some (r1, w1) := he.symm.trans e
    cases this
    exact (h.constant hc).2
  | cat f =>
    have hv : f.HasVals w.cases := fun c hc => (hF c hc).imp fun k hk => hk.1
    have hn : ∀ c ∈ w.cases, f.cat c < f.cm.nCats := by
      intro c hc
      obtain ⟨k, hk, hlt⟩ := hF c hc
      rw [hv.eq hc] at hk; cases hk; exact hlt
    intro b ha
    obtain ⟨i, hi1, hi2, h2n, ha', -⟩ := code_covered L parentImp f leafSize hv hn hls b ha
    unfold Feature.search at he
    simp only [] at he
    have hex' : f.cm.nCats ≤ 5 ∨ f.randomSearch = true ∧ f.cm.nCats ≤ 10 := hex
    rw [if_neg (by rcases hex' with h | h <;> simp [h] <;> omega),
      if_neg (by rcases hex' with h | h <;> simp [h]), if_neg (by omega)] at he
    by_cases h2 : f.cm.nCats = 2
    · rw [if_pos h2] at he
      obtain ⟨r1, w1, e, -, -, -, h4⟩ := bestBinSplit_ok L parentImp f leafSize w hv
        (by rw [← h2]; exact hn) hcs hok
      rw [he] at e; cases e
      rw [h2] at hi2
      have : i = 1 := by omega
      subst this
      exact h4.1 hc ha'
    · rw [if_neg h2] at he
      obtain ⟨r1, w1, e, -, -, h3⟩ := bestCatSplit_ok L parentImp f leafSize 10 w hv hcs hok
      rw [he] at e; cases e
      exact (h3 (by omega)).2.1 hc i hi1 (by rwa [nPartitions_eq h2n (by omega)]) ha'

theorem search_flat (F : Feature K) (hls : 1 ≤ leafSize)
    (randomSplit : Bool) (w : Work K) (hcs : ∀ c ∈ w.cases, c ∈ cases)
    (hF : F.Searchable w.cases) (hok : L.Ok w.allocs) {r : Found K} {w' : Work K}
    (he : F.search T parentImp leafSize randomSplit w = some (r, w'))
    (hc : F.Flat leafSize w.cases) : ¬ minImp < r.imp := by
  intro hlt
  cases F with
  | num f =>
    obtain ⟨r1, w1, e, h⟩ := bestNumSplit_ok f (L.mono hcs) hF parentImp hls randomSplit w
      (fun c hc => hc) hok
    have : some (r, w') = some (r1, w1) := he.symm.trans e
    cases this
    rw [h.flat hc] at hlt
    exact XF.lt_irrefl' _ hlt
  | cat f =>
    obtain ⟨r1, w1, e, -, -, h⟩ := search_ok L parentImp leafSize (.cat f) hls randomSplit w hcs hF hok
    rw [he] at e; cases e
    obtain ⟨code, h1, h2⟩ := h.adm hlt
    have hfit := h.fits code h1
    cases code with
    | int b => exact hc b h2
    | big b => exact hc b h2
    | num v => exact hfit

end
end CloudForest
