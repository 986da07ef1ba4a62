import Verif.Spec.RoundedGrow
import Verif.Model.RoundedGrow
import Verif.Lemmas.RoundedGini2
import Verif.Lemmas.Rounding2
import Verif.Lemmas.Greedy

/-! # Lemmas about searching and growing in rounded arithmetic -/

set_option linter.unusedSectionVars false

namespace CloudForest
variable {K : Type} [Field K] [LinearOrder K] [IsStrictOrderedRing K] {τ : Type}

theorem NumFeature.Apart.mono {rep : K → Prop} {r : K → XF K} {cut : XF K} {f : NumFeature K} {cs cs' : List Nat}
    (h : f.Apart rep r cut cs) (hs : ∀ c ∈ cs', c ∈ cs) : f.Apart rep r cut cs' :=
  ⟨fun c hc => h.exist c (hs c hc), fun c hc d hd => h.ties c (hs c hc) d (hs d hd),
    fun c hc d hd => h.between c (hs c hc) d (hs d hd)⟩

theorem Feature.Apart.mono {rep : K → Prop} {r : K → XF K} {cut : XF K} {F : Feature K} {cs cs' : List Nat}
    (h : F.Apart rep r cut cs) (hs : ∀ c ∈ cs', c ∈ cs) : F.Apart rep r cut cs' := by
  cases F with
  | num f => exact NumFeature.Apart.mono h hs
  | cat f => trivial

section
variable {T : Target K} {cases : List Nat} (L : TargetLaws T cases)

/-- What the rounded search of a numerical feature finds, as a division by a threshold. -/
theorem bestNumSplitR_divides {rep : K → Prop} {r : K → XF K} (hr : RoundsTo rep r) {cut : K} (hcut : 0 ≤ cut)
    (f : NumFeature K) (parentImp : XF K) {leafSize : Nat} (hls : 1 ≤ leafSize) (rs : Bool) {w : Work K}
    (hcs : ∀ c ∈ w.cases, c ∈ cases) (hfin : f.Finite w.cases) (hap : f.Apart rep r (.fin cut) w.cases)
    (hok : L.Ok w.allocs) :
    ∃ res w', f.bestNumSplitR r (.fin cut) T parentImp leafSize rs w = some (res, w') ∧ w'.cases.Perm w.cases ∧
      L.Ok w'.allocs ∧ (∀ code, res.code = some code → ∃ t, code = .num t) ∧
      (res.imp = minImp ∨ (minImp < res.imp ∧ ∃ t, res.code = some (.num (.fin t)) ∧
        leafSize ≤ (w.cases.filter fun c => decide (f.value c ≤ t)).length ∧
        leafSize < (w.cases.filter fun c => !decide (f.value c ≤ t)).length ∧
        res.imp = gain parentImp (L.S (w.cases.filter fun c => decide (f.value c ≤ t))
          (w.cases.filter fun c => !decide (f.value c ≤ t))))) ∧
      (res.constant = true → res.imp = minImp ∧ ∀ c ∈ w.cases, ∀ d ∈ w.cases, f.value c ≤ f.value d) ∧
      (rs = false → ∀ t : K, leafSize ≤ (w.cases.filter fun c => decide (f.value c ≤ t)).length →
        leafSize < (w.cases.filter fun c => !decide (f.value c ≤ t)).length →
        ¬ res.imp < gain parentImp (L.S (w.cases.filter fun c => decide (f.value c ≤ t))
          (w.cases.filter fun c => !decide (f.value c ≤ t)))) := by
  obtain ⟨res, w', e, h⟩ := bestNumSplitR_ok hr hcut f L parentImp hls rs hcs hfin hap.exist hap.ties hok
  refine ⟨res, w', e, h.perm, h.ok, h.code, ?_, h.constant, fun hrs t h1 h2 => ?_⟩
  · rcases h.found with h1 | ⟨h1, t, l, g, h2, h3, h4, h5, h6, h7, h8, h9, a, ha, b, hb, hm, hmin⟩
    · exact .inl h1
    right
    have hmem : ∀ c ∈ l ++ g, c ∈ w.cases := fun c hc => h3.mem_iff.1 hc
    have hlt : ∀ c ∈ g, t < f.value c := by
      intro c hc
      have := hap.between a (hmem a (List.mem_append_left _ ha)) b (hmem b (List.mem_append_right _ hb)) (h9 a ha b hb)
      rw [hm, XF.fin_lt] at this
      exact lt_of_lt_of_le this (hmin c hc)
    have hl : l.Perm (w.cases.filter fun c => decide (f.value c ≤ t)) := by
      have := h3.filter fun c => decide (f.value c ≤ t)
      rwa [List.filter_append, List.filter_eq_self.2 (fun c hc => decide_eq_true (h7 c hc)),
        List.filter_eq_nil_iff.2 (fun c hc => by simpa using hlt c hc), List.append_nil] at this
    have hg : g.Perm (w.cases.filter fun c => !decide (f.value c ≤ t)) := by
      have := h3.filter fun c => !decide (f.value c ≤ t)
      rwa [List.filter_append, List.filter_eq_nil_iff.2 (fun c hc => by simpa using h7 c hc),
        List.filter_eq_self.2 (fun c hc => by simpa using hlt c hc), List.nil_append] at this
    refine ⟨h1, t, h2, by rw [← hl.length_eq]; exact h4, by rw [← hg.length_eq]; exact h5, ?_⟩
    rw [← L.S_perm _ _ _ _ hl hg]
    exact h6
  · refine h.opt hrs _ _ (List.filter_append_perm _ _) h1 h2 fun c hc d hd => ?_
    have h3 := (List.mem_filter.1 hc).2
    have h4 := (List.mem_filter.1 hd).2
    simp only [decide_eq_true_eq, Bool.not_eq_true', decide_eq_false_iff_not, not_le] at h3 h4
    exact lt_of_le_of_lt h3 h4

/-- The rounded search succeeds, rearranges the cases, and a reported division leaves enough cases on either side. -/
theorem searchR_ok {rep : K → Prop} {r : K → XF K} (hr : RoundsTo rep r) {cut : K} (hcut : 0 ≤ cut) (F : Feature K)
    (parentImp : XF K) {leafSize : Nat} (hls : 1 ≤ leafSize) (rs : Bool) (w : Work K)
    (hcs : ∀ c ∈ w.cases, c ∈ cases) (hF : F.Searchable w.cases) (hap : F.Apart rep r (.fin cut) w.cases)
    (hok : L.Ok w.allocs) :
    ∃ res w', F.searchR r (.fin cut) T parentImp leafSize rs w = some (res, w') ∧ w'.cases.Perm w.cases ∧
      L.Ok w'.allocs ∧ (∀ code, res.code = some code → F.CodeFits code) ∧
      (minImp < res.imp → ∃ code, res.code = some code ∧ AdmCode F leafSize w.cases code) := by
  have key : ∀ (T' : Target K) (L' : TargetLaws T' cases) (p : XF K), L'.Ok w.allocs →
      ∃ res w', (match F with
          | .num f => f.bestNumSplitR r (.fin cut) T' p leafSize rs w
          | .cat f => (Feature.cat f).search T' p leafSize rs w) = some (res, w') ∧ w'.cases.Perm w.cases ∧
        L'.Ok w'.allocs ∧ (∀ code, res.code = some code → F.CodeFits code) ∧
        (minImp < res.imp → ∃ code, res.code = some code ∧ AdmCode F leafSize w.cases code) := by
    intro T' L' p hok'
    cases F with
    | num f =>
      obtain ⟨res, w', e, h1, h2, h3, h4, -⟩ := bestNumSplitR_divides L' hr hcut f p hls rs hcs hF hap hok'
      refine ⟨res, w', e, h1, h2, fun code hc => ?_, fun hlt => ?_⟩
      · obtain ⟨t, rfl⟩ := h3 code hc
        trivial
      · rcases h4 with h4 | ⟨-, t, h5, h6, h7, -⟩
        · exact absurd hlt (by rw [h4]; exact XF.lt_irrefl' _)
        · refine ⟨_, h5, ?_⟩
          unfold AdmCode
          rw [lefts_num hF, rights_num hF]
          exact ⟨h6, h7.le⟩
    | cat f =>
      obtain ⟨res, w', e, h1, h2, h3⟩ := search_ok L' p leafSize (.cat f) hls rs w hcs hF hok'
      exact ⟨res, w', e, h1, h2, h3.fits, h3.adm⟩
  unfold Feature.searchR
  by_cases hp : parentImp < .fin 0
  · rw [if_pos hp]
    exact key T L parentImp hok
  · rw [if_neg hp]
    exact key _ (L.judged r parentImp) (.fin (-1)) hok

/-- The same for `BestSplit`, with missing values. -/
theorem bestSplitR_ok {rep : K → Prop} {r : K → XF K} (hr : RoundsTo rep r) {cut : K} (hcut : 0 ≤ cut) (F : Feature K)
    (parentImp : XF K) {leafSize : Nat} (hls : 1 ≤ leafSize) (rs : Bool) (w : Work K)
    (hcs : ∀ c ∈ w.cases, c ∈ cases) (hF : F.Searchable (F.knowns w.cases))
    (hap : F.Apart rep r (.fin cut) (F.knowns w.cases))
    (hmiss : ∀ c ∈ w.cases, F.isMissing c ≠ none) (hsound : F.MissingSound) (hok : L.Ok w.allocs) :
    ∃ res w', F.bestSplitR r (.fin cut) T parentImp leafSize rs w = some (res, w') ∧ w'.cases.Perm w.cases ∧
      L.Ok w'.allocs ∧
      ((F.knowns w.cases = [] ∧ F.missingVals = true ∧ res = ⟨none, .fin 0, false⟩) ∨
       ∃ r0 w0 w1, w0.cases = F.knowns w.cases ∧ L.Ok w0.allocs ∧
         F.searchR r (.fin cut) T (if F.missingVals then L.I (F.knowns w.cases) else parentImp) leafSize rs w0 =
           some (r0, w1) ∧
         (∀ code, r0.code = some code → F.CodeFits code) ∧
         (minImp < r0.imp → ∃ code, r0.code = some code ∧ AdmCode F leafSize (F.knowns w.cases) code) ∧
         res.code = r0.code ∧ res.constant = r0.constant ∧
         res.imp = if F.missings w.cases ≠ [] ∧ minImp < r0.imp then
            penaltyR r parentImp r0.imp (L.I (F.knowns w.cases)) (L.I (F.missings w.cases)) (F.knowns w.cases).length
              (F.missings w.cases).length w.cases.length
          else r0.imp) := by
  have hk : ∀ c ∈ F.knowns w.cases, c ∈ cases := fun c hc => hcs c (List.mem_of_mem_filter hc)
  have hm : ∀ c ∈ F.missings w.cases, c ∈ cases := fun c hc => hcs c (List.mem_of_mem_filter hc)
  unfold Feature.bestSplitR
  by_cases hmv : F.missingVals = true
  · rw [if_pos hmv, missing_sift F _ hmiss]
    simp only [Option.bind_eq_bind, Option.bind_some]
    by_cases hnil : F.knowns w.cases = []
    · rw [if_pos (by rw [hnil]; rfl)]
      exact ⟨_, _, rfl, List.Perm.refl _, hok, .inl ⟨hnil, hmv, rfl⟩⟩
    rw [if_neg (by rwa [List.length_eq_zero_iff])]
    obtain ⟨a1, e1, hok1⟩ := L.impurity w.allocs _ hok hk
    rw [e1]
    simp only [Option.bind_some]
    obtain ⟨a2, mi, e2, hok2, hmi⟩ : ∃ a2 mi, missingImpurity T a1 (F.missings w.cases) =
        some (mi, a2) ∧ L.Ok a2 ∧ (F.missings w.cases ≠ [] → mi = L.I (F.missings w.cases)) := by
      unfold missingImpurity
      by_cases h0 : 0 < (F.missings w.cases).length
      · rw [if_pos h0]
        obtain ⟨a2, e2, hok2⟩ := L.impurity a1 _ hok1 hm
        exact ⟨a2, _, e2, hok2, fun _ => rfl⟩
      · rw [if_neg h0]
        exact ⟨a1, _, rfl, hok1, fun hne => absurd (List.length_pos_of_ne_nil hne) h0⟩
    rw [e2]
    simp only [Option.bind_some]
    obtain ⟨r0, w', e3, hp3, hok3, hf, ha⟩ := searchR_ok L hr hcut F (L.I (F.knowns w.cases)) hls rs
      ⟨F.knowns w.cases, a2, w.rng⟩ hk hF hap hok2
    rw [e3]
    simp only [Option.bind_some]
    by_cases hc : 0 < (F.missings w.cases).length ∧ minImp < r0.imp
    · rw [if_pos hc]
      have hne : F.missings w.cases ≠ [] := List.ne_nil_of_length_pos hc.1
      refine ⟨_, _, rfl, List.Perm.refl _, hok3,
        .inr ⟨r0, ⟨F.knowns w.cases, a2, w.rng⟩, w', rfl, hok2, ?_, hf, ha, rfl, rfl, ?_⟩⟩
      · rwa [if_pos hmv]
      · rw [if_pos ⟨hne, hc.2⟩, hmi hne]
    · rw [if_neg hc]
      refine ⟨_, _, rfl, List.Perm.refl _, hok3,
        .inr ⟨r0, ⟨F.knowns w.cases, a2, w.rng⟩, w', rfl, hok2, ?_, hf, ha, rfl, rfl, ?_⟩⟩
      · rwa [if_pos hmv]
      · rw [if_neg (fun h => hc ⟨List.length_pos_of_ne_nil h.1, h.2⟩)]
  · rw [if_neg hmv]
    have hall : F.knowns w.cases = w.cases := by
      apply List.filter_eq_self.2
      intro c hc
      rcases h : F.isMissing c with _ | b
      · exact absurd h (hmiss c hc)
      · cases b
        · rfl
        · exact absurd (hsound c h) hmv
    have hnone : F.missings w.cases = [] := by
      apply List.filter_eq_nil_iff.2
      intro c hc h
      exact hmv (hsound c (by simpa using h))
    have hF' := hF
    have hap' := hap
    rw [hall] at hF' hap'
    obtain ⟨r0, w', e3, hp3, hok3, hf, ha⟩ := searchR_ok L hr hcut F parentImp hls rs w hcs hF' hap' hok
    refine ⟨r0, w', e3, hp3, hok3, .inr ⟨r0, w, w', hall.symm, hok, ?_, hf, ?_, rfl, rfl, ?_⟩⟩
    · rw [if_neg hmv]; exact e3
    · rw [hall]; exact ha
    · rw [if_neg (fun h => h.1 hnone)]

end

/-! ## Evaluating a candidate, and `BestSplitter` -/

section
variable {fm : FeatureMatrix K} {T : Target K} {cases : List Nat} {L : TargetLaws T cases}
  {C : Contrast K τ} {good : τ → Prop} {o : SplitOpts} {cs oob cans : List Nat}
  {rep : K → Prop} {r : K → XF K} {cut : K}

theorem bestSplitR_eval {T : Target K} {L : TargetLaws T cases} (hr : RoundsTo rep r) (hcut : 0 ≤ cut) {F : Feature K}
    (hF : FeatOk F cases) (hap : F.Apart rep r (.fin cut) (F.knowns cases)) (hls : 1 ≤ o.leafSize)
    (parentImp : XF K) (w : Work K) (hcs : ∀ c ∈ w.cases, c ∈ cases) (hok : L.Ok w.allocs) :
    ∃ res w', F.bestSplitR r (.fin cut) T parentImp o.leafSize o.extraRandom w = some (res, w') ∧
      w'.cases.Perm w.cases ∧ L.Ok w'.allocs ∧
      (∀ code, res.code = some code → F.CodeFits code) ∧
      (minImp < res.imp → ∃ code, res.code = some code ∧
        AdmCode F o.leafSize (F.knowns w.cases) code) := by
  have hk : ∀ c ∈ F.knowns w.cases, c ∈ F.knowns cases := by
    intro c hc
    unfold Feature.knowns at hc ⊢
    rw [List.mem_filter] at hc ⊢
    exact ⟨hcs c hc.1, hc.2⟩
  obtain ⟨res, w', e, h1, h2, h3⟩ := bestSplitR_ok L hr hcut F parentImp hls o.extraRandom w hcs
    (hF.searchable hcs) (hap.mono hk) (fun c hc => hF.isMissing (hcs c hc)) hF.sound hok
  refine ⟨res, w', e, h1, h2, ?_, ?_⟩
  · rcases h3 with ⟨-, -, rfl⟩ | ⟨r0, w0, w1, -, -, -, hf, -, hc, -, -⟩
    · intro code h; cases h
    · rw [hc]; exact hf
  · rcases h3 with ⟨-, -, rfl⟩ | ⟨r0, w0, w1, -, -, -, -, ha, hc, -, hi⟩
    · intro h
      have : (1 / 10000000 : K) < 0 := h
      have h0 : (0 : K) < 1 / 10000000 := by positivity
      exact absurd this (not_lt.2 h0.le)
    · intro hlt
      rw [hc]
      apply ha
      rw [hi] at hlt
      split at hlt
      · rename_i hh; exact hh.2
      · exact hlt

theorem oobStepR_ok {F : Feature K} (hF : FeatOk F cases) (h3 : o.evaloob = true → L.Total3) {best : XF K}
    (hbest : best = minImp ∨ minImp < best) {res : Found K} {s : Searching K τ}
    (hs : EvalState L good cs oob s) (hoob : ∀ c ∈ oob, c ∈ cases)
    (hfit : ∀ code, res.code = some code → F.CodeFits code)
    (hadm : minImp < res.imp → ∃ code, res.code = some code ∧ AdmCode F o.leafSize (F.knowns cs) code) :
    ∃ x s', oobStepR r F T o best res s = some (x, s') ∧ EvalState L good cs oob s' ∧
      (minImp < x → minImp < res.imp) := by
  obtain ⟨x, s', e, hs', hx⟩ := oobStep_ok (o := o) hF h3 hbest hs hoob hfit hadm
  unfold oobStepR
  rw [e]
  refine ⟨_, _, rfl, hs', fun hlt => ?_⟩
  split at hlt
  · rename_i h
    rcases hbest with hb | hb
    · rw [← hb]; exact h.2
    · exact XF.lt_trans' hb h.2
  · exact hx hlt

theorem vetStepR_ok (hr : RoundsTo rep r) (hcut : 0 ≤ cut) {F : Feature K} (hF : FeatOk F cases)
    (hap : F.Apart rep r (.fin cut) (F.knowns cases)) (hC : o.vet = true → ContrastOk L C good)
    (hls : 1 ≤ o.leafSize) {best imp parentImp : XF K}
    (hbest : best = minImp ∨ minImp < best) {s : Searching K τ}
    (hs : EvalState L good cs oob s) (hcs : ∀ c ∈ cs, c ∈ cases) (hoob : ∀ c ∈ oob, c ∈ cases) :
    ∃ x s', vetStepR r (.fin cut) F C o parentImp best imp s = some (x, s') ∧ EvalState L good cs oob s' ∧
      (minImp < x → minImp < imp) := by
  unfold vetStepR
  by_cases hlt' : o.vet = true ∧ best < imp
  · rw [if_pos hlt']
    obtain ⟨he, hlt⟩ := hlt'
    have hlt' : minImp < imp := by
      rcases hbest with h | h
      · rwa [h] at hlt
      · exact XF.lt_trans' h hlt
    have ho : ∀ c ∈ (if o.evaloob then s.oob else s.work.cases), c ∈ cases := by
      split
      · exact fun c hc => hoob c (hs.oob_.subset hc)
      · exact fun c hc => hcs c (hs.cases_.subset hc)
    obtain ⟨c', rng', e1, hg⟩ := (hC he).shuffle s.contrast _ s.work.rng hs.contrast ho
    obtain ⟨L', hL'⟩ := (hC he).laws c' hg
    obtain ⟨v, w', e2, hp, hok, -⟩ := bestSplitR_eval (L := L') hr hcut hF hap hls parentImp
      ⟨if o.evaloob then s.oob else s.work.cases, s.work.allocs, rng'⟩ ho (by rw [hL']; exact hs.allocs)
    simp only [Option.bind_eq_bind, e1, Option.bind_some]
    rw [e2, Option.bind_some]
    rw [hL'] at hok
    refine ⟨_, _, rfl, ?_, fun _ => hlt'⟩
    simp only at hp
    split
    · rename_i he
      rw [if_pos he] at hp
      exact ⟨hs.cases_, hok, hp.trans hs.oob_, hg⟩
    · rename_i he
      rw [if_neg he] at hp
      exact ⟨hp.trans hs.cases_, hok, hs.oob_, hg⟩
  · rw [if_neg hlt']
    exact ⟨_, _, rfl, hs, id⟩

theorem evalFeatureR_ok (hr : RoundsTo rep r) (hcut : 0 ≤ cut) (hM : ∀ f ∈ fm.data, FeatOk f cases)
    (hap : ∀ f ∈ fm.data, f.Apart rep r (.fin cut) (f.knowns cases)) (h3 : o.evaloob = true → L.Total3)
    (hC : o.vet = true → ContrastOk L C good) (hls : 1 ≤ o.leafSize) (parentImp : XF K)
    (hcs : ∀ c ∈ cs, c ∈ cases) (hoob : ∀ c ∈ oob, c ∈ cases)
    {s : Searching K τ} (hs : EvalState L good cs oob s) {best : XF K}
    (hbest : best = minImp ∨ minImp < best) {i : Nat} (hi : i < fm.data.length) :
    ∃ res s', evalFeatureR r (.fin cut) fm T C o parentImp s best i = some (res, s') ∧
      EvalState L good cs oob s' ∧ EvalGood fm o.leafSize cs i res := by
  unfold evalFeatureR
  have hf : fm.data[i]? = some fm.data[i] := List.getElem?_eq_getElem hi
  have hF := hM fm.data[i] (List.getElem_mem hi)
  have hA := hap fm.data[i] (List.getElem_mem hi)
  rw [hf]
  obtain ⟨res, w', e1, hp, hok, hfit, hadm⟩ := bestSplitR_eval (L := L) hr hcut hF hA hls parentImp s.work
    (fun c hc => hcs c (hs.cases_.subset hc)) hs.allocs
  simp only [Option.bind_eq_bind, Option.bind_some, e1]
  have hs1 : EvalState L good cs oob { s with work := w' } :=
    ⟨hp.trans hs.cases_, hok, hs.oob_, hs.contrast⟩
  have hadm1 : minImp < res.imp → ∃ code, res.code = some code ∧
      AdmCode fm.data[i] o.leafSize (fm.data[i].knowns cs) code := by
    intro h
    obtain ⟨code, hc, ha⟩ := hadm h
    exact ⟨code, hc, admCode_knowns_perm hs.cases_ ha⟩
  obtain ⟨x, s2, e2, hs2, hx⟩ := oobStepR_ok (o := o) (r := r) hF h3 hbest hs1 hoob hfit hadm1
  rw [e2]
  simp only [Option.bind_some]
  obtain ⟨y, s3, e3, hs3, hy⟩ := vetStepR_ok (o := o) (imp := x) (parentImp := parentImp) hr hcut hF hA hC hls
    hbest hs2 hcs hoob
  rw [e3]
  exact ⟨_, _, rfl, hs3, ⟨_, hf, hfit, fun h => hadm1 (hx (hy h))⟩⟩

theorem bestSplitterR_ok (hr : RoundsTo rep r) (hcut : 0 ≤ cut) (hM : ∀ f ∈ fm.data, FeatOk f cases)
    (hap : ∀ f ∈ fm.data, f.Apart rep r (.fin cut) (f.knowns cases))
    (h3 : o.evaloob = true → L.Total3) (hC : o.vet = true → ContrastOk L C good)
    (hgood : good C.start) (hls : 1 ≤ o.leafSize)
    {st : SplitState K} (hcans : ∀ i ∈ st.cans, i < fm.data.length)
    (hm : o.mTry ≤ st.cans.length) {nc : Nat} (hnc : nc ≤ st.cans.length)
    (hcs : ∀ c ∈ cs, c ∈ cases) (hoob : ∀ c ∈ st.oob, c ∈ cases) (hok : L.Ok st.allocs) :
    ∃ d j, bestSplitterR r (.fin cut) fm T C o st cs nc = some d ∧
      DrawInv (EvalState L good cs st.oob) (EvalGood fm o.leafSize cs) st.cans nc j d := by
  unfold bestSplitterR
  obtain ⟨a, e, hok'⟩ := L.impurity st.allocs cs hok hcs
  rw [e]
  simp only
  have hs : EvalState L good cs st.oob ⟨⟨cs, a, st.rng⟩, st.oob, C.start⟩ :=
    ⟨List.Perm.refl _, hok', List.Perm.refl _, hgood⟩
  have h0 := drawInv_start (K := K) (G := EvalGood fm o.leafSize cs) hnc hs
  by_cases hp : L.I cs ≤ minImp ∧ .fin 0 ≤ L.I cs
  · rw [if_pos hp]
    exact ⟨_, 0, rfl, h0⟩
  · rw [if_neg hp]
    obtain ⟨d, j, e2, h1, h2, h4⟩ := bestLoop_ok (P := EvalState L good cs st.oob)
      (G := EvalGood fm o.leafSize cs) (eval := evalFeatureR r (.fin cut) fm T C o (L.I cs))
      (intn := Searching.intn) (cans := st.cans) (nc := nc) (force := o.force) hm
      (fun s best i hs hi hb => evalFeatureR_ok hr hcut hM hap h3 hC hls (L.I cs) hcs hoob hs hb (hcans i hi))
      (fun s n hs hn => searching_intn s n hs hn) (o.mTry + 2 * st.cans.length + 1) 0 _ h0
      (.inl (Nat.zero_le _)) (by omega) (Nat.zero_le _)
    exact ⟨d, j, e2, h1⟩

variable {fp : List Nat → String} {md : Int} {sm : Bool}

theorem treeGrowerR_searchOk (hr : RoundsTo rep r) (hcut : 0 ≤ cut) (hS : SplitSetting L fm C good o cans oob)
    (hap : ∀ f ∈ fm.data, f.Apart rep r (.fin cut) (f.knowns cases)) :
    SearchOk (treeGrowerR r (.fin cut) fm T C o fp md sm) fm (StateOk L fm cans oob) (· ≤ cans.length) cases ∧
    Admissible (treeGrowerR r (.fin cut) fm T C o fp md sm) fm (StateOk L fm cans oob) (· ≤ cans.length) cases ∧
    ∀ st cs nc, StateOk L fm cans oob st → nc ≤ cans.length → (∀ c ∈ cs, c ∈ cases) →
      (treeGrowerR r (.fin cut) fm T C o fp md sm).best st cs nc ≠ none := by
  obtain ⟨hM, h3, hC, hgood, hls, hcans, hm, hoob⟩ := hS
  have key : ∀ (st : SplitState K) (cs : List Nat) (nc : Nat), StateOk L fm cans oob st →
      nc ≤ cans.length → (∀ c ∈ cs, c ∈ cases) → ∃ d j, bestSplitterR r (.fin cut) fm T C o st cs nc = some d ∧
      DrawInv (EvalState L good cs st.oob) (EvalGood fm o.leafSize cs) st.cans nc j d := by
    intro st cs nc hst hnc hcs
    have hlen := hst.cans_.length_eq
    exact bestSplitterR_ok (cs := cs) (nc := nc) hr hcut hM hap h3 hC hgood hls
      (fun i hi => hcans i (hst.cans_.subset hi)) (by omega) (by omega) hcs
      (fun c hc => hoob c (hst.oob_.subset hc)) hst.allocs
  refine ⟨⟨?_, ?_, ?_⟩, ?_, ?_⟩
  · intro st cs nc st' res hst hnc hcs h
    obtain ⟨d, j, e, hd⟩ := key st cs nc hst hnc hcs
    simp only [treeGrowerR, e, Option.bind_eq_bind, Option.bind_some, Option.some.injEq,
      Prod.mk.injEq] at h
    rw [← h.2]
    exact hd.st.cases_
  · intro st cs nc st' res code hst hnc hcs h hs
    obtain ⟨d, j, e, hd⟩ := key st cs nc hst hnc hcs
    simp only [treeGrowerR, e, Option.bind_eq_bind, Option.bind_some, Option.some.injEq,
      Prod.mk.injEq] at h
    rw [← h.2] at hs ⊢
    obtain ⟨f, hf, hfit, -⟩ := hd.split_ok hs
    exact ⟨f, hf, hfit⟩
  · intro st cs nc st' res hst hnc hcs h
    obtain ⟨d, j, e, hd⟩ := key st cs nc hst hnc hcs
    simp only [treeGrowerR, e, Option.bind_eq_bind, Option.bind_some, Option.some.injEq,
      Prod.mk.injEq] at h
    rw [← h.1, ← h.2]
    refine ⟨⟨hd.st.allocs, hd.perm.trans hst.cans_, hd.st.oob_.trans hst.oob_⟩, ?_⟩
    have := hd.fits
    have := hst.cans_.length_eq
    simp only
    omega
  · intro st cs nc st' res code f hst hnc hcs h hs hf
    obtain ⟨d, j, e, hd⟩ := key st cs nc hst hnc hcs
    simp only [treeGrowerR, e, Option.bind_eq_bind, Option.bind_some, Option.some.injEq,
      Prod.mk.injEq] at h
    rw [← h.2] at hs hf
    obtain ⟨f', hf', -, ha⟩ := hd.split_ok hs
    rw [hf] at hf'
    cases hf'
    exact admCode_counts ha
  · intro st cs nc hst hnc hcs
    obtain ⟨d, j, e, hd⟩ := key st cs nc hst hnc hcs
    simp [treeGrowerR, e]

end
end CloudForest
