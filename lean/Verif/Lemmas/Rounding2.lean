import Verif.Lemmas.Rounding
import Verif.Lemmas.NumSearch

/-! # Lemmas about the search in rounded arithmetic -/

set_option linter.unusedSectionVars false

namespace CloudForest
variable {K : Type} [Field K] [LinearOrder K] [IsStrictOrderedRing K]

/-- What is known of the best threshold so far. -/
def RoundedBest {T : Target K} {cases : List Nat} (L : TargetLaws T cases) (r : K → XF K) (parentImp : XF K)
    (sorted : List Nat) (x : Nat → K) (lo stop : Nat) (best splitf : XF K) : Prop :=
  best = minImp ∨ (minImp < best ∧ ∃ p q, q < p ∧ lo ≤ p ∧ p < stop ∧ x q < x p ∧ (∀ k, q ≤ k → k < p → x k ≤ x q) ∧
    splitf = XF.midpoint r (.fin (x q)) (.fin (x p)) ∧ best = gain parentImp (L.S (sorted.take p) (sorted.drop p)))

theorem numLoopR_ok {T : Target K} {cases : List Nat} (L : TargetLaws T cases) (r : K → XF K) (cut parentImp : XF K)
    {sorted : List Nat} (hmem : ∀ c ∈ sorted, c ∈ cases) {vals : List (XF K)} {x : Nat → K}
    (hv : ∀ k, k < sorted.length → vals[k]? = some (.fin (x k)))
    (hgap : ∀ i j, i < sorted.length → j < sorted.length →
      (XF.fin (x i) ≤ XF.plusCut r (.fin (x j)) cut ↔ x i ≤ x j))
    {lo stop : Nat} (hstop : stop ≤ sorted.length) :
    ∀ d i lasti lastsplit a best splitf, stop - i = d → lo ≤ i → lasti < i →
      (∀ k, lasti ≤ k → k < i → x k ≤ x lasti) →
      ((lastsplit = 0 ∧ L.Ok a) ∨
        (0 < lastsplit ∧ lastsplit ≤ i ∧ L.Tracks a (sorted.take lastsplit) (sorted.drop lastsplit))) →
      RoundedBest L r parentImp sorted x lo stop best splitf → best ≤ best →
      ∃ best' splitf' a', numLoopR r cut T parentImp sorted vals stop i lasti lastsplit a best splitf =
          some (best', splitf', a') ∧ L.Ok a' ∧ RoundedBest L r parentImp sorted x lo stop best' splitf' ∧
        best ≤ best' ∧ ∀ p, i ≤ p → p < stop → (∀ k, k < p → x k < x p) →
          ¬ best' < gain parentImp (L.S (sorted.take p) (sorted.drop p)) := by
  intro d
  induction d with
  | zero =>
    intro i lasti lastsplit a best splitf hd hlo hl hflat hs hb hbb
    refine ⟨best, splitf, a, ?_, ?_, hb, hbb, fun p h1 h2 => by omega⟩
    · rw [numLoopR, if_neg (by omega)]
    · rcases hs with h | h
      · exact h.2
      · exact L.tracks_ok _ _ _ h.2.2
  | succ d ih =>
    intro i lasti lastsplit a best splitf hd hlo hl hflat hs hb hbb
    have hi : i < stop := by omega
    have hin : i < sorted.length := by omega
    have hln : lasti < sorted.length := by omega
    rw [numLoopR, if_pos hi, hv i hin, hv lasti hln]
    simp only [Option.bind_eq_bind, Option.bind_some, hgap _ _ hin hln]
    by_cases hskip : x i ≤ x lasti
    · rw [if_pos hskip]
      obtain ⟨b', sf', a', e, h1, h2, h3, h4⟩ := ih (i + 1) lasti lastsplit a best splitf (by omega) (by omega)
        (by omega) (by
          intro k h1 h2
          by_cases hk : k = i
          · rw [hk]; exact hskip
          · exact hflat k h1 (by omega)) (hs.imp id fun h => ⟨h.1, by omega, h.2.2⟩) hb hbb
      refine ⟨b', sf', a', e, h1, h2, h3, fun p hp hps hall => ?_⟩
      by_cases hpi : p = i
      · exact absurd (hall lasti (by omega)) (not_lt.2 (hpi ▸ hskip))
      · exact h4 p (by omega) hps hall
    · rw [if_neg hskip]
      obtain ⟨a1, e1, ht1⟩ := cutImpurity_ok L hmem hs
      rw [e1]
      simp only [Option.bind_some]
      have hflat' : ∀ k, i ≤ k → k < i + 1 → x k ≤ x i := by
        intro k h1 h2
        have : k = i := by omega
        rw [this]
      by_cases hlb : best < gain parentImp (L.S (sorted.take i) (sorted.drop i))
      · rw [if_pos hlb]
        obtain ⟨b', sf', a', e, h1, h2, h3, h4⟩ := ih (i + 1) i i a1
          (gain parentImp (L.S (sorted.take i) (sorted.drop i))) (XF.midpoint r (.fin (x lasti)) (.fin (x i))) (by omega)
          (by omega) (by omega) hflat' (.inr ⟨by omega, by omega, ht1⟩)
          (.inr ⟨(by rcases hb with h | h
                     · rw [← h]; exact hlb
                     · exact XF.lt_trans' h.1 hlb), i, lasti, hl, hlo, hi, not_le.1 hskip, hflat, rfl, rfl⟩)
          (XF.le_refl' fun h => by
            rw [h] at hlb
            revert hlb
            cases best <;> exact fun h => h)
        refine ⟨b', sf', a', e, h1, h2, XF.le_trans' (XF.le_of_lt' hlb) h3, fun p hp hps hall => ?_⟩
        by_cases hpi : p = i
        · rw [hpi]; exact XF.not_lt_of_le' h3
        · exact h4 p (by omega) hps hall
      · rw [if_neg hlb]
        obtain ⟨b', sf', a', e, h1, h2, h3, h4⟩ := ih (i + 1) i i a1 best splitf (by omega) (by omega) (by omega) hflat'
          (.inr ⟨by omega, by omega, ht1⟩) hb hbb
        refine ⟨b', sf', a', e, h1, h2, h3, fun p hp hps hall => ?_⟩
        by_cases hpi : p = i
        · rw [hpi]; exact fun h => hlb (XF.lt_of_le_of_lt' h3 h)
        · exact h4 p (by omega) hps hall

/-- Without near ties the rounded comparison is the comparison. -/
theorem plusCut_le {rep : K → Prop} {r : K → XF K} (h : RoundsTo rep r) {c : K} (hc : 0 ≤ c) {x y : K} (hy : rep y)
    (hn : y < x → ¬ XF.fin x ≤ XF.plusCut r (.fin y) (.fin c)) :
    XF.fin x ≤ XF.plusCut r (.fin y) (.fin c) ↔ x ≤ y := by
  constructor
  · intro h1
    by_contra h2
    exact hn (not_le.1 h2) h1
  · intro h1
    have h2 : XF.fin y ≤ XF.plusCut r (.fin y) (.fin c) := h.ge hy (by linarith)
    revert h2
    cases XF.plusCut r (.fin y) (.fin c) with
    | nan => intro h2; exact h2
    | pinf => intro h2; exact h2
    | ninf => intro h2; exact h2
    | fin z => rw [XF.fin_le, XF.fin_le]; exact h1.trans

/-- What is true of the result of the search. -/
structure RoundedFound (r : K → XF K) (f : NumFeature K) {T : Target K} {cases : List Nat} (L : TargetLaws T cases) (parentImp : XF K)
    (leafSize : Nat) (rs : Bool) (w : Work K) (res : Found K) (w' : Work K) : Prop where
  perm : w'.cases.Perm w.cases
  ok : L.Ok w'.allocs
  found : res.imp = minImp ∨ (minImp < res.imp ∧ ∃ t l g, res.code = some (.num (.fin t)) ∧ (l ++ g).Perm w.cases ∧
    leafSize ≤ l.length ∧ leafSize < g.length ∧ res.imp = gain parentImp (L.S l g) ∧ (∀ c ∈ l, f.value c ≤ t) ∧
    (∀ c ∈ g, t ≤ f.value c) ∧ (∀ c ∈ l, ∀ d ∈ g, f.value c < f.value d) ∧
    ∃ a ∈ l, ∃ b ∈ g, XF.midpoint r (.fin (f.value a)) (.fin (f.value b)) = .fin t ∧ ∀ d ∈ g, f.value b ≤ f.value d)
  code : ∀ code, res.code = some code → ∃ t, code = .num t
  constant : res.constant = true → res.imp = minImp ∧ ∀ c ∈ w.cases, ∀ d ∈ w.cases, f.value c ≤ f.value d
  opt : rs = false → ∀ l g, (l ++ g).Perm w.cases → leafSize ≤ l.length → leafSize < g.length →
    (∀ c ∈ l, ∀ d ∈ g, f.value c < f.value d) → ¬ res.imp < gain parentImp (L.S l g)

/-- A division below and above some value is a cut of the sorted list. -/
theorem cut_of_sorted (f : NumFeature K) {cs l g : List Nat} (hp : (l ++ g).Perm cs)
    (hpw : cs.Pairwise fun a b => f.value a ≤ f.value b) (hsep : ∀ c ∈ l, ∀ d ∈ g, f.value c < f.value d) :
    l.Perm (cs.take l.length) ∧ g.Perm (cs.drop l.length) := by
  classical
  let P : Nat → Bool := fun c => decide (∀ d ∈ g, f.value c < f.value d)
  have hP : ∀ c, P c = true ↔ ∀ d ∈ g, f.value c < f.value d := fun c => decide_eq_true_iff
  have hl : (l ++ g).filter P = l := by
    rw [List.filter_append, List.filter_eq_self.2 (fun c hc => (hP c).2 (hsep c hc)),
      List.filter_eq_nil_iff.2 (fun c hc h => lt_irrefl _ ((hP c).1 h c hc)), List.append_nil]
  have hg : (l ++ g).filter (fun c => !P c) = g := by
    rw [List.filter_append, List.filter_eq_nil_iff.2 (fun c hc => by simp [P]; exact hsep c hc),
      List.filter_eq_self.2 (fun c hc => ?_), List.nil_append]
    have : P c = false := decide_eq_false fun h => lt_irrefl _ (h c hc)
    rw [this]; rfl
  have hs := filter_sorted P cs (hpw.imp fun {a b} hab h => (hP a).2 fun d hd =>
    lt_of_le_of_lt hab ((hP b).1 h d hd))
  have h1 : l.Perm (cs.filter P) := by
    have := hp.filter P
    rwa [hl] at this
  have h2 : g.Perm (cs.filter fun c => !P c) := by
    have := hp.filter fun c => !P c
    rwa [hg] at this
  rw [← h1.length_eq] at hs
  exact ⟨hs.1 ▸ h1, hs.2 ▸ h2⟩

theorem bestNumSplitR_ok {rep : K → Prop} {r : K → XF K} (hr : RoundsTo rep r) {cut : K} (hcut : 0 ≤ cut)
    (f : NumFeature K) {T : Target K} {cases : List Nat} (L : TargetLaws T cases) (parentImp : XF K) {leafSize : Nat}
    (hls : 1 ≤ leafSize) (rs : Bool) {w : Work K} (hcs : ∀ c ∈ w.cases, c ∈ cases) (hfin : f.Finite w.cases)
    (hrep : ∀ c ∈ w.cases, rep (f.value c) ∧ rep (2 * f.value c)) (hties : f.NoRoundedTies r (.fin cut) w.cases)
    (hok : L.Ok w.allocs) :
    ∃ res w', f.bestNumSplitR r (.fin cut) T parentImp leafSize rs w = some (res, w') ∧
      RoundedFound r f L parentImp leafSize rs w res w' := by
  unfold NumFeature.bestNumSplitR
  by_cases hn : 2 * leafSize ≤ w.cases.length
  swap
  · rw [if_neg hn]
    refine ⟨_, _, rfl, List.Perm.refl _, hok, .inl rfl, fun _ h => by cases h; exact ⟨_, rfl⟩, nofun,
      fun _ l g hp h1 h2 => ?_⟩
    have := hp.length_eq
    rw [List.length_append] at this
    omega
  rw [if_pos hn, load_eq f _ hfin]
  obtain ⟨cs, vs, hsort, hperm, hvs, hpw⟩ := sorted_ok f w.cases
  simp only [Option.bind_eq_bind, Option.bind_some, hsort]
  have hlen : cs.length = w.cases.length := hperm.length_eq
  let x : Nat → K := fun k => f.value (cs.getD k 0)
  have hx : ∀ k (hk : k < cs.length), x k = f.value cs[k] := by
    intro k hk
    simp only [x]
    rw [List.getD_eq_getElem?_getD, List.getElem?_eq_getElem hk]; rfl
  have hv : ∀ k, k < cs.length → vs[k]? = some (.fin (x k)) := by
    intro k hk
    rw [hvs, List.getElem?_map, List.getElem?_eq_getElem hk, hx k hk]; rfl
  have hmono : ∀ i j, i ≤ j → j < cs.length → x i ≤ x j := by
    intro i j hij hj
    rcases hij.eq_or_lt with rfl | hlt
    · exact le_refl _
    · rw [hx i (by omega), hx j hj]
      exact List.pairwise_iff_getElem.1 hpw i j (by omega) hj hlt
  have hmem : ∀ c ∈ cs, c ∈ w.cases := fun c hc => hperm.mem_iff.1 hc
  have hgap : ∀ i j, i < cs.length → j < cs.length →
      (XF.fin (x i) ≤ XF.plusCut r (.fin (x j)) (.fin cut) ↔ x i ≤ x j) := by
    intro i j hi hj
    rw [hx i hi, hx j hj]
    exact plusCut_le hr hcut (hrep _ (hmem _ (List.getElem_mem _))).1
      (hties _ (hmem _ (List.getElem_mem _)) _ (hmem _ (List.getElem_mem _)))
  rw [hv 0 (by omega), hv (w.cases.length - 1) (by omega)]
  simp only [Option.bind_some, hgap _ _ (show w.cases.length - 1 < cs.length by omega) (show 0 < cs.length by omega)]
  by_cases hc : x (w.cases.length - 1) ≤ x 0
  · rw [if_pos hc]
    have hsame : ∀ c ∈ w.cases, ∀ d ∈ w.cases, f.value c ≤ f.value d := by
      intro c hcm d hdm
      obtain ⟨i, hi, rfl⟩ := List.mem_iff_getElem.1 (hperm.mem_iff.2 hcm)
      obtain ⟨j, hj, rfl⟩ := List.mem_iff_getElem.1 (hperm.mem_iff.2 hdm)
      rw [← hx i hi, ← hx j hj]
      exact ((hmono i (w.cases.length - 1) (by omega) (by omega)).trans hc).trans (hmono 0 j (by omega) hj)
    refine ⟨_, _, rfl, hperm, hok, .inl rfl, nofun, fun _ => ⟨rfl, hsame⟩, fun _ l g hp h1 h2 h3 => ?_⟩
    exfalso
    obtain ⟨h4, h5⟩ := cut_of_sorted f (hp.trans hperm.symm) hpw h3
    have hlg := hp.length_eq
    rw [List.length_append] at hlg
    have hm0 : cs[0]'(by omega) ∈ l := h4.mem_iff.2 (by
      refine List.mem_iff_getElem.2 ⟨0, by rw [List.length_take]; omega, ?_⟩
      rw [List.getElem_take])
    have hm1 : cs[w.cases.length - 1]'(by omega) ∈ g := h5.mem_iff.2 (by
      refine List.mem_iff_getElem.2 ⟨w.cases.length - 1 - l.length, by rw [List.length_drop]; omega, ?_⟩
      rw [List.getElem_drop]
      congr 1
      omega)
    have := h3 _ hm0 _ hm1
    rw [← hx _ (by omega), ← hx _ (by omega)] at this
    exact absurd hc (not_le.2 this)
  rw [if_neg hc]
  obtain ⟨first, stop, rng, he, hf1, hs1, hall⟩ := scanRange_ok leafSize w.cases.length rs w.rng
  rw [he]
  simp only [Option.bind_some]
  rw [if_neg (by omega)]
  obtain ⟨best, sf, a1, e1, hok1, hb, -, hopt⟩ := numLoopR_ok L r (.fin cut) parentImp (fun c hc => hcs c (hmem c hc)) hv hgap
    (lo := first) (stop := stop) (by omega) (stop - first) first (first - 1) 0 w.allocs minImp (.fin 0) rfl le_rfl
    (by omega) (by intro k h1 h2
                   have : k = first - 1 := by omega
                   rw [this]) (.inl ⟨rfl, hok⟩) (.inl rfl) (XF.le_refl' nofun)
  rw [e1]
  refine ⟨_, _, rfl, hperm, hok1, ?_, fun _ h => by cases h; exact ⟨_, rfl⟩, nofun, fun hrs l g hp h1 h2 h3 => ?_⟩
  swap
  · obtain ⟨rfl, rfl⟩ := hall hrs
    obtain ⟨h4, h5⟩ := cut_of_sorted f (hp.trans hperm.symm) hpw h3
    have hlg := hp.length_eq
    rw [List.length_append] at hlg
    rw [L.S_perm _ _ _ _ h4 h5]
    refine hopt l.length h1 (by omega) fun k hk => ?_
    rw [hx k (by omega), hx l.length (by omega)]
    refine h3 _ (h4.mem_iff.2 ?_) _ (h5.mem_iff.2 ?_)
    · refine List.mem_iff_getElem.2 ⟨k, by rw [List.length_take]; omega, ?_⟩
      rw [List.getElem_take]
    · refine List.mem_iff_getElem.2 ⟨0, by rw [List.length_drop]; omega, ?_⟩
      rw [List.getElem_drop]
      congr 1
  rcases hb with h | ⟨h, p, q, hqp, hlo, hps, hxqp, hflat, hsf, hbest⟩
  · exact .inl h
  right
  have hq := hrep _ (hmem _ (List.getElem_mem (show q < cs.length by omega)))
  have hp := hrep _ (hmem _ (List.getElem_mem (show p < cs.length by omega)))
  rw [← hx q (by omega)] at hq
  rw [← hx p (by omega)] at hp
  obtain ⟨t, ht, ht1, ht2⟩ := midpoint_between hr hq.1 hp.1 hq.2 hp.2 hxqp.le
  have hbelow : ∀ k, k < p → x k ≤ x q := by
    intro k hk
    by_cases h3 : q ≤ k
    · exact hflat k h3 hk
    · exact hmono k q (by omega) (by omega)
  have hl : ∀ c ∈ cs.take p, f.value c ≤ x q := by
    intro c hc
    obtain ⟨k, hk, rfl⟩ := List.mem_iff_getElem.1 hc
    rw [List.length_take] at hk
    rw [List.getElem_take, ← hx k (by omega)]
    exact hbelow k (by omega)
  have hg : ∀ c ∈ cs.drop p, x p ≤ f.value c := by
    intro c hc
    obtain ⟨k, hk, rfl⟩ := List.mem_iff_getElem.1 hc
    rw [List.length_drop] at hk
    rw [List.getElem_drop, ← hx _ (by omega)]
    exact hmono p _ (by omega) (by omega)
  refine ⟨h, t, cs.take p, cs.drop p, by rw [hsf, ht], by rw [List.take_append_drop]; exact hperm, ?_, ?_, hbest,
    fun c hc => (hl c hc).trans ht1, fun c hc => ht2.trans (hg c hc), fun c hc d hd => ?_, cs[q], ?_, cs[p], ?_, ?_⟩
  · rw [List.length_take]; omega
  · rw [List.length_drop]; omega
  · exact lt_of_le_of_lt (hl c hc) (lt_of_lt_of_le hxqp (hg d hd))
  · refine List.mem_iff_getElem.2 ⟨q, by rw [List.length_take]; omega, ?_⟩
    rw [List.getElem_take]
  · refine List.mem_iff_getElem.2 ⟨0, by rw [List.length_drop]; omega, ?_⟩
    rw [List.getElem_drop]
    congr 1
  · rw [← hx q (by omega), ← hx p (by omega)]
    exact ⟨ht, hg⟩

/-! ## Numbers of few bits -/

theorem numLoopR_eq (r : K → XF K) (cut : XF K) (T : Target K) (parentImp : XF K) (sorted : List Nat) {vals : List (XF K)}
    (hgap : ∀ u ∈ vals, ∀ v ∈ vals, (u ≤ XF.plusCut r v cut ↔ u ≤ v + .fin cutoff))
    (hmid : ∀ u ∈ vals, ∀ v ∈ vals, XF.midpoint r u v = (u + v) / .fin 2) (stop : Nat) :
    ∀ d i lasti lastsplit a best splitf, stop - i = d →
      numLoopR r cut T parentImp sorted vals stop i lasti lastsplit a best splitf =
        numLoop T parentImp sorted vals stop i lasti lastsplit a best splitf := by
  intro d
  induction d with
  | zero =>
    intro i lasti lastsplit a best splitf hd
    rw [numLoop, numLoopR, if_neg (by omega), if_neg (by omega)]
  | succ d ih =>
    intro i lasti lastsplit a best splitf hd
    rw [numLoop, numLoopR, if_pos (by omega), if_pos (by omega)]
    cases hi : vals[i]? with
    | none => rfl
    | some vi =>
      cases hl : vals[lasti]? with
      | none => rfl
      | some vl =>
        simp only [Option.bind_eq_bind, Option.bind_some]
        have h1 := List.mem_of_getElem? hi
        have h2 := List.mem_of_getElem? hl
        rw [hmid vl h2 vi h1]
        by_cases hs : vi ≤ vl + .fin cutoff
        · rw [if_pos hs, if_pos ((hgap vi h1 vl h2).2 hs)]
          exact ih _ _ _ _ _ _ (by omega)
        · rw [if_neg hs, if_neg (fun h => hs ((hgap vi h1 vl h2).1 h))]
          congr 1
          funext p
          split_ifs <;> exact ih _ _ _ _ _ _ (by omega)

theorem bestNumSplitR_eq (r : K → XF K) (cut : XF K) (f : NumFeature K) (T : Target K) (parentImp : XF K)
    (leafSize : Nat) (rs : Bool) (w : Work K) (hfin : f.Finite w.cases)
    (hgap : ∀ c ∈ w.cases, ∀ d ∈ w.cases,
      (XF.fin (f.value c) ≤ XF.plusCut r (.fin (f.value d)) cut ↔ f.value c ≤ f.value d + cutoff))
    (hmid : ∀ c ∈ w.cases, ∀ d ∈ w.cases,
      XF.midpoint r (.fin (f.value c)) (.fin (f.value d)) = .fin ((f.value c + f.value d) / 2)) :
    f.bestNumSplitR r cut T parentImp leafSize rs w = f.bestNumSplit T parentImp leafSize rs w := by
  unfold NumFeature.bestNumSplitR NumFeature.bestNumSplit
  by_cases hn : 2 * leafSize ≤ w.cases.length
  swap
  · rw [if_neg hn, if_neg hn]
  rw [if_pos hn, if_pos hn, load_eq f _ hfin]
  obtain ⟨cs, vs, hsort, hperm, hvs, hpw⟩ := sorted_ok f w.cases
  simp only [Option.bind_eq_bind, Option.bind_some, hsort]
  have hmem : ∀ u ∈ vs, ∃ c ∈ w.cases, u = .fin (f.value c) := by
    intro u hu
    rw [hvs] at hu
    obtain ⟨c, hc, rfl⟩ := List.mem_map.1 hu
    exact ⟨c, hperm.mem_iff.1 hc, rfl⟩
  have hgap' : ∀ u ∈ vs, ∀ v ∈ vs, (u ≤ XF.plusCut r v cut ↔ u ≤ v + .fin cutoff) := by
    intro u hu v hv
    obtain ⟨c, hc, rfl⟩ := hmem u hu
    obtain ⟨d, hd, rfl⟩ := hmem v hv
    rw [hgap c hc d hd, XF.fin_add, XF.fin_le]
  have hmid' : ∀ u ∈ vs, ∀ v ∈ vs, XF.midpoint r u v = (u + v) / .fin 2 := by
    intro u hu v hv
    obtain ⟨c, hc, rfl⟩ := hmem u hu
    obtain ⟨d, hd, rfl⟩ := hmem v hv
    rw [hmid c hc d hd, XF.fin_add, XF.fin_div _ (by norm_num)]
  cases h0 : vs[0]? with
  | none => rfl
  | some v0 =>
    cases h1 : vs[w.cases.length - 1]? with
    | none => rfl
    | some vn =>
      simp only [Option.bind_some]
      have hg := hgap' vn (List.mem_of_getElem? h1) v0 (List.mem_of_getElem? h0)
      by_cases hc : vn ≤ v0 + .fin cutoff
      · rw [if_pos hc, if_pos (hg.2 hc)]
      · rw [if_neg hc, if_neg (fun h => hc (hg.1 h))]
        congr 1
        funext p
        split
        · rfl
        · rw [numLoopR_eq r cut T parentImp cs hgap' hmid' _ _ _ _ _ _ _ _ rfl]

theorem rep64_frac {m : ℤ} {k : Nat} (hm : |m| ≤ 2 ^ 53) (hk : k ≤ 1074) : Rep64 ((m : ℚ) / 2 ^ k) := by
  refine ⟨m, -(k : ℤ), hm, by omega, ?_, ?_⟩
  · rw [zpow_neg, zpow_natCast]; rfl
  · rw [abs_div, abs_of_pos (show (0 : ℚ) < 2 ^ k by positivity)]
    have h1 : ((|m| : ℤ) : ℚ) ≤ ((2 ^ 53 : ℤ) : ℚ) := by exact_mod_cast hm
    push_cast at h1
    have h2 : |(m : ℚ)| / 2 ^ k ≤ |(m : ℚ)| := div_le_self (abs_nonneg _) (one_le_pow₀ (by norm_num))
    refine lt_of_le_of_lt (h2.trans h1) ?_
    exact lt_of_lt_of_le (b := (2 : ℚ) ^ 54) (by norm_num) (pow_le_pow_right₀ (by norm_num) (by norm_num))

theorem f64_cutoff : ∃ c, F64.cutoff = .fin c ∧ 0 ≤ c ∧ c < 1 / 2 ^ 23 := by
  obtain ⟨c, h1, h2, h3⟩ := F64.rounds.between (rep64_frac (m := 0) (k := 0) (by norm_num) (by norm_num))
    (rep64_frac (m := 15) (k := 27) (by norm_num) (by norm_num)) (x := 1 / 10000000) (by norm_num) (by norm_num)
  refine ⟨c, h1, by simpa using h2, lt_of_le_of_lt h3 (by norm_num)⟩

theorem grid_gap {k : Nat} (hk : k ≤ 22) {n m : ℤ} (hm : |m| < 2 ^ 52) :
    XF.fin ((n : ℚ) / 2 ^ k) ≤ XF.plusCut F64.round (.fin ((m : ℚ) / 2 ^ k)) F64.cutoff ↔
      (n : ℚ) / 2 ^ k ≤ (m : ℚ) / 2 ^ k + cutoff := by
  have h2k : (0 : ℚ) < 2 ^ k := by positivity
  have hkk : (2 : ℚ) ^ (k + 1) ≤ 2 ^ 23 := pow_le_pow_right₀ (by norm_num) (by omega)
  have hlt : ∀ {n m : ℤ}, m < n → (m : ℚ) / 2 ^ k + 2 / 2 ^ (k + 1) ≤ (n : ℚ) / 2 ^ k := by
    intro n m h
    have : ((m : ℚ)) + 1 ≤ n := by exact_mod_cast h
    rw [pow_succ]
    rw [show (2 : ℚ) / (2 ^ k * 2) = 1 / 2 ^ k by field_simp, ← add_div]
    exact div_le_div_of_nonneg_right this h2k.le
  have hle : ∀ {n m : ℤ}, n ≤ m → (n : ℚ) / 2 ^ k ≤ (m : ℚ) / 2 ^ k := by
    intro n m h
    exact div_le_div_of_nonneg_right (by exact_mod_cast h) h2k.le
  have hsmall : (1 : ℚ) / 2 ^ 23 ≤ 1 / 2 ^ (k + 1) := one_div_le_one_div_of_le (by positivity) hkk
  have hpos : (0 : ℚ) < 1 / 2 ^ (k + 1) := by positivity
  have htwo : (2 : ℚ) / 2 ^ (k + 1) = 2 * (1 / 2 ^ (k + 1)) := by ring
  obtain ⟨c, hc, hc0, hc1⟩ := f64_cutoff
  have hm' := abs_lt.1 hm
  have hrm : Rep64 ((m : ℚ) / 2 ^ k) := rep64_frac (hm.le.trans (by norm_num)) (by omega)
  have hru : Rep64 ((m : ℚ) / 2 ^ k + 1 / 2 ^ (k + 1)) := by
    have : (m : ℚ) / 2 ^ k + 1 / 2 ^ (k + 1) = ((2 * m + 1 : ℤ) : ℚ) / 2 ^ (k + 1) := by
      push_cast; rw [pow_succ]; field_simp
    rw [this]
    refine rep64_frac (abs_le.2 ⟨?_, ?_⟩) (by omega)
    · have := hm'.1; norm_num at this ⊢; omega
    · have := hm'.2; norm_num at this ⊢; omega
  rw [hc]
  obtain ⟨y, hy, hy1, hy2⟩ := F64.rounds.between hrm hru (x := (m : ℚ) / 2 ^ k + c) (by linarith) (by linarith)
  have hpc : XF.plusCut F64.round (.fin ((m : ℚ) / 2 ^ k)) (.fin c) = .fin y := hy
  rw [hpc, XF.fin_le]
  have hcut : (cutoff : ℚ) < 1 / 2 ^ 23 := by unfold cutoff; norm_num
  have hcut0 := cutoff_pos (K := ℚ)
  rcases le_or_gt n m with h | h
  · have := hle h
    exact ⟨fun _ => by linarith, fun _ => by linarith⟩
  · have := hlt h
    constructor <;> intro h3 <;> exfalso <;> linarith

theorem grid_mid {k : Nat} (hk : k ≤ 22) {n m : ℤ} (hn : |n| < 2 ^ 52) (hm : |m| < 2 ^ 52) :
    XF.midpoint F64.round (.fin ((n : ℚ) / 2 ^ k)) (.fin ((m : ℚ) / 2 ^ k)) =
      .fin (((n : ℚ) / 2 ^ k + (m : ℚ) / 2 ^ k) / 2) := by
  have hs : |n + m| ≤ 2 ^ 53 := (abs_add_le n m).trans (by norm_num at hn hm ⊢; omega)
  have e1 : (n : ℚ) / 2 ^ k + (m : ℚ) / 2 ^ k = ((n + m : ℤ) : ℚ) / 2 ^ k := by push_cast; ring
  have e2 : (((n + m : ℤ) : ℚ) / 2 ^ k) / 2 = ((n + m : ℤ) : ℚ) / 2 ^ (k + 1) := by rw [div_div, pow_succ]
  unfold XF.midpoint
  rw [XF.fin_add, e1]
  simp only [XF.rounded]
  rw [F64.rounds.self (rep64_frac hs (by omega))]
  rw [XF.fin_div _ (by norm_num), e2]
  exact F64.rounds.self (rep64_frac hs (by omega))

end CloudForest
