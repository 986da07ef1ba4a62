import Verif.Spec.Units
import Verif.Lemmas.Greedy2

/-! # Lemmas about the same search in another order or in other units: numbers -/

set_option linter.unusedSectionVars false

namespace CloudForest
variable {K : Type} [Field K] [LinearOrder K] [IsStrictOrderedRing K]

/-- What two searches of the same feature have in common. -/
structure TwinFound (F F' : Feature K) (cs : List Nat) (r r' : Found K) : Prop where
  imp : r'.imp = r.imp
  constant : r'.constant = r.constant
  code : minImp < r.imp → ∃ (code code' : Coded K) (p : Nat → Bool), r.code = some code ∧ r'.code = some code' ∧
    ∀ c ∈ cs, F.codedLeft code c = some (p c) ∧ F'.codedLeft code' c = some (p c)
  same : F' = F → r'.code = r.code
  affine : ∀ (f f' : NumFeature K) (a b : K), F = .num f → F' = .num f' → (∀ c ∈ cs, f'.value c = a * f.value c + b) →
    minImp < r.imp → ∃ v, r.code = some (.num (.fin v)) ∧ r'.code = some (.num (.fin (a * v + b)))

/-- What two searches, each with its own target, leave behind. -/
structure TwinWork {T T' : Target K} {cases : List Nat} (L : TargetLaws T cases) (L' : TargetLaws T' cases) (w w' : Work K) :
    Prop where
  perm : w'.cases.Perm w.cases
  ok : L.Ok w.allocs
  ok' : L'.Ok w'.allocs
  rng : w'.rng = w.rng

section
variable {T T' : Target K} {cases : List Nat} {L : TargetLaws T cases} {L' : TargetLaws T' cases} (hE : L.Agrees L')
  (parentImp : XF K)

theorem TargetLaws.Agrees.I_perm (h : L.Agrees L') {l l' : List Nat} (hp : l'.Perm l) (hl : ∀ c ∈ l, c ∈ cases) :
    L'.I l' = L.I l := by
  rw [L'.I_perm _ _ hp, h.I l hl]

theorem TargetLaws.Agrees.S_perm (h : L.Agrees L') {l l' r r' : List Nat} (hp : l'.Perm l) (hq : r'.Perm r)
    (hl : ∀ c ∈ l ++ r, c ∈ cases) : L'.S l' r' = L.S l r := by
  rw [L'.S_perm _ _ _ _ hp hq, h.S l r hl]

/-- What is known of the best threshold so far in two scans. -/
def TwinBest (x x' : Nat → K) (stop : Nat) (best splitf splitf' : XF K) : Prop :=
  (best = minImp ∧ splitf = .fin 0 ∧ splitf' = .fin 0) ∨
  (minImp < best ∧ ∃ p q, q < p ∧ p < stop ∧ x q + cutoff < x p ∧ (∀ k, q ≤ k → k < p → x k ≤ x q + cutoff) ∧
    splitf = .fin ((x q + x p) / 2) ∧ splitf' = .fin ((x' q + x' p) / 2))

include hE in
theorem numLoop_twin {sorted sorted' : List Nat} (hlen : sorted'.length = sorted.length)
    (hmem : ∀ c ∈ sorted, c ∈ cases) (hmem' : ∀ c ∈ sorted', c ∈ cases)
    {vals vals' : List (XF K)} {x x' : Nat → K}
    (hv : ∀ k, k < sorted.length → vals[k]? = some (.fin (x k)))
    (hv' : ∀ k, k < sorted.length → vals'[k]? = some (.fin (x' k)))
    (hgap : ∀ i j, i < sorted.length → j < sorted.length → (x' i ≤ x' j + cutoff ↔ x i ≤ x j + cutoff))
    (hcut : ∀ i, 0 < i → i < sorted.length → x (i - 1) < x i →
      (sorted'.take i).Perm (sorted.take i) ∧ (sorted'.drop i).Perm (sorted.drop i))
    {stop : Nat} (hstop : stop ≤ sorted.length) :
    ∀ d i lasti lastsplit a a' best splitf splitf', stop - i = d → lasti < i →
      (∀ k, lasti ≤ k → k < i → x k ≤ x lasti + cutoff) →
      ((lastsplit = 0 ∧ L.Ok a) ∨
        (0 < lastsplit ∧ lastsplit ≤ i ∧ L.Tracks a (sorted.take lastsplit) (sorted.drop lastsplit))) →
      ((lastsplit = 0 ∧ L'.Ok a') ∨
        (0 < lastsplit ∧ lastsplit ≤ i ∧ L'.Tracks a' (sorted'.take lastsplit) (sorted'.drop lastsplit))) →
      TwinBest x x' stop best splitf splitf' →
      ∃ best1 sf1 sf1' a1 a1', numLoop T parentImp sorted vals stop i lasti lastsplit a best splitf =
          some (best1, sf1, a1) ∧
        numLoop T' parentImp sorted' vals' stop i lasti lastsplit a' best splitf' = some (best1, sf1', a1') ∧
        L.Ok a1 ∧ L'.Ok a1' ∧ TwinBest x x' stop best1 sf1 sf1' := by
  intro d
  induction d with
  | zero =>
    intro i lasti lastsplit a a' best splitf splitf' hd hl hflat hs hs' hb
    have hok : ∀ {T : Target K} (L : TargetLaws T cases) {a : Allocs K} {s : List Nat}, ((lastsplit = 0 ∧ L.Ok a) ∨
        (0 < lastsplit ∧ lastsplit ≤ i ∧ L.Tracks a (s.take lastsplit) (s.drop lastsplit))) → L.Ok a := by
      rintro T L a s (h | h)
      · exact h.2
      · exact L.tracks_ok _ _ _ h.2.2
    refine ⟨best, splitf, splitf', a, a', ?_, ?_, hok L hs, hok L' hs', hb⟩ <;> rw [numLoop, if_neg (by omega)]
  | succ d ih =>
    intro i lasti lastsplit a a' best splitf splitf' hd hl hflat hs hs' hb
    have hi : i < stop := by omega
    have hin : i < sorted.length := by omega
    have hln : lasti < sorted.length := by omega
    rw [numLoop.eq_def T parentImp sorted, numLoop.eq_def T' parentImp sorted', if_pos hi, if_pos hi, hv i hin,
      hv lasti hln, hv' i hin, hv' lasti hln]
    simp only [Option.bind_eq_bind, Option.bind_some, XF.fin_add, XF.fin_le, hgap _ _ hin hln]
    by_cases hskip : x i ≤ x lasti + cutoff
    · rw [if_pos hskip, if_pos hskip]
      refine ih _ _ _ _ _ _ _ _ (by omega) (by omega) ?_ ?_ ?_ hb
      · intro k h1 h2
        by_cases hk : k = i
        · rw [hk]; exact hskip
        · exact hflat k h1 (by omega)
      · exact hs.imp id fun h => ⟨h.1, by omega, h.2.2⟩
      · exact hs'.imp id fun h => ⟨h.1, by omega, h.2.2⟩
    · rw [if_neg hskip, if_neg hskip]
      obtain ⟨a1, e1, ht1⟩ := cutImpurity_ok L hmem hs
      obtain ⟨a1', e1', ht1'⟩ := cutImpurity_ok L' hmem' hs'
      rw [e1, e1']
      have hlt : x (i - 1) < x i := lt_of_le_of_lt (hflat (i - 1) (by omega) (by omega)) (not_le.1 hskip)
      obtain ⟨hp1, hp2⟩ := hcut i (by omega) hin hlt
      rw [hE.S_perm hp1 hp2 (by rw [List.take_append_drop]; exact hmem)]
      simp only [Option.bind_some]
      have hflat' : ∀ k, i ≤ k → k < i + 1 → x k ≤ x i + cutoff := by
        intro k h1 h2
        have : k = i := by omega
        have := cutoff_pos (K := K)
        subst k
        linarith
      by_cases hlb : best < gain parentImp (L.S (sorted.take i) (sorted.drop i))
      · rw [if_pos hlb, if_pos hlb]
        refine ih _ _ _ _ _ _ _ _ (by omega) (by omega) hflat' (.inr ⟨by omega, by omega, ht1⟩)
          (.inr ⟨by omega, by omega, ht1'⟩) (.inr ⟨?_, i, lasti, hl, hi, not_le.1 hskip, hflat, ?_, ?_⟩)
        · rcases hb with h | h
          · rw [← h.1]; exact hlb
          · exact XF.lt_trans' h.1 hlb
        · rw [XF.fin_div _ (by norm_num)]
        · rw [XF.fin_div _ (by norm_num)]
      · rw [if_neg hlb, if_neg hlb]
        exact ih _ _ _ _ _ _ _ _ (by omega) (by omega) hflat' (.inr ⟨by omega, by omega, ht1⟩)
          (.inr ⟨by omega, by omega, ht1'⟩) hb

theorem cutoff_gap {f : NumFeature K} {cs : List Nat} (h : (Feature.num f).NoNearTies cs) {c d : Nat} (hc : c ∈ cs)
    (hd : d ∈ cs) : f.value d ≤ f.value c + cutoff ↔ f.value d ≤ f.value c := by
  constructor
  · intro h1
    by_contra h2
    exact absurd (h c hc d hd (not_le.1 h2)) (not_lt.2 h1)
  · intro h1
    have := cutoff_pos (K := K)
    linarith

include hE in
/-- The search of a numerical feature. -/
theorem bestNumSplit_twin (f f' : NumFeature K) {leafSize : Nat} (hls : 1 ≤ leafSize) (rs : Bool) {w w' : Work K}
    (hcs : ∀ c ∈ w.cases, c ∈ cases) (hfin : f.Finite w.cases) (hfin' : f'.Finite w.cases)
    (hties : f' = f ∨ ((Feature.num f).NoNearTies w.cases ∧ (Feature.num f').NoNearTies w.cases))
    (hord : ∀ c ∈ w.cases, ∀ d ∈ w.cases, (f.value c ≤ f.value d ↔ f'.value c ≤ f'.value d))
    (hw : TwinWork L L' w w') :
    ∃ r r' w1 w1', f.bestNumSplit T parentImp leafSize rs w = some (r, w1) ∧
      f'.bestNumSplit T' parentImp leafSize rs w' = some (r', w1') ∧ TwinWork L L' w1 w1' ∧
      TwinFound (.num f) (.num f') w.cases r r' := by
  have hlenw := hw.perm.length_eq
  have hfinw' : f'.Finite w'.cases := fun c hc => hfin' c (hw.perm.mem_iff.1 hc)
  have hno : ∀ (p : K), ¬ p < p := fun p => lt_irrefl p
  unfold NumFeature.bestNumSplit
  rw [hlenw]
  by_cases hn : 2 * leafSize ≤ w.cases.length
  swap
  · rw [if_neg hn, if_neg hn]
    exact ⟨_, _, _, _, rfl, rfl, hw, rfl, rfl, fun h => absurd h (XF.lt_irrefl' _), fun _ => rfl,
      fun _ _ _ _ _ _ _ h => absurd h (XF.lt_irrefl' _)⟩
  rw [if_pos hn, if_pos hn, load_eq f _ hfin, load_eq f' _ hfinw']
  obtain ⟨cs, vs, hsort, hperm, hvs, hpw⟩ := sorted_ok f w.cases
  obtain ⟨cs', vs', hsort', hperm', hvs', hpw'⟩ := sorted_ok f' w'.cases
  simp only [Option.bind_eq_bind, Option.bind_some, hsort, hsort']
  have hperm2 : cs'.Perm w.cases := hperm'.trans hw.perm
  have hlen : cs.length = w.cases.length := hperm.length_eq
  have hlen' : cs'.length = cs.length := hperm2.length_eq.trans hlen.symm
  have hmem : ∀ c ∈ cs, c ∈ w.cases := fun c hc => hperm.mem_iff.1 hc
  have hmem' : ∀ c ∈ cs', c ∈ w.cases := fun c hc => hperm2.mem_iff.1 hc
  have hpw2 : cs'.Pairwise (fun c d => f.value c ≤ f.value d) := by
    refine List.Pairwise.imp_of_mem ?_ hpw'
    intro c d hc hd h
    exact (hord c (hmem' c hc) d (hmem' d hd)).2 h
  have hmap : cs'.map f.value = cs.map f.value := by
    refine List.Perm.eq_of_pairwise (le := (· ≤ ·)) (fun a b _ _ h1 h2 => le_antisymm h1 h2) ?_ ?_
      ((hperm2.trans hperm.symm).map _)
    · rw [List.pairwise_map]; exact hpw2
    · rw [List.pairwise_map]; exact hpw
  have hval : ∀ k (hk : k < cs.length), f.value (cs'[k]'(by omega)) = f.value cs[k] := by
    intro k hk
    have := congrArg (fun l : List K => l[k]?) hmap
    simp only [List.getElem?_map, List.getElem?_eq_getElem hk, List.getElem?_eq_getElem (show k < cs'.length by omega),
      Option.map_some] at this
    exact Option.some.inj this
  let x : Nat → K := fun k => f.value (cs.getD k 0)
  let x' : Nat → K := fun k => f'.value (cs'.getD k 0)
  have hx : ∀ k (hk : k < cs.length), x k = f.value cs[k] := by
    intro k hk
    simp only [x]
    rw [List.getD_eq_getElem?_getD, List.getElem?_eq_getElem hk]; rfl
  have hx' : ∀ k (hk : k < cs.length), x' k = f'.value (cs'[k]'(by omega)) := by
    intro k hk
    simp only [x']
    rw [List.getD_eq_getElem?_getD, List.getElem?_eq_getElem (by omega)]; rfl
  have hv : ∀ k, k < cs.length → vs[k]? = some (.fin (x k)) := by
    intro k hk
    rw [hvs, List.getElem?_map, List.getElem?_eq_getElem hk, hx k hk]; rfl
  have hv' : ∀ k, k < cs.length → vs'[k]? = some (.fin (x' k)) := by
    intro k hk
    rw [hvs', List.getElem?_map, List.getElem?_eq_getElem (by omega), hx' k hk]; rfl
  have hle : ∀ i j, i < cs.length → j < cs.length → (x' i ≤ x' j ↔ x i ≤ x j) := by
    intro i j hi hj
    rw [hx' i hi, hx' j hj, hx i hi, hx j hj, ← hval i hi, ← hval j hj]
    exact (hord _ (hmem' _ (List.getElem_mem _)) _ (hmem' _ (List.getElem_mem _))).symm
  have hgap : ∀ i j, i < cs.length → j < cs.length → (x' i ≤ x' j + cutoff ↔ x i ≤ x j + cutoff) := by
    intro i j hi hj
    rcases hties with hff | ⟨hties, hties'⟩
    · rw [hx' i hi, hx' j hj, hx i hi, hx j hj, hff, hval i hi, hval j hj]
    · have h1 : x i ≤ x j + cutoff ↔ x i ≤ x j := by
        rw [hx i hi, hx j hj]
        exact cutoff_gap hties (hmem _ (List.getElem_mem _)) (hmem _ (List.getElem_mem _))
      have h2 : x' i ≤ x' j + cutoff ↔ x' i ≤ x' j := by
        rw [hx' i hi, hx' j hj]
        exact cutoff_gap hties' (hmem' _ (List.getElem_mem _)) (hmem' _ (List.getElem_mem _))
      rw [h1, h2, hle i j hi hj]
  have hmono : ∀ i j, i ≤ j → j < cs.length → x i ≤ x j := by
    intro i j hij hj
    rcases hij.eq_or_lt with rfl | hlt
    · exact le_refl _
    · rw [hx i (by omega), hx j hj]
      exact List.pairwise_iff_getElem.1 hpw i j (by omega) hj hlt
  -- a threshold between different values cuts both lists alike
  have hsplit : ∀ i, 0 < i → i < cs.length → x (i - 1) < x i →
      (∀ k, (hk : k < cs.length) → (decide (f.value cs[k] < x i) = decide (k < i))) := by
    intro i hi hin hlt k hk
    rw [← hx k hk]
    by_cases h : k < i
    · rw [decide_eq_true h, decide_eq_true]
      exact lt_of_le_of_lt (hmono k (i - 1) (by omega) (by omega)) hlt
    · rw [decide_eq_false h, decide_eq_false]
      exact not_lt.2 (hmono i k (by omega) hk)
  have hfil : ∀ (l : List Nat) (i : Nat), (hl : l.length = cs.length) → i < cs.length →
      (∀ k, (hk : k < cs.length) → decide (f.value (l[k]'(by omega)) < x i) = decide (k < i)) →
      l.filter (fun c => decide (f.value c < x i)) = l.take i ∧
        l.filter (fun c => !decide (f.value c < x i)) = l.drop i := by
    intro l i hl hin h
    refine filter_take_drop _ l i ?_ ?_
    · intro c hc
      obtain ⟨k, hk, rfl⟩ := List.mem_iff_getElem.1 hc
      rw [List.length_take] at hk
      rw [List.getElem_take, h k (by omega), decide_eq_true (by omega)]
    · intro c hc
      obtain ⟨k, hk, rfl⟩ := List.mem_iff_getElem.1 hc
      rw [List.length_drop] at hk
      rw [List.getElem_drop, h _ (by omega), decide_eq_false (by omega)]
  have hcut : ∀ i, 0 < i → i < cs.length → x (i - 1) < x i →
      (cs'.take i).Perm (cs.take i) ∧ (cs'.drop i).Perm (cs.drop i) := by
    intro i hi hin hlt
    have h1 := hfil cs i rfl hin (hsplit i hi hin hlt)
    have h2 := hfil cs' i hlen' hin (fun k hk => by rw [hval k hk]; exact hsplit i hi hin hlt k hk)
    rw [← h1.1, ← h1.2, ← h2.1, ← h2.2]
    exact ⟨(hperm2.trans hperm.symm).filter _, (hperm2.trans hperm.symm).filter _⟩
  rw [hv 0 (by omega), hv (w.cases.length - 1) (by omega), hv' 0 (by omega), hv' (w.cases.length - 1) (by omega)]
  simp only [Option.bind_some, XF.fin_add, XF.fin_le, hgap _ _ (show w.cases.length - 1 < cs.length by omega)
    (show 0 < cs.length by omega)]
  have hpp : cs'.Perm cs := hperm2.trans hperm.symm
  by_cases hc : x (w.cases.length - 1) ≤ x 0 + cutoff
  · rw [if_pos hc, if_pos hc]
    exact ⟨_, _, _, _, rfl, rfl, ⟨hpp, hw.ok, hw.ok', hw.rng⟩, rfl, rfl, fun h => absurd h (XF.lt_irrefl' _), fun _ => rfl,
      fun _ _ _ _ _ _ _ h => absurd h (XF.lt_irrefl' _)⟩
  rw [if_neg hc, if_neg hc, hw.rng]
  obtain ⟨first, stop, rng, he, hf1, hs1, -⟩ := scanRange_ok leafSize w.cases.length rs w.rng
  rw [he]
  simp only [Option.bind_some]
  rw [if_neg (by omega), if_neg (by omega)]
  obtain ⟨best, sf, sf', a1, a1', e1, e1', hok, hok', hb⟩ := numLoop_twin hE parentImp hlen'
    (fun c hc => hcs c (hmem c hc)) (fun c hc => hcs c (hmem' c hc)) hv hv' hgap hcut (stop := stop) (by omega)
    (stop - first) first (first - 1) 0 w.allocs w'.allocs minImp (.fin 0) (.fin 0) rfl (by omega)
    (by intro k h1 h2
        have : k = first - 1 := by omega
        have := cutoff_pos (K := K)
        subst k
        linarith)
    (.inl ⟨rfl, hw.ok⟩) (.inl ⟨rfl, hw.ok'⟩) (.inl ⟨rfl, rfl, rfl⟩)
  rw [e1, e1']
  refine ⟨_, _, _, _, rfl, rfl, ⟨hpp, hok, hok', rfl⟩, rfl, rfl, ?_, ?_, ?_⟩
  · intro hlt
    rcases hb with h | ⟨-, p, q, hqp, hps, hqx, hflat, rfl, rfl⟩
    · exact absurd hlt (by simp only [h.1]; exact XF.lt_irrefl' _)
    rcases hties with hff | ⟨hties, -⟩
    · subst hff
      have hxx : ∀ k, k < cs.length → x' k = x k := by
        intro k hk
        rw [hx' k hk, hx k hk]
        exact hval k hk
      refine ⟨_, _, fun c => decide (f'.value c ≤ (x q + x p) / 2), rfl, rfl, fun c hc => ?_⟩
      obtain ⟨v, hv⟩ := hfin c hc
      rw [codedLeft_num hv, codedLeft_num hv, hxx p (by omega), hxx q (by omega)]
      exact ⟨rfl, rfl⟩
    replace hflat : ∀ k, q ≤ k → k < p → x k ≤ x q := by
      intro k h1 h2
      have := hflat k h1 h2
      rw [hx k (by omega), hx q (by omega)] at this ⊢
      exact (cutoff_gap hties (hmem _ (List.getElem_mem _)) (hmem _ (List.getElem_mem _))).1 this
    replace hqx : x q < x p := by
      have := cutoff_pos (K := K)
      linarith
    have hlt' : x (p - 1) < x p := lt_of_le_of_lt (hflat (p - 1) (by omega) (by omega)) hqx
    have hk := hsplit p (by omega) (by omega) hlt'
    have hqx' : x' q < x' p := by
      rw [← not_le, hle p q (by omega) (by omega)]
      exact not_le.2 hqx
    refine ⟨_, _, fun c => decide (f.value c < x p), rfl, rfl, fun c hc => ⟨?_, ?_⟩⟩
    · obtain ⟨v, hv⟩ := hfin c hc
      rw [codedLeft_num hv]
      obtain ⟨k, hkl, rfl⟩ := List.mem_iff_getElem.1 (hperm.mem_iff.2 hc)
      beta_reduce
      rw [hk k hkl, ← hx k hkl]
      congr 1
      rw [decide_eq_decide]
      constructor
      · intro h
        by_contra h2
        have := hmono p k (by omega) hkl
        linarith
      · intro h
        have : x k ≤ x q := by
          by_cases h3 : q ≤ k
          · exact hflat k h3 h
          · exact hmono k q (by omega) (by omega)
        linarith
    · obtain ⟨v, hv⟩ := hfin' c hc
      rw [codedLeft_num hv]
      obtain ⟨k, hkl, rfl⟩ := List.mem_iff_getElem.1 (hperm2.mem_iff.2 hc)
      have hkl' : k < cs.length := by omega
      beta_reduce
      rw [hval k hkl', hk k hkl', ← hx' k hkl']
      congr 1
      rw [decide_eq_decide]
      constructor
      · intro h
        by_contra h2
        have := (hle p k (by omega) hkl').2 (hmono p k (by omega) hkl')
        linarith
      · intro h
        have : x' k ≤ x' q := by
          rw [hle k q hkl' (by omega)]
          by_cases h3 : q ≤ k
          · exact hflat k h3 h
          · exact hmono k q (by omega) (by omega)
        linarith
  · intro hff
    cases hff
    have hxx : ∀ k, k < cs.length → x' k = x k := by
      intro k hk
      rw [hx' k hk, hx k hk]
      exact hval k hk
    rcases hb with h | ⟨-, p, q, hqp, hps, -, -, rfl, rfl⟩
    · rw [h.2.1, h.2.2]
    · simp only [hxx p (by omega), hxx q (by omega)]
  · intro g g' a b hg hg' hab hlt
    cases hg
    cases hg'
    have hxx : ∀ k, k < cs.length → x' k = a * x k + b := by
      intro k hk
      rw [hx' k hk, hx k hk, ← hval k hk]
      exact hab _ (hmem' _ (List.getElem_mem _))
    rcases hb with h | ⟨-, p, q, hqp, hps, -, -, rfl, rfl⟩
    · exact absurd hlt (by simp only [h.1]; exact XF.lt_irrefl' _)
    · refine ⟨_, rfl, ?_⟩
      simp only [hxx p (by omega), hxx q (by omega)]
      rw [show (a * x q + b + (a * x p + b)) / 2 = a * ((x q + x p) / 2) + b by ring]

end
end CloudForest
