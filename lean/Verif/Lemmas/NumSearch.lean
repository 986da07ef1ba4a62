import Verif.Spec.Search
import Verif.Lemmas.Impurity
import Verif.Lemmas.XFOrder
import Verif.Props.SortBy

/-! # Lemmas about the numerical split search -/

set_option linter.unusedSectionVars false

namespace CloudForest
variable {K : Type} [Field K] [LinearOrder K] [IsStrictOrderedRing K]

theorem cutoff_pos : (0 : K) < cutoff := by unfold cutoff; positivity

/-- What holds of the running values of the scan before position `i`. -/
structure NumInv (T : Target K) (cases : List Nat) (L : TargetLaws T cases) (parentImp : XF K)
    (sorted : List Nat) (x : Nat → K) (lo stop i lasti lastsplit : Nat) (a : Allocs K)
    (best splitf : XF K) : Prop where
  lo_le : lo ≤ i
  lasti_ge : lo - 1 ≤ lasti
  lasti_lt : lasti < i
  flat : ∀ k, lasti ≤ k → k < i → x k ≤ x lasti + cutoff
  scratch : (lastsplit = 0 ∧ L.Ok a) ∨
    (0 < lastsplit ∧ lastsplit ≤ i ∧ L.Tracks a (sorted.take lastsplit) (sorted.drop lastsplit))
  finite : ∃ t, splitf = .fin t
  found : best = minImp ∨ (minImp < best ∧ ∃ p q, lo - 1 ≤ q ∧ q < p ∧ lo ≤ p ∧ p < stop ∧
    x q + cutoff < x p ∧ (∀ k, q ≤ k → k < p → x k ≤ x q + cutoff) ∧
    splitf = .fin ((x q + x p) / 2) ∧
    best = gain parentImp (L.S (sorted.take p) (sorted.drop p)))
  opt : ∀ p, lo ≤ p → p < i → x (p - 1) + cutoff < x p →
    ¬ best < gain parentImp (L.S (sorted.take p) (sorted.drop p))

theorem cutImpurity_ok {T : Target K} {cases : List Nat} (L : TargetLaws T cases)
    {sorted : List Nat} (hmem : ∀ c ∈ sorted, c ∈ cases) {a : Allocs K} {lastsplit i : Nat}
    (h : (lastsplit = 0 ∧ L.Ok a) ∨
      (0 < lastsplit ∧ lastsplit ≤ i ∧ L.Tracks a (sorted.take lastsplit) (sorted.drop lastsplit))) :
    ∃ a', cutImpurity T a sorted lastsplit i =
        some (L.S (sorted.take i) (sorted.drop i), a') ∧
      L.Tracks a' (sorted.take i) (sorted.drop i) := by
  unfold cutImpurity
  rcases h with ⟨h0, hok⟩ | ⟨hpos, hle, htr⟩
  · rw [if_pos h0]
    refine L.split a _ _ hok ?_
    rw [List.take_append_drop]; exact hmem
  · rw [if_neg hpos.ne']
    refine L.update a _ _ _ _ _ htr ?_ ?_ ?_
    · rw [List.take_append_drop]; exact hmem
    · have : (sorted.take i).take lastsplit = sorted.take lastsplit := by
        rw [List.take_take, Nat.min_eq_left hle]
      rw [← this, List.take_append_drop]
    · by_cases hlen : i ≤ sorted.length
      · have h2 : lastsplit ≤ (sorted.take i).length := by
          rw [List.length_take, Nat.min_eq_left hlen]; exact hle
        rw [← List.drop_append_of_le_length h2, List.take_append_drop]
      · rw [List.take_of_length_le (by omega), List.drop_of_length_le (l := sorted) (i := i) (by omega)]
        simp

theorem numLoop_ok {T : Target K} {cases : List Nat} (L : TargetLaws T cases) (parentImp : XF K)
    {sorted : List Nat} (hmem : ∀ c ∈ sorted, c ∈ cases) {vals : List (XF K)} {x : Nat → K}
    (hv : ∀ k, k < sorted.length → vals[k]? = some (.fin (x k)))
    (hmono : ∀ i j, i ≤ j → j < sorted.length → x i ≤ x j)
    {lo stop : Nat} (hstop : stop ≤ sorted.length) :
    ∀ d i lasti lastsplit a best splitf, stop - i = d →
      NumInv T cases L parentImp sorted x lo stop i lasti lastsplit a best splitf →
      ∃ best' splitf' a' i' lasti' lastsplit', stop ≤ i' ∧
        numLoop T parentImp sorted vals stop i lasti lastsplit a best splitf =
          some (best', splitf', a') ∧
        NumInv T cases L parentImp sorted x lo stop i' lasti' lastsplit' a' best' splitf' := by
  intro d
  induction d with
  | zero =>
    intro i lasti lastsplit a best splitf hd inv
    refine ⟨best, splitf, a, i, lasti, lastsplit, by omega, ?_, inv⟩
    rw [numLoop, if_neg (by omega)]
  | succ d ih =>
    intro i lasti lastsplit a best splitf hd inv
    have hi : i < stop := by omega
    have hin : i < sorted.length := by omega
    have hl : lasti < sorted.length := lt_trans inv.lasti_lt hin
    rw [numLoop, if_pos hi, hv i hin, hv lasti hl]
    simp only [Option.bind_eq_bind, Option.bind_some, XF.fin_add, XF.fin_le]
    by_cases hskip : x i ≤ x lasti + cutoff
    · rw [if_pos hskip]
      refine ih (i + 1) lasti lastsplit a best splitf (by omega) ?_
      exact {
        lo_le := by have := inv.lo_le; omega
        lasti_ge := inv.lasti_ge
        lasti_lt := by have := inv.lasti_lt; omega
        flat := by
          intro k h1 h2
          by_cases hk : k = i
          · rw [hk]; exact hskip
          · exact inv.flat k h1 (by omega)
        scratch := by
          rcases inv.scratch with h | ⟨h1, h2, h3⟩
          · exact .inl h
          · exact .inr ⟨h1, by omega, h3⟩
        finite := inv.finite
        found := inv.found
        opt := by
          intro p hp1 hp2 hp3
          by_cases hk : p = i
          · subst hk
            exfalso
            have := inv.lo_le
            have := inv.lasti_lt
            exact absurd hskip (not_le.2 (lt_of_le_of_lt (by
              have hm : x lasti ≤ x (p - 1) := hmono lasti (p - 1) (by omega) (by omega)
              linarith) hp3))
          · exact inv.opt p hp1 (by omega) hp3 }
    · rw [if_neg hskip]
      have hskip' : x lasti + cutoff < x i := not_le.1 hskip
      obtain ⟨a', hcut, htr⟩ := cutImpurity_ok L hmem inv.scratch
      rw [hcut]
      simp only [Option.bind_some]
      have hi0 : 0 < i := by have := inv.lasti_lt; omega
      have hflat : ∀ k, i ≤ k → k < i + 1 → x k ≤ x i + cutoff := by
        intro k h1 h2
        have : k = i := by omega
        rw [this]; have := cutoff_pos (K := K); linarith
      by_cases hb : best < gain parentImp (L.S (sorted.take i) (sorted.drop i))
      · rw [if_pos hb]
        refine ih (i + 1) i i a' _ _ (by omega) ?_
        exact {
          lo_le := by have := inv.lo_le; omega
          lasti_ge := by have := inv.lo_le; omega
          lasti_lt := by omega
          flat := hflat
          scratch := .inr ⟨hi0, by omega, htr⟩
          finite := ⟨_, by rw [XF.fin_div _ (by norm_num)]⟩
          found := by
            right
            refine ⟨?_, i, lasti, inv.lasti_ge, inv.lasti_lt, inv.lo_le, hi, hskip',
              fun k h1 h2 => inv.flat k h1 h2, ?_, rfl⟩
            · rcases inv.found with h | ⟨h, -⟩
              · rw [← h]; exact hb
              · exact XF.lt_trans' h hb
            · rw [XF.fin_div _ (by norm_num)]
          opt := by
            intro p hp1 hp2 hp3
            by_cases hk : p = i
            · subst hk; exact XF.lt_irrefl' _
            · intro hlt
              exact inv.opt p hp1 (by omega) hp3 (XF.lt_trans' hb hlt) }
      · rw [if_neg hb]
        refine ih (i + 1) i i a' _ _ (by omega) ?_
        exact {
          lo_le := by have := inv.lo_le; omega
          lasti_ge := by have := inv.lo_le; omega
          lasti_lt := by omega
          flat := hflat
          scratch := .inr ⟨hi0, by omega, htr⟩
          finite := inv.finite
          found := inv.found
          opt := by
            intro p hp1 hp2 hp3
            by_cases hk : p = i
            · subst hk; exact hb
            · exact inv.opt p hp1 (by omega) hp3 }

/-! ## Sorted cases and thresholds -/

theorem load_eq (f : NumFeature K) (cases : List Nat) (h : f.Finite cases) :
    f.load cases = some (cases.map fun c => .fin (f.value c)) := by
  unfold NumFeature.load
  induction cases with
  | nil => rfl
  | cons c cs ih =>
    obtain ⟨v, hx⟩ := h c (by simp)
    have hv : f.value c = v := by unfold NumFeature.value; rw [hx]
    rw [List.mapM_cons, hx, ih fun c hc => h c (by simp [hc])]
    simp [hv]

/-- The sorted cases: a rearrangement with ascending values. -/
theorem sorted_ok (f : NumFeature K) (cases : List Nat) :
    ∃ cs vs, SortBy.sortBy ⟨cases, cases.map fun c => XF.fin (f.value c)⟩ = some ⟨cs, vs⟩ ∧
      cs.Perm cases ∧ vs = cs.map (fun c => XF.fin (f.value c)) ∧
      cs.Pairwise (fun c d => f.value c ≤ f.value d) := by
  obtain ⟨cs, vs, h, hl1, hl2, hp, -, hs⟩ :=
    c05_sortBy cases (cases.map fun c => XF.fin (f.value c)) (by simp)
  refine ⟨cs, vs, h, ?_⟩
  have hlen : cs.length = vs.length := by rw [hl1, hl2]; simp
  have hpc : cs.Perm cases := by
    have := hp.map Prod.fst
    rwa [List.map_fst_zip (by omega), List.map_fst_zip (by simp)] at this
  have hvs : vs = cs.map fun c => XF.fin (f.value c) := by
    apply List.ext_getElem
    · simp [hlen]
    intro k h1 h2
    have hk : k < (cs.zip vs).length := by simp; omega
    have hmem : (cs[k]'(by omega), vs[k]) ∈ cases.zip (cases.map fun c => XF.fin (f.value c)) := by
      rw [← hp.mem_iff]
      have := List.getElem_mem hk
      rwa [List.getElem_zip] at this
    rw [List.zip_map_right, List.mem_map] at hmem
    obtain ⟨⟨u, v⟩, hm, he⟩ := hmem
    have huv : u = v := by
      obtain ⟨j, hj, hz⟩ := List.mem_iff_getElem.1 hm
      rw [List.getElem_zip] at hz
      cases hz; rfl
    subst huv
    simp only [Prod.map_apply, id_eq, Prod.mk.injEq] at he
    rw [List.getElem_map, ← he.2, he.1]
  refine ⟨hpc, hvs, ?_⟩
  have := hs (by
    intro v hv
    have := List.mem_of_mem_take hv
    simp only [List.mem_map] at this
    obtain ⟨c, -, rfl⟩ := this
    simp)
  rw [List.take_of_length_le (by omega), hvs, List.pairwise_map] at this
  exact this.imp fun h => h

theorem codedLeft_num {f : NumFeature K} {c : Nat} {v : K} (h : f.numData[c]? = some (.fin v))
    (t : K) : (Feature.num f).codedLeft (.num (.fin t)) c = some (decide (f.value c ≤ t)) := by
  have : f.value c = v := by unfold NumFeature.value; rw [h]
  simp only [Feature.codedLeft, h, this]
  simp

theorem lefts_num {f : NumFeature K} {cs : List Nat} (h : f.Finite cs) (t : K) :
    (Feature.num f).lefts (.num (.fin t)) cs = cs.filter fun c => decide (f.value c ≤ t) := by
  apply List.filter_congr
  intro c hc
  obtain ⟨v, hv⟩ := h c hc
  rw [codedLeft_num hv]
  cases decide (f.value c ≤ t) <;> rfl

theorem rights_num {f : NumFeature K} {cs : List Nat} (h : f.Finite cs) (t : K) :
    (Feature.num f).rights (.num (.fin t)) cs = cs.filter fun c => !decide (f.value c ≤ t) := by
  apply List.filter_congr
  intro c hc
  obtain ⟨v, hv⟩ := h c hc
  rw [codedLeft_num hv]
  cases decide (f.value c ≤ t) <;> rfl

/-- Cutting an ascending list by a threshold is cutting it at a position. -/
theorem filter_take_drop {α : Type} (p : α → Bool) (l : List α) (k : Nat)
    (h1 : ∀ a ∈ l.take k, p a = true) (h2 : ∀ a ∈ l.drop k, p a = false) :
    l.filter p = l.take k ∧ l.filter (fun a => !p a) = l.drop k := by
  constructor
  · conv_lhs => rw [← List.take_append_drop k l]
    rw [List.filter_append, List.filter_eq_self.2 h1, List.filter_eq_nil_iff.2, List.append_nil]
    intro a ha; simp [h2 a ha]
  · conv_lhs => rw [← List.take_append_drop k l]
    rw [List.filter_append, List.filter_eq_nil_iff.2, List.filter_eq_self.2, List.nil_append]
    · intro a ha; simp [h2 a ha]
    · intro a ha; simp [h1 a ha]

theorem filter_sorted {α : Type} (p : α → Bool) (l : List α)
    (h : l.Pairwise fun a b => p b = true → p a = true) :
    l.filter p = l.take (l.filter p).length ∧
      l.filter (fun a => !p a) = l.drop (l.filter p).length := by
  induction l with
  | nil => simp
  | cons a l ih =>
    obtain ⟨h1, h2⟩ := List.pairwise_cons.1 h
    obtain ⟨e1, e2⟩ := ih h2
    cases hp : p a with
    | true =>
      simp only [List.filter_cons_of_pos hp, List.length_cons, List.take_succ_cons,
        List.drop_succ_cons, ← e1, true_and]
      rw [List.filter_cons_of_neg (by simp [hp]), e2]
    | false =>
      have hall : ∀ b ∈ l, p b = false := by
        intro b hb
        by_contra hc
        have := h1 b hb (by simpa using hc)
        simp [hp] at this
      have : l.filter p = [] := List.filter_eq_nil_iff.2 fun b hb => by simp [hall b hb]
      rw [List.filter_cons_of_neg (by simp [hp]), this]
      refine ⟨by simp, ?_⟩
      simp only [List.length_nil, List.drop_zero]
      rw [List.filter_eq_self]
      intro b hb
      rcases List.mem_cons.1 hb with rfl | hb
      · simp [hp]
      · simp [hall b hb]

theorem scanRange_ok (leafSize n : Nat) (randomSplit : Bool) (rng : Rng) :
    ∃ first stop rng', scanRange leafSize (n - leafSize) randomSplit rng =
        some (first, stop, rng') ∧
      leafSize ≤ first ∧ stop ≤ n - leafSize ∧
      (randomSplit = false → first = leafSize ∧ stop = n - leafSize) := by
  unfold scanRange
  by_cases hr : randomSplit = true ∧ leafSize < n - leafSize
  · rw [if_pos hr]
    unfold Rng.intn
    rw [if_neg (by omega)]
    refine ⟨_, _, _, rfl, by omega, ?_, fun h => absurd hr.1 (by simp [h])⟩
    have := Nat.mod_lt (rng 0) (y := n - leafSize - leafSize) (by omega)
    omega
  · rw [if_neg hr]
    exact ⟨_, _, _, rfl, le_refl _, le_refl _, fun _ => ⟨rfl, rfl⟩⟩

/-- What is true of the result of the numerical search. -/
structure NumFound (f : NumFeature K) (T : Target K) (cases : List Nat) (L : TargetLaws T cases)
    (parentImp : XF K) (leafSize : Nat) (randomSplit : Bool) (w : Work K) (r : Found K)
    (w' : Work K) : Prop where
  perm : w'.cases.Perm w.cases
  ok : L.Ok w'.allocs
  code : ∀ code, r.code = some code → ∃ t, code = .num (.fin t)
  found : r.imp = minImp ∨ (minImp < r.imp ∧ ∃ t, r.code = some (.num (.fin t)) ∧
    leafSize ≤ ((Feature.num f).lefts (.num (.fin t)) w.cases).length ∧
    leafSize < ((Feature.num f).rights (.num (.fin t)) w.cases).length ∧
    ((∀ c ∈ w.cases, ∀ d ∈ w.cases, f.value c < f.value d → f.value c + cutoff < f.value d) →
      r.imp = gain parentImp (L.S ((Feature.num f).lefts (.num (.fin t)) w.cases)
        ((Feature.num f).rights (.num (.fin t)) w.cases))))
  opt : randomSplit = false → ∀ t : K,
    leafSize ≤ ((Feature.num f).lefts (.num (.fin t)) w.cases).length →
    leafSize < ((Feature.num f).rights (.num (.fin t)) w.cases).length →
    (∀ c ∈ (Feature.num f).lefts (.num (.fin t)) w.cases,
      ∀ d ∈ (Feature.num f).rights (.num (.fin t)) w.cases, f.value c + cutoff < f.value d) →
    ¬ r.imp < gain parentImp (L.S ((Feature.num f).lefts (.num (.fin t)) w.cases)
        ((Feature.num f).rights (.num (.fin t)) w.cases))
  constant : r.constant = true → r.imp = minImp ∧
    ∀ c ∈ w.cases, ∀ d ∈ w.cases, f.value c ≤ f.value d + cutoff
  flat : (∀ c ∈ w.cases, ∀ d ∈ w.cases, f.value c ≤ f.value d + cutoff) → r.imp = minImp

theorem bestNumSplit_ok (f : NumFeature K) {T : Target K} {cases : List Nat}
    (L : TargetLaws T cases) (hfin : f.Finite cases) (parentImp : XF K) {leafSize : Nat}
    (hls : 1 ≤ leafSize) (randomSplit : Bool) (w : Work K) (hcs : ∀ c ∈ w.cases, c ∈ cases)
    (hok : L.Ok w.allocs) :
    ∃ r w', f.bestNumSplit T parentImp leafSize randomSplit w = some (r, w') ∧
      NumFound f T cases L parentImp leafSize randomSplit w r w' := by
  have hfin' : f.Finite w.cases := fun c hc => hfin c (hcs c hc)
  unfold NumFeature.bestNumSplit
  by_cases hn : 2 * leafSize ≤ w.cases.length
  swap
  · rw [if_neg hn]
    refine ⟨_, _, rfl, List.Perm.refl _, hok, ?_, .inl rfl, ?_, ?_, ?_⟩
    · intro code h; cases h; exact ⟨0, rfl⟩
    · intro _ t h1 h2 _
      exfalso
      rw [lefts_num hfin'] at h1
      rw [rights_num hfin'] at h2
      have := List.length_eq_length_filter_add (l := w.cases) fun c => decide (f.value c ≤ t)
      omega
    · intro h; cases h
    · intro _; rfl
  rw [if_pos hn, load_eq f _ hfin']
  obtain ⟨cs, vs, hsort, hperm, hvs, hpw⟩ := sorted_ok f w.cases
  simp only [Option.bind_eq_bind, Option.bind_some, hsort]
  have hlen : cs.length = w.cases.length := hperm.length_eq
  let x : Nat → K := fun k => f.value (cs.getD k 0)
  have hx : ∀ k (hk : k < cs.length), x k = f.value cs[k] := by
    intro k hk
    simp only [x]
    rw [List.getD_eq_getElem?_getD, List.getElem?_eq_getElem hk]; rfl
  have hv : ∀ k, k < cs.length → vs[k]? = some (.fin (x k)) := by
    intro k hk
    rw [hvs, List.getElem?_map, List.getElem?_eq_getElem hk, hx k hk]; rfl
  have hmono : ∀ i j, i ≤ j → j < cs.length → x i ≤ x j := by
    intro i j hij hj
    rcases hij.eq_or_lt with rfl | hlt
    · exact le_refl _
    · rw [hx i (by omega), hx j hj]
      exact List.pairwise_iff_getElem.1 hpw i j (by omega) hj hlt
  have hmem : ∀ c ∈ cs, c ∈ cases := fun c hc => hcs c (hperm.mem_iff.1 hc)
  have hbound : ∀ c ∈ w.cases, x 0 ≤ f.value c ∧ f.value c ≤ x (w.cases.length - 1) := by
    intro c hc
    obtain ⟨k, hk, rfl⟩ := List.mem_iff_getElem.1 (hperm.mem_iff.2 hc)
    rw [← hx k hk]
    exact ⟨hmono 0 k (by omega) hk, hmono k _ (by omega) (by omega)⟩
  have hfl : ∀ t : K, ((Feature.num f).lefts (.num (.fin t)) w.cases).Perm
      (cs.filter fun c => decide (f.value c ≤ t)) := fun t => by
    rw [lefts_num hfin']; exact (hperm.filter _).symm
  have hfr : ∀ t : K, ((Feature.num f).rights (.num (.fin t)) w.cases).Perm
      (cs.filter fun c => !decide (f.value c ≤ t)) := fun t => by
    rw [rights_num hfin']; exact (hperm.filter _).symm
  rw [hv 0 (by omega), hv (w.cases.length - 1) (by omega)]
  simp only [Option.bind_some, XF.fin_add, XF.fin_le]
  by_cases hc : x (w.cases.length - 1) ≤ x 0 + cutoff
  · rw [if_pos hc]
    have hconst : ∀ c ∈ w.cases, ∀ d ∈ w.cases, f.value c ≤ f.value d + cutoff := by
      intro c hc' d hd
      have := (hbound c hc').2
      have := (hbound d hd).1
      linarith
    refine ⟨_, _, rfl, hperm, hok, ?_, .inl rfl, ?_, fun _ => ⟨rfl, hconst⟩, fun _ => rfl⟩
    · intro code h; cases h
    · intro _ t h1 h2 h3
      exfalso
      obtain ⟨c, hcl⟩ := List.exists_mem_of_length_pos (lt_of_lt_of_le (by omega) h1)
      obtain ⟨d, hdr⟩ := List.exists_mem_of_length_pos (lt_of_le_of_lt (Nat.zero_le _) h2)
      have := h3 c hcl d hdr
      have := hconst d (List.mem_of_mem_filter hdr) c (List.mem_of_mem_filter hcl)
      linarith
  · rw [if_neg hc]
    obtain ⟨first, stop, rng, he, hf1, hs1, hnr⟩ :=
      scanRange_ok leafSize w.cases.length randomSplit w.rng
    rw [he]
    simp only [Option.bind_some]
    rw [if_neg (by omega)]
    obtain ⟨best, splitf, a', i', lasti', ls', hi', hloop, inv⟩ :=
      numLoop_ok L parentImp hmem hv hmono (lo := first) (stop := stop) (by omega)
        (stop - first) first (first - 1) 0 w.allocs minImp (.fin 0) rfl
        { lo_le := le_refl _
          lasti_ge := le_refl _
          lasti_lt := by omega
          flat := by
            intro k h1 h2
            have : k = first - 1 := by omega
            rw [this]; have := cutoff_pos (K := K); linarith
          scratch := .inl ⟨rfl, hok⟩
          finite := ⟨0, rfl⟩
          found := .inl rfl
          opt := by intro p h1 h2; omega }
    rw [hloop]
    simp only [Option.bind_some]
    have hok' : L.Ok a' := by
      rcases inv.scratch with ⟨_, h⟩ | ⟨_, _, h⟩
      · exact h
      · exact L.tracks_ok _ _ _ h
    refine ⟨_, _, rfl, hperm, hok', ?_, ?_, ?_, (fun h => by cases h), fun hflat => absurd ?_ hc⟩
    rotate_left 3
    · have h1 := hflat _ (hperm.mem_iff.1 (List.getElem_mem (by omega : w.cases.length - 1 < cs.length)))
        _ (hperm.mem_iff.1 (List.getElem_mem (by omega : 0 < cs.length)))
      rwa [← hx _ (by omega), ← hx _ (by omega)] at h1
    · intro code h
      obtain ⟨t, rfl⟩ := inv.finite
      cases h; exact ⟨t, rfl⟩
    · rcases inv.found with h | ⟨hlt, p, q, hq1, hqp, hp1, hp2, hgap, hflat, hsf, hbest⟩
      · exact .inl h
      right
      refine ⟨hlt, (x q + x p) / 2, by rw [hsf], ?_, ?_, ?_⟩
      · rw [(hfl _).length_eq]
        have hsub : (cs.take (q + 1)).Sublist (cs.filter fun c => decide (f.value c ≤ (x q + x p) / 2)) := by
          have : (cs.take (q + 1)).filter (fun c => decide (f.value c ≤ (x q + x p) / 2)) =
              cs.take (q + 1) := by
            rw [List.filter_eq_self]
            intro c hc
            obtain ⟨k, hk, rfl⟩ := List.mem_iff_getElem.1 hc
            rw [List.length_take] at hk
            rw [List.getElem_take, ← hx k (by omega), decide_eq_true_iff]
            have h1 := hmono k q (by omega) (by omega)
            have := cutoff_pos (K := K)
            linarith
          rw [← this]
          exact (List.take_sublist _ _).filter _
        have := hsub.length_le
        rw [List.length_take] at this
        omega
      · rw [(hfr _).length_eq]
        have hsub : (cs.drop p).Sublist (cs.filter fun c => !decide (f.value c ≤ (x q + x p) / 2)) := by
          have : (cs.drop p).filter (fun c => !decide (f.value c ≤ (x q + x p) / 2)) =
              cs.drop p := by
            rw [List.filter_eq_self]
            intro c hc
            obtain ⟨k, hk, rfl⟩ := List.mem_iff_getElem.1 hc
            rw [List.length_drop] at hk
            rw [List.getElem_drop, ← hx _ (by omega), Bool.not_eq_true', decide_eq_false_iff_not,
              not_le]
            have h1 := hmono p (p + k) (by omega) (by omega)
            have := cutoff_pos (K := K)
            linarith
          rw [← this]
          exact (List.drop_sublist _ _).filter _
        have := hsub.length_le
        rw [List.length_drop] at this
        omega
      · intro hnt
        have hcut := filter_take_drop (fun c => decide (f.value c ≤ (x q + x p) / 2)) cs p (by
          intro c hc
          obtain ⟨k, hk, rfl⟩ := List.mem_iff_getElem.1 hc
          rw [List.length_take] at hk
          rw [List.getElem_take, ← hx k (by omega), decide_eq_true_iff]
          have h0 := cutoff_pos (K := K)
          by_cases hkq : k ≤ q
          · have h1 := hmono k q (by omega) (by omega)
            linarith
          · have h1 := hflat k (by omega) (by omega)
            have h2 : ¬ x q < x k := by
              intro hlt'
              rw [hx q (by omega), hx k (by omega)] at hlt'
              have := hnt _ (hperm.mem_iff.1 (List.getElem_mem _)) _
                (hperm.mem_iff.1 (List.getElem_mem _)) hlt'
              rw [← hx q (by omega), ← hx k (by omega)] at this
              linarith
            linarith) (by
          intro c hc
          obtain ⟨k, hk, rfl⟩ := List.mem_iff_getElem.1 hc
          rw [List.length_drop] at hk
          rw [List.getElem_drop, ← hx _ (by omega), decide_eq_false_iff_not, not_le]
          have h1 := hmono p (p + k) (by omega) (by omega)
          have := cutoff_pos (K := K)
          linarith)
        show best = _
        rw [hbest]
        congr 1
        refine L.S_perm _ _ _ _ ?_ ?_
        · rw [← hcut.1]; exact (hfl _).symm
        · rw [← hcut.2]; exact (hfr _).symm
    · intro hrs t h1 h2 h3
      obtain ⟨rfl, rfl⟩ := hnr hrs
      have hs := filter_sorted (fun c => decide (f.value c ≤ t)) cs (hpw.imp fun {c d} hcd h => by
        rw [decide_eq_true_iff] at h ⊢; exact le_trans hcd h)
      rw [(hfl t).length_eq] at h1
      have hrl := (hfr t).length_eq
      rw [hrl] at h2
      obtain ⟨p, hp⟩ : ∃ p, p = (cs.filter fun c => decide (f.value c ≤ t)).length := ⟨_, rfl⟩
      rw [← hp] at hs h1
      have hpn : cs.length - p > first := by
        have := congrArg List.length hs.2
        rw [List.length_drop] at this
        omega
      have hpl : p < cs.length := by omega
      have hleft : cs[p - 1] ∈ (Feature.num f).lefts (.num (.fin t)) w.cases := by
        rw [(hfl t).mem_iff, hs.1]
        exact List.mem_take_iff_getElem.2 ⟨p - 1, by omega, rfl⟩
      have hright : cs[p] ∈ (Feature.num f).rights (.num (.fin t)) w.cases := by
        rw [(hfr t).mem_iff, hs.2]
        exact List.mem_drop_iff_getElem.2 ⟨0, by omega, by simp⟩
      have hg := h3 _ hleft _ hright
      rw [← hx _ (by omega), ← hx _ (by omega)] at hg
      have := inv.opt p h1 (by omega) hg
      have hl := hfl t
      have hr := hfr t
      rw [hs.1] at hl
      rw [hs.2] at hr
      rwa [L.S_perm _ _ _ _ hl hr]

end CloudForest
