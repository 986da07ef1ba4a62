import Verif.Spec.Greedy
import Verif.Props.Search
import Verif.Lemmas.Splitter3
import Mathlib.Tactic.FieldSimp
import Mathlib.Tactic.Linarith

/-! # Lemmas about greedily optimal trees -/

set_option linter.unusedSectionVars false

namespace CloudForest
variable {K : Type} [Field K] [LinearOrder K] [IsStrictOrderedRing K] {τ : Type}

section
variable {T : Target K} {cases : List Nat} {L : TargetLaws T cases} {imp : List Nat → K}

/-! ## Order does not matter -/

theorem TargetLaws.Weighted.imp_perm (hw : L.Weighted imp) {l l' : List Nat} (hp : l.Perm l')
    (hc : ∀ c ∈ l, c ∈ cases) : imp l = imp l' := by
  by_cases h : l = []
  · subst h
    rw [hp.nil_eq]
  · have h1 := hw.finite l h hc
    have h2 := hw.finite l' (fun h' => h (by subst h'; exact hp.eq_nil)) fun c hc' => hc c (hp.mem_iff.2 hc')
    rw [L.I_perm l l' hp, h2] at h1
    exact (XF.fin.inj h1).symm

theorem Feature.knowns_perm (F : Feature K) {cs cs' : List Nat} (hp : cs.Perm cs') :
    (F.knowns cs).Perm (F.knowns cs') := hp.filter _

theorem Feature.missings_perm (F : Feature K) {cs cs' : List Nat} (hp : cs.Perm cs') :
    (F.missings cs).Perm (F.missings cs') := hp.filter _

theorem Feature.toLeft_perm (F : Feature K) (p : Nat → Bool) {cs cs' : List Nat} (hp : cs.Perm cs') :
    (F.toLeft p cs).Perm (F.toLeft p cs') := (F.knowns_perm hp).filter _

theorem Feature.toRight_perm (F : Feature K) (p : Nat → Bool) {cs cs' : List Nat} (hp : cs.Perm cs') :
    (F.toRight p cs).Perm (F.toRight p cs') := (F.knowns_perm hp).filter _

theorem Feature.mem_knowns {F : Feature K} {cs : List Nat} {c : Nat} (h : c ∈ F.knowns cs) : c ∈ cs :=
  List.mem_of_mem_filter h

theorem Feature.mem_missings {F : Feature K} {cs : List Nat} {c : Nat} (h : c ∈ F.missings cs) : c ∈ cs :=
  List.mem_of_mem_filter h

theorem Feature.mem_toLeft {F : Feature K} {p : Nat → Bool} {cs : List Nat} {c : Nat} (h : c ∈ F.toLeft p cs) :
    c ∈ cs := F.mem_knowns (List.mem_of_mem_filter h)

theorem Feature.mem_toRight {F : Feature K} {p : Nat → Bool} {cs : List Nat} {c : Nat} (h : c ∈ F.toRight p cs) :
    c ∈ cs := F.mem_knowns (List.mem_of_mem_filter h)

theorem gain3_perm (hw : L.Weighted imp) (F : Feature K) (p : Nat → Bool) {cs cs' : List Nat} (hp : cs.Perm cs')
    (hc : ∀ c ∈ cs, c ∈ cases) : F.gain3 imp p cs = F.gain3 imp p cs' := by
  unfold Feature.gain3
  rw [hw.imp_perm hp hc, hw.imp_perm (F.toLeft_perm p hp) fun c h => hc c (F.mem_toLeft h),
    hw.imp_perm (F.toRight_perm p hp) fun c h => hc c (F.mem_toRight h),
    hw.imp_perm (F.missings_perm hp) fun c h => hc c (F.mem_missings h), hp.length_eq, (F.toLeft_perm p hp).length_eq,
    (F.toRight_perm p hp).length_eq, (F.missings_perm hp).length_eq]

theorem knownGain_perm (hw : L.Weighted imp) (F : Feature K) (p : Nat → Bool) {cs cs' : List Nat} (hp : cs.Perm cs')
    (hc : ∀ c ∈ cs, c ∈ cases) : F.knownGain imp p cs = F.knownGain imp p cs' := by
  unfold Feature.knownGain
  rw [hw.imp_perm (F.knowns_perm hp) fun c h => hc c (F.mem_knowns h),
    hw.imp_perm (F.toLeft_perm p hp) fun c h => hc c (F.mem_toLeft h),
    hw.imp_perm (F.toRight_perm p hp) fun c h => hc c (F.mem_toRight h), (F.knowns_perm hp).length_eq,
    (F.toLeft_perm p hp).length_eq, (F.toRight_perm p hp).length_eq]

theorem room_perm (F : Feature K) (leafSize : Nat) (p : Nat → Bool) {cs cs' : List Nat} (hp : cs.Perm cs')
    (h : F.Room leafSize p cs) : F.Room leafSize p cs' := by
  unfold Feature.Room at h ⊢
  rwa [← (F.toLeft_perm p hp).length_eq, ← (F.toRight_perm p hp).length_eq]

theorem offers_perm (hw : L.Weighted imp) {F : Feature K} {leafSize : Nat} {p : Nat → Bool} {cs cs' : List Nat}
    (h : F.Offers imp leafSize p cs) (hp : cs.Perm cs') (hc : ∀ c ∈ cs, c ∈ cases) : F.Offers imp leafSize p cs' :=
  ⟨h.divides, room_perm F leafSize p hp h.room, by rw [← knownGain_perm hw F p hp hc]; exact h.gain⟩

theorem greedy_perm (hw : L.Weighted imp) {fm : FeatureMatrix K} {cans : List Nat} {leafSize : Nat} {maxDepth : Int}
    (n : Node K) : ∀ (cs cs' : List Nat) (d : Nat), cs.Perm cs' → (∀ c ∈ cs, c ∈ cases) →
      Greedy fm cans imp leafSize maxDepth n cs d → Greedy fm cans imp leafSize maxDepth n cs' d := by
  induction n with
  | nil => intro cs cs' d _ _ h; exact h
  | mk coded fi l r m pred spl ihl ihr ihm =>
    intro cs cs' d hp hc h
    have hc' : ∀ c ∈ cs', c ∈ cases := fun c h => hc c (hp.mem_iff.2 h)
    cases coded with
    | none =>
      rw [Greedy] at h ⊢
      rcases h with h | h
      · exact .inl h
      · refine .inr fun i hi F hF p ho => ?_
        rw [gain3_perm hw F p hp.symm hc']
        exact h i hi F hF p (offers_perm hw ho hp.symm hc')
    | some code =>
      rw [Greedy] at h ⊢
      obtain ⟨h1, F, p, h2, h3, h4, h5, h6, h7, h8, h9⟩ := h
      refine ⟨h1, F, p, h2, fun c hcm => h3 c ((F.knowns_perm hp).mem_iff.2 hcm), offers_perm hw h4 hp hc, ?_, ?_,
        ihl _ _ _ (F.toLeft_perm p hp) (fun c h => hc c (F.mem_toLeft h)) h7,
        ihr _ _ _ (F.toRight_perm p hp) (fun c h => hc c (F.mem_toRight h)) h8,
        h9.imp id (ihm _ _ _ (F.missings_perm hp) (fun c h => hc c (F.mem_missings h)))⟩
      · rw [← gain3_perm hw F p hp hc]; exact h5
      · intro i hi F' hF' q ho
        rw [gain3_perm hw F' q hp.symm hc', gain3_perm hw F p hp.symm hc']
        exact h6 i hi F' hF' q (offers_perm hw ho hp.symm hc')

/-! ## One feature -/

theorem filter_lengths (l : List Nat) (p : Nat → Bool) :
    l.length = (l.filter p).length + (l.filter fun c => !p c).length := by
  have := List.length_eq_length_filter_add (l := l) p
  simpa using this

/-- The decrease of a weighted target, as a number. -/
theorem decrease_weighted (hw : L.Weighted imp) {ks : List Nat} (hk : ks ≠ []) (hc : ∀ c ∈ ks, c ∈ cases) (p : Nat → Bool)
    (hl : ks.filter p ≠ []) (hr : (ks.filter fun c => !p c) ≠ []) :
    decrease (.fin (imp ks)) (L.S (ks.filter p) (ks.filter fun c => !p c)) =
      .fin (imp ks - ((ks.filter p).length * imp (ks.filter p) + (ks.filter fun c => !p c).length *
        imp (ks.filter fun c => !p c)) / ks.length) := by
  have hm : ∀ c ∈ ks.filter p ++ ks.filter (fun c => !p c), c ∈ cases := by
    intro c h
    rcases List.mem_append.1 h with h | h <;> exact hc c (List.mem_of_mem_filter h)
  rw [hw.mean _ _ hl hr hm]
  unfold decrease
  rw [if_neg, XF.fin_sub, filter_lengths ks p]
  · push_cast
    rfl
  · intro h
    exact absurd (hw.nonneg ks hk hc) (not_le.2 h)

/-- `Feature.Room` on known cases. -/
def Feature.RoomIn (F : Feature K) (leafSize : Nat) (p : Nat → Bool) (ks : List Nat) : Prop :=
  leafSize ≤ (ks.filter p).length ∧
  match F with
  | .num _ => leafSize < (ks.filter fun c => !p c).length
  | .cat _ => leafSize ≤ (ks.filter fun c => !p c).length

/-- The value a search reports is that of the start or larger. -/
theorem bestCatSplit_imp (L : TargetLaws T cases) (parentImp : XF K) (f : CatFeature) (leafSize maxEx : Nat) (w : Work K)
    (hv : f.HasVals w.cases) (hcs : ∀ c ∈ w.cases, c ∈ cases) (hok : L.Ok w.allocs) {r : Found K} {w' : Work K}
    (he : f.bestCatSplit T parentImp maxEx leafSize w = some (r, w')) : r.imp = minImp ∨ minImp < r.imp := by
  have hm : (w.cases.mapM fun c => f.catData[c]?) = some (w.cases.map f.cat) := by
    exact mapM_some fun c hc => hv.eq hc
  unfold CatFeature.bestCatSplit at he
  rw [hm] at he
  simp only [Option.bind_eq_bind, Option.bind_some] at he
  obtain ⟨st, tried, e, ht, h⟩ := catFold_ok L parentImp f leafSize w.cases hv hcs
    (decide (f.cm.nCats ≤ maxEx)) (List.range' 1 (nPartitions f.cm.nCats maxEx - 1)) []
    ⟨w.cases, (w.cases.map f.cat).map fun k => 1 <<< k, 0, minImp, true, w.allocs, w.rng⟩
    ⟨List.Perm.refl _, by simp, hok, .inl ⟨rfl, rfl⟩, by simp, by simp, by simp⟩
  rw [e] at he
  cases he
  rcases h.found with ⟨h1, -⟩ | ⟨h1, -⟩
  · exact .inl h1
  · exact .inr h1

/-- What a complete search of a feature finds among known cases. -/
theorem search_greedy (hw : L.Weighted imp) (F : Feature K) (hex : F.Exhaustive) {leafSize : Nat} (hls : 1 ≤ leafSize)
    (w : Work K) (hcs : ∀ c ∈ w.cases, c ∈ cases) (hne : w.cases ≠ []) (hF : F.Searchable w.cases)
    (hties : F.NoNearTies w.cases) (hok : L.Ok w.allocs) {r : Found K} {w' : Work K}
    (he : F.search T (.fin (imp w.cases)) leafSize false w = some (r, w'))
    (room : (Nat → Bool) → Prop) (hroom : ∀ p, room p ↔ F.RoomIn leafSize p w.cases)
    (val : (Nat → Bool) → K)
    (hval : ∀ p, val p = imp w.cases - ((w.cases.filter p).length * imp (w.cases.filter p) +
      (w.cases.filter fun c => !p c).length * imp (w.cases.filter fun c => !p c)) / w.cases.length) :
    (minImp < r.imp → ∃ code p, r.code = some code ∧ F.Divides p ∧ room p ∧
      (∀ c ∈ w.cases, F.codedLeft code c = some (p c)) ∧ r.imp = .fin (val p)) ∧
    ∀ p, F.Divides p → room p → ∃ x : K, r.imp = .fin x ∧ val p ≤ x := by
  cases F with
  | num f =>
    have hfin : f.Finite w.cases := hF
    obtain ⟨r1, w1, e1, -, h1, h2⟩ := c10_num_search f (L.mono hcs) hfin hties (.fin (imp w.cases)) hls false w
      (fun c h => h) hok
    have : some (r, w') = some (r1, w1) := he.symm.trans e1
    cases this
    have hp : ∀ t : K, (Feature.num f).lefts (.num (.fin t)) w.cases = w.cases.filter (fun c => decide (f.value c ≤ t)) ∧
        (Feature.num f).rights (.num (.fin t)) w.cases = w.cases.filter (fun c => !decide (f.value c ≤ t)) :=
      fun t => ⟨lefts_num hfin t, rights_num hfin t⟩
    have hfound : minImp < r.imp → ∃ code p, r.code = some code ∧ (Feature.num f).Divides p ∧ room p ∧
        (∀ c ∈ w.cases, (Feature.num f).codedLeft code c = some (p c)) ∧ r.imp = .fin (val p) := by
      intro hlt
      rcases h1 with h1 | ⟨-, t, h3, h4, h5, h6⟩
      · exact absurd hlt (by rw [h1]; exact XF.lt_irrefl' _)
      · rw [(hp t).1] at h4 h6
        rw [(hp t).2] at h5 h6
        refine ⟨_, fun c => decide (f.value c ≤ t), h3, ⟨t, fun _ => rfl⟩, (hroom _).2 ⟨h4, h5⟩, ?_, ?_⟩
        · intro c hc
          obtain ⟨x, hx⟩ := hfin c hc
          simp only [Feature.codedLeft, hx, Option.bind_eq_bind, Option.bind_some, NumFeature.value]
          congr 1
        · rw [h6, hval]
          exact decrease_weighted hw hne hcs _ (List.ne_nil_of_length_pos (by omega))
            (List.ne_nil_of_length_pos (by omega))
    refine ⟨hfound, ?_⟩
    · rintro p ⟨t, ht⟩ hr
      obtain ⟨h4, h5⟩ := (hroom p).1 hr
      have hpt : p = fun c => decide (f.value c ≤ t) := funext ht
      subst hpt
      simp only at h5
      have := h2 rfl t (by rw [(hp t).1]; exact h4) (by rw [(hp t).2]; exact h5)
      rw [(hp t).1, (hp t).2] at this
      have hS : (L.mono hcs).S = L.S := rfl
      rw [hS, decrease_weighted hw hne hcs _ (List.ne_nil_of_length_pos (by omega))
            (List.ne_nil_of_length_pos (by omega)), ← hval (fun c => decide (f.value c ≤ t))] at this
      obtain ⟨x, hx⟩ : ∃ x, r.imp = .fin x := by
        rcases h1 with h1 | h1
        · exact ⟨_, h1⟩
        · obtain ⟨_, q, _, _, _, _, hq⟩ := hfound h1.1
          exact ⟨_, hq⟩
      rw [hx] at this
      exact ⟨x, hx, not_lt.1 this⟩
  | cat f =>
    have hr : f.InRange f.cm.nCats w.cases := hF
    have hv : f.HasVals w.cases := fun c hc => (hr c hc).imp fun k hk => hk.1
    obtain ⟨r1, w1, b, e1, -, hb, h1, h2⟩ := c11_exhaustive f (L.mono hcs) hr hex (.fin (imp w.cases)) hls false w
      (fun c h => h) hok
    rw [he] at e1
    cases e1
    have hfound : minImp < r.imp → ∃ code p, r.code = some code ∧ (Feature.cat (K := K) f).Divides p ∧ room p ∧
        (∀ c ∈ w.cases, (Feature.cat f).codedLeft code c = some (p c)) ∧ r.imp = .fin (val p) := by
      intro hlt
      obtain ⟨h4, h5, h6⟩ := h1 hlt
      rw [lefts_cat hv] at h4 h6
      rw [rights_cat hv] at h5 h6
      refine ⟨_, fun c => b.testBit (f.cat c), hb, ⟨fun k => b.testBit k, fun _ => rfl⟩, (hroom _).2 ⟨h4, h5⟩, ?_, ?_⟩
      · intro c hc
        simp only [Feature.codedLeft, hv.eq hc, Option.bind_eq_bind, Option.bind_some]
      · rw [h6, hval]
        exact decrease_weighted hw hne hcs _ (List.ne_nil_of_length_pos (by omega))
            (List.ne_nil_of_length_pos (by omega))
    refine ⟨hfound, ?_⟩
    · rintro p ⟨g, hg⟩ hr'
      obtain ⟨h4, h5⟩ := (hroom p).1 hr'
      have hpt : p = fun c => g (f.cat c) := funext hg
      subst hpt
      simp only at h5
      have := h2 g h4 h5
      have hS : (L.mono hcs).S = L.S := rfl
      rw [hS, decrease_weighted hw hne hcs _ (List.ne_nil_of_length_pos (by omega))
            (List.ne_nil_of_length_pos (by omega)), ← hval (fun c => g (f.cat c))] at this
      obtain ⟨x, hx⟩ : ∃ x, r.imp = .fin x := by
        by_cases hlt : minImp < r.imp
        · obtain ⟨_, q, _, _, _, _, hq⟩ := hfound hlt
          exact ⟨_, hq⟩
        have hn : ∀ c ∈ w.cases, f.cat c < f.cm.nCats := by
          intro c hc
          obtain ⟨k, hk, hlt⟩ := hr c hc
          rw [hv.eq hc] at hk; cases hk; exact hlt
        have hadm : AdmCode (.cat (K := K) f) leafSize w.cases (.int (Nat.ofBits (n := f.cm.nCats) fun i => g i)) := by
          constructor
          · rw [lefts_cat hv]
            refine h4.trans (le_of_eq (congrArg _ (List.filter_congr fun c hc => ?_)))
            rw [Nat.testBit_ofBits_lt _ _ (hn c hc)]
          · rw [rights_cat hv]
            refine h5.trans (le_of_eq (congrArg _ (List.filter_congr fun c hc => ?_)))
            rw [Nat.testBit_ofBits_lt _ _ (hn c hc)]
        obtain ⟨i, hi1, hi2, -, ha', -⟩ := code_covered L (.fin (imp w.cases)) f leafSize hv hn hls _ hadm
        unfold Feature.search at he
        simp only [] at he
        have hex' : f.cm.nCats ≤ 5 ∨ f.randomSearch = true ∧ f.cm.nCats ≤ 10 := hex
        rw [if_neg (by rcases hex' with h | h <;> simp [h] <;> omega),
          if_neg (by rcases hex' with h | h <;> simp [h]), if_neg (by omega)] at he
        by_cases h2c : f.cm.nCats = 2
        · rw [if_pos h2c] at he
          obtain ⟨r1, w1, e, -, -, h3, -⟩ := bestBinSplit_ok L (.fin (imp w.cases)) f leafSize w hv
            (by rw [← h2c]; exact hn) hcs hok
          rw [he] at e; cases e
          rw [h2c] at hi2
          have : i = 1 := by omega
          subst this
          have hx := h3 ha'
          unfold codeGain at hx
          obtain ⟨hl1, hl2⟩ := ha'
          rw [lefts_cat hv] at hx hl1
          rw [rights_cat hv] at hx hl2
          rw [decrease_eq, decrease_weighted hw hne hcs _ (List.ne_nil_of_length_pos (by omega))
            (List.ne_nil_of_length_pos (by omega))] at hx
          exact ⟨_, hx⟩
        · rw [if_neg h2c] at he
          rcases bestCatSplit_imp L _ f leafSize 10 w hv hcs hok he with h | h
          · exact ⟨_, h⟩
          · exact absurd h hlt
      rw [hx] at this
      exact ⟨x, hx, not_lt.1 this⟩

/-- A feature known to be constant offers nothing. -/
theorem flat_offers {F : Feature K} {leafSize : Nat} (hls : 1 ≤ leafSize) {cs : List Nat} (hF : F.Searchable (F.knowns cs))
    (hties : F.NoNearTies (F.knowns cs)) (hflat : F.Flat leafSize (F.knowns cs)) (p : Nat → Bool) :
    ¬ F.Offers imp leafSize p cs := by
  rintro ⟨hd, ⟨h1, h2⟩, -⟩
  cases F with
  | num f =>
    obtain ⟨t, ht⟩ := hd
    obtain ⟨a, ha⟩ := List.exists_mem_of_length_pos (l := (Feature.num f).toLeft p cs) (by omega)
    obtain ⟨b, hb⟩ := List.exists_mem_of_length_pos (l := (Feature.num f).toRight p cs) (by simp only at h2; omega)
    have ha' := List.mem_filter.1 ha
    have hb' := List.mem_filter.1 hb
    have h3 := ha'.2
    have h4 := hb'.2
    simp only [ht, decide_eq_true_eq, Bool.not_eq_true', decide_eq_false_iff_not, not_le] at h3 h4
    have h5 := hflat b hb'.1 a ha'.1
    have h6 := hties a ha'.1 b hb'.1 (lt_of_le_of_lt h3 h4)
    exact absurd h6 (not_lt.2 h5)
  | cat f =>
    obtain ⟨g, hg⟩ := hd
    have hv : f.HasVals ((Feature.cat (K := K) f).knowns cs) := fun c hc => (hF c hc).imp fun k hk => hk.1
    have hn : ∀ c ∈ (Feature.cat (K := K) f).knowns cs, f.cat c < f.cm.nCats := by
      intro c hc
      obtain ⟨k, hk, hlt⟩ := hF c hc
      rw [hv.eq hc] at hk; cases hk; exact hlt
    refine hflat (Nat.ofBits (n := f.cm.nCats) fun i => g i) ⟨?_, ?_⟩
    · rw [lefts_cat hv]
      refine h1.trans (le_of_eq (congrArg _ (List.filter_congr fun c hc => ?_)))
      rw [Nat.testBit_ofBits_lt _ _ (hn c hc), hg]
    · rw [rights_cat hv]
      refine h2.trans (le_of_eq (congrArg _ (List.filter_congr fun c hc => ?_)))
      rw [Nat.testBit_ofBits_lt _ _ (hn c hc), hg]

/-- What evaluating one feature says. -/
structure FeatBest (imp : List Nat → K) (F : Feature K) (leafSize : Nat) (cs : List Nat) (r : Found K) : Prop where
  found : minImp < r.imp → ∃ code p, r.code = some code ∧ (∀ c ∈ F.knowns cs, F.codedLeft code c = some (p c)) ∧
    F.Offers imp leafSize p cs ∧ r.imp = .fin (F.gain3 imp p cs)
  best : ∀ p, F.Offers imp leafSize p cs → ∃ x : K, r.imp = .fin x ∧ F.gain3 imp p cs ≤ x
  constant : r.constant = true → F.Flat leafSize (F.knowns cs)

theorem FeatBest.perm (hw : L.Weighted imp) {F : Feature K} {leafSize : Nat} {cs cs' : List Nat} {r : Found K}
    (h : FeatBest imp F leafSize cs r) (hp : cs.Perm cs') (hc : ∀ c ∈ cs, c ∈ cases) : FeatBest imp F leafSize cs' r where
  found hlt := by
    obtain ⟨code, p, h1, h2, h3, h4⟩ := h.found hlt
    refine ⟨code, p, h1, fun c hcm => h2 c ((F.knowns_perm hp).mem_iff.2 hcm), offers_perm hw h3 hp hc, ?_⟩
    rw [← gain3_perm hw F p hp hc]; exact h4
  best p ho := by
    have hc' : ∀ c ∈ cs', c ∈ cases := fun c h => hc c (hp.mem_iff.2 h)
    rw [gain3_perm hw F p hp.symm hc']
    exact h.best p (offers_perm hw ho hp.symm hc')
  constant hr := (h.constant hr).subperm leafSize (F.knowns_perm hp).symm.subperm

/-- Three blocks: the whole division's decrease from that of the known cases. -/
theorem gain3_eq (F : Feature K) (p : Nat → Bool) {cs : List Nat} (hk : F.knowns cs ≠ []) :
    F.gain3 imp p cs = imp cs + ((F.knowns cs).length * (F.knownGain imp p cs - imp (F.knowns cs)) -
      (F.missings cs).length * imp (F.missings cs)) / cs.length := by
  have h0 : ((F.knowns cs).length : K) ≠ 0 := by
    exact_mod_cast (List.length_pos_of_ne_nil hk).ne'
  unfold Feature.gain3 Feature.knownGain
  generalize ((F.toLeft p cs).length : K) * imp (F.toLeft p cs) + (F.toRight p cs).length * imp (F.toRight p cs) = a
  have : ((F.knowns cs).length : K) * (imp (F.knowns cs) - a / (F.knowns cs).length - imp (F.knowns cs)) = -a := by
    rw [sub_right_comm, sub_self, zero_sub, mul_neg, mul_div_cancel₀ _ h0]
  rw [this, sub_eq_add_neg, ← neg_div]
  congr 2
  ring

theorem gain3_le (F : Feature K) (p q : Nat → Bool) {cs : List Nat} (hk : F.knowns cs ≠ [])
    (h : F.knownGain imp p cs ≤ F.knownGain imp q cs) : F.gain3 imp p cs ≤ F.gain3 imp q cs := by
  rw [gain3_eq F p hk, gain3_eq F q hk]
  have h1 : (0 : K) ≤ (F.knowns cs).length := by positivity
  have h2 : (0 : K) ≤ cs.length := by positivity
  gcongr

/-- Evaluating one feature at a node. -/
theorem bestSplit_greedy (hw : L.Weighted imp) (F : Feature K) (hex : F.Exhaustive) {leafSize : Nat} (hls : 1 ≤ leafSize)
    (w : Work K) (hcs : ∀ c ∈ w.cases, c ∈ cases) (hne : w.cases ≠ []) (hF : F.Searchable (F.knowns w.cases))
    (hties : F.NoNearTies (F.knowns w.cases)) (hmiss : ∀ c ∈ w.cases, F.isMissing c ≠ none) (hsound : F.MissingSound)
    (hok : L.Ok w.allocs) :
    ∃ r w', F.bestSplit T (.fin (imp w.cases)) leafSize false w = some (r, w') ∧
      w'.cases.Perm w.cases ∧ L.Ok w'.allocs ∧ FeatBest imp F leafSize w.cases r := by
  obtain ⟨r, w', e, hp, hok', h⟩ := bestSplit_ok L (.fin (imp w.cases)) leafSize F hls false w hcs hF hmiss hsound hok
  refine ⟨r, w', e, hp, hok', ?_⟩
  have hkm : ∀ c ∈ F.knowns w.cases, c ∈ cases := fun c h => hcs c (F.mem_knowns h)
  have hlen : ((w.cases.length : Nat) : K) ≠ 0 := by
    exact_mod_cast (List.length_pos_of_ne_nil hne).ne'
  rcases h with ⟨hk, -, rfl⟩ | ⟨r0, w0, w1, hw0, hok0, hs, hsf, hcode, hcon, himp⟩
  · refine ⟨fun h => ?_, fun p ho => ?_, fun h => by cases h⟩
    · exact absurd h (by
        show ¬ ((1 / 10000000 : K) < 0)
        norm_num)
    · have h1 := ho.room.1
      unfold Feature.toLeft at h1
      rw [hk] at h1
      simp at h1
      omega
  · by_cases hk : F.knowns w.cases = []
    · -- without known cases the search returns nothing
      have hno : ¬ minImp < r0.imp := by
        intro hlt
        obtain ⟨code, -, ha⟩ := hsf.adm hlt
        have := ha.1
        rw [hk] at this
        simp [Feature.lefts] at this
        omega
      have hr : r.imp = r0.imp := by rw [himp, if_neg (fun h => hno h.2)]
      refine ⟨fun h => absurd (by rwa [hr] at h) hno, fun p ho => ?_, fun h => ?_⟩
      · have h1 := ho.room.1
        unfold Feature.toLeft at h1
        rw [hk] at h1
        simp at h1
        omega
      · rw [hk]
        cases F with
        | num f => intro c hc; simp at hc
        | cat f =>
          intro b hb
          have := hb.1
          simp [Feature.lefts] at this
          omega
    · have hpar : (if F.missingVals then L.I (F.knowns w.cases) else .fin (imp w.cases)) = .fin (imp (F.knowns w.cases)) := by
        split
        · exact hw.finite _ hk hkm
        · rename_i hmv
          have : F.knowns w.cases = w.cases := by
            apply List.filter_eq_self.2
            intro c hc
            rcases h : F.isMissing c with _ | b
            · exact absurd h (hmiss c hc)
            · cases b
              · rfl
              · exact absurd (hsound c h) hmv
          rw [this]
      rw [hpar, ← hw0] at hs
      rw [← hw0] at hk hkm hF hties
      obtain ⟨h1, h2⟩ := search_greedy hw F hex hls w0 hkm hk hF hties hok0 hs (fun p => F.Room leafSize p w.cases)
        (fun p => by unfold Feature.Room Feature.RoomIn Feature.toLeft Feature.toRight; rw [hw0]; cases F <;> exact Iff.rfl)
        (fun p => F.knownGain imp p w.cases)
        (fun p => by unfold Feature.knownGain Feature.toLeft Feature.toRight; rw [hw0])
      rw [hw0] at hk hkm hF hties
      have hflat : r0.constant = true → F.Flat leafSize (F.knowns w.cases) := by
        intro hc
        have := search_constant L _ leafSize F hex hls false w0 (by rw [hw0]; exact hkm) (by rw [hw0]; exact hF) hok0 hs hc
        rwa [hw0] at this
      have hval : ∀ p, minImp < r0.imp → r0.imp = .fin (F.knownGain imp p w.cases) → r.imp = .fin (F.gain3 imp p w.cases) := by
        intro p hlt hp0
        rw [himp]
        have hI := hw.finite _ hk hkm
        by_cases hm : F.missings w.cases = []
        · rw [if_neg (fun h => h.1 hm), hp0, gain3_eq F p hk, hm]
          have hall : F.knowns w.cases = w.cases := by
            apply List.filter_eq_self.2
            intro c hc
            rcases h : F.isMissing c with _ | b
            · exact absurd h (hmiss c hc)
            · cases b
              · rfl
              · have : c ∈ F.missings w.cases := List.mem_filter.2 ⟨hc, by simp [h]⟩
                rw [hm] at this
                simp at this
          rw [hall]
          congr 1
          simp only [List.length_nil, Nat.cast_zero, zero_mul, sub_zero]
          rw [mul_div_cancel_left₀ _ hlen]
          ring
        · have hM := hw.finite _ hm fun c h => hcs c (F.mem_missings h)
          rw [if_pos ⟨hm, hlt⟩, hp0, hI, hM, gain3_eq F p hk]
          unfold XF.ofNat
          rw [XF.fin_sub, XF.fin_mul, XF.fin_mul, XF.fin_sub, XF.fin_div _ hlen, XF.fin_add]
      refine ⟨fun h => ?_, fun p ho => ?_, fun h => hflat (by rwa [hcon] at h)⟩
      · have hlt : minImp < r0.imp := by
          by_contra hno
          rw [himp, if_neg (fun h => hno h.2)] at h
          exact hno h
        obtain ⟨code, p, e1, e2, e3, e4, e5⟩ := h1 hlt
        rw [hw0] at e4
        refine ⟨code, p, hcode.trans e1, e4, ⟨e2, e3, ?_⟩, hval p hlt e5⟩
        rw [e5] at hlt
        exact hlt
      · obtain ⟨x, hx, hle⟩ := h2 p ho.divides ho.room
        have hlt : minImp < r0.imp := by
          rw [hx]
          exact lt_of_lt_of_le ho.gain hle
        obtain ⟨code, q, -, e2, e3, -, e5⟩ := h1 hlt
        refine ⟨_, hval q hlt e5, ?_⟩
        rw [hx] at e5
        exact gain3_le F p q hk (by rw [← XF.fin.inj e5]; exact hle)

end
end CloudForest
