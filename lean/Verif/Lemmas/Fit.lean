import Verif.Props.Greedy
import Verif.Lemmas.Boost
import Verif.Spec.RoundedGrow

/-! # Lemmas on trees that fit their training cases -/

set_option linter.unusedSectionVars false

namespace CloudForest
variable {K : Type} [Field K] [LinearOrder K] [IsStrictOrderedRing K] {σ τ : Type}

/-- Nodes without a code have no splitter. -/
def Node.Plain : Node K → Prop
  | .nil => True
  | .mk coded _ l r m _ spl => (coded = none → spl = none) ∧ l.Plain ∧ r.Plain ∧ m.Plain

theorem Grown.plain {P : σ → Prop} {Q : Nat → Prop} {g : Grower K σ} {fm : FeatureMatrix K} {b : Bool} {n : Node K}
    {cs : List Nat} {d : Nat} (h : Grown g fm P Q b n cs d) : n.Plain := by
  induction h with
  | absent => trivial
  | empty => exact ⟨fun _ => rfl, trivial, trivial, trivial⟩
  | leaf => exact ⟨fun _ => rfl, trivial, trivial, trivial⟩
  | split _ _ _ _ _ _ _ _ _ _ _ _ _ hl hr hm => exact ⟨nofun, hl, hr, hm⟩

/-- The cases that end where a given path ends are such that no candidate offers a division. -/
theorem greedyUpTo_landing {ε : K} {fm : FeatureMatrix K} {cans : List Nat} {imp : List Nat → K} {leafSize : Nat} {md : Int}
    (hmd : md ≤ 0) (n : Node K) (hp : n.Plain) (cs : List Nat) (d : Nat) (h : GreedyUpTo ε fm cans imp leafSize md n cs d) (c : Nat)
    (hc : c ∈ cs) (path : List Dir) (pred : String) (hl : landing fm n c = some (path, pred)) :
    ∀ i ∈ cans, ∀ F, fm.data[i]? = some F → ∀ p, F.Divides p →
      F.Room leafSize p (cs.filter fun e => (landing fm n e).map (·.1) == some path) →
      1 / 10000000 + ε < F.knownGain imp p (cs.filter fun e => (landing fm n e).map (·.1) == some path) →
      F.gain3 imp p (cs.filter fun e => (landing fm n e).map (·.1) == some path) ≤ 1 / 10000000 + ε := by
  induction n generalizing cs d path with
  | nil => exact h.elim
  | mk coded fi l r m pred0 spl ihl ihr ihm =>
    obtain ⟨hs, hpl, hpr, hpm⟩ := hp
    cases coded with
    | none =>
      cases hs rfl
      have hland : ∀ e, landing fm (.mk none fi l r m pred0 none) e = some ([], pred0) := fun e => rfl
      rw [hland] at hl
      simp only [Option.some.injEq, Prod.mk.injEq] at hl
      obtain ⟨rfl, -⟩ := hl
      rcases h with ⟨h1, -⟩ | h
      · omega
      · have e : (cs.filter fun e => (landing fm (.mk none fi l r m pred0 none) e).map (·.1) == some ([] : List Dir)) = cs := by
          rw [List.filter_eq_self]
          intro e _
          rw [hland]
          rfl
        rw [e]
        exact h
    | some code =>
      obtain ⟨-, F, p, hF, hcode, -, -, -, -, gl, gr, gm⟩ := h
      have hdir : ∀ e ∈ cs, (F.isMissing e = some false → caseDir fm (some code) fi spl e = some (if p e then .L else .R)) ∧
          (F.isMissing e = some true → caseDir fm (some code) fi spl e = some .M) ∧
          (F.isMissing e = none → caseDir fm (some code) fi spl e = none) := by
        intro e he
        unfold caseDir
        simp only [hF]
        refine ⟨fun h => ?_, fun h => by rw [h], fun h => by rw [h]⟩
        have := hcode e (List.mem_filter.2 ⟨he, by rw [h]; rfl⟩)
        rw [h, this]
        cases p e <;> rfl
      have hland : ∀ e, landing fm (.mk (some code) fi l r m pred0 spl) e =
          match caseDir fm (some code) fi spl e with
          | some .L => (landing fm l e).map fun x => (.L :: x.1, x.2)
          | some .R => (landing fm r e).map fun x => (.R :: x.1, x.2)
          | some .M => (landing fm m e).map fun x => (.M :: x.1, x.2)
          | none => none := fun e => rfl
      have hstep : ∀ (D : Dir) (path : List Dir),
          (cs.filter fun e => (landing fm (.mk (some code) fi l r m pred0 spl) e).map (·.1) == some (D :: path)) =
          (cs.filter fun e => caseDir fm (some code) fi spl e == some D).filter
            fun e => (landing fm ((Node.mk (some code) fi l r m pred0 spl).child D) e).map (·.1) == some path := by
        intro D path
        rw [List.filter_filter]
        refine List.filter_congr fun e _ => ?_
        rw [hland]
        cases hd : caseDir fm (some code) fi spl e with
        | none => simp
        | some D' =>
          cases D <;> cases D' <;> simp only [Node.child] <;>
            cases landing fm l e <;> cases landing fm r e <;> cases landing fm m e <;> rw [Bool.eq_iff_iff] <;> simp
      have hL : (cs.filter fun e => caseDir fm (some code) fi spl e == some .L) = F.toLeft p cs := by
        unfold Feature.toLeft Feature.knowns
        rw [List.filter_filter]
        refine List.filter_congr fun e he => ?_
        obtain ⟨h1, h2, h3⟩ := hdir e he
        cases hm : F.isMissing e with
        | none => rw [h3 hm]; simp
        | some b =>
          cases b with
          | true => rw [h2 hm]; simp
          | false => rw [h1 hm]; cases p e <;> simp
      have hR : (cs.filter fun e => caseDir fm (some code) fi spl e == some .R) = F.toRight p cs := by
        unfold Feature.toRight Feature.knowns
        rw [List.filter_filter]
        refine List.filter_congr fun e he => ?_
        obtain ⟨h1, h2, h3⟩ := hdir e he
        cases hm : F.isMissing e with
        | none => rw [h3 hm]; simp
        | some b =>
          cases b with
          | true => rw [h2 hm]; simp
          | false => rw [h1 hm]; cases p e <;> simp
      have hM : (cs.filter fun e => caseDir fm (some code) fi spl e == some .M) = F.missings cs := by
        unfold Feature.missings
        refine List.filter_congr fun e he => ?_
        obtain ⟨h1, h2, h3⟩ := hdir e he
        cases hm : F.isMissing e with
        | none => rw [h3 hm]; simp
        | some b =>
          cases b with
          | true => rw [h2 hm]; simp
          | false => rw [h1 hm]; cases p e <;> simp
      rw [hland] at hl
      cases hd : caseDir fm (some code) fi spl c with
      | none => rw [hd] at hl; cases hl
      | some D =>
        rw [hd] at hl
        have hmem : c ∈ cs.filter fun e => caseDir fm (some code) fi spl e == some D :=
          List.mem_filter.2 ⟨hc, by rw [hd]; simp⟩
        cases D with
        | L =>
          obtain ⟨⟨path', pred'⟩, h1, h2⟩ := Option.map_eq_some_iff.1 hl
          cases h2
          rw [hL] at hmem
          have := ihl hpl _ _ gl hmem path' h1
          rw [hstep .L path', hL]
          exact this
        | R =>
          obtain ⟨⟨path', pred'⟩, h1, h2⟩ := Option.map_eq_some_iff.1 hl
          cases h2
          rw [hR] at hmem
          have := ihr hpr _ _ gr hmem path' h1
          rw [hstep .R path', hR]
          exact this
        | M =>
          obtain ⟨⟨path', pred'⟩, h1, h2⟩ := Option.map_eq_some_iff.1 hl
          cases h2
          rw [hM] at hmem
          have gm : GreedyUpTo ε fm cans imp leafSize md m (F.missings cs) (d + 1) := by
            rcases gm with h | h
            · cases m with
              | nil => cases h1
              | mk => cases h
            · exact h
          have := ihm hpm _ _ gm hmem path' h1
          rw [hstep .M path', hM]
          exact this

/-- Without missing values every case ends in a leaf. -/
theorem greedyUpTo_lands {ε : K} {fm : FeatureMatrix K} {cans : List Nat} {imp : List Nat → K} {leafSize : Nat} {md : Int} (n : Node K)
    (hp : n.Plain) (cs : List Nat) (d : Nat) (h : GreedyUpTo ε fm cans imp leafSize md n cs d)
    (hk : ∀ i ∈ cans, ∀ F, fm.data[i]? = some F → ∀ c ∈ cs, F.isMissing c = some false) (c : Nat) (hc : c ∈ cs) :
    landing fm n c ≠ none := by
  induction n generalizing cs d with
  | nil => exact h.elim
  | mk coded fi l r m pred0 spl ihl ihr _ =>
    obtain ⟨hs, hpl, hpr, -⟩ := hp
    cases coded with
    | none =>
      cases hs rfl
      exact fun h => by cases h
    | some code =>
      obtain ⟨hi, F, p, hF, hcode, -, -, -, -, gl, gr, -⟩ := h
      have hkn : F.knowns cs = cs := by
        unfold Feature.knowns
        rw [List.filter_eq_self]
        intro e he
        rw [hk fi hi F hF e he]
        rfl
      rw [hkn] at hcode
      have hdir : caseDir fm (some code) fi spl c = some (if p c then .L else .R) := by
        unfold caseDir
        simp only [hF]
        rw [hk fi hi F hF c hc, hcode c hc]
        cases p c <;> rfl
      have hsubL : ∀ e ∈ F.toLeft p cs, e ∈ cs := fun e he => by
        unfold Feature.toLeft at he
        rw [hkn] at he
        exact (List.mem_filter.1 he).1
      have hsubR : ∀ e ∈ F.toRight p cs, e ∈ cs := fun e he => by
        unfold Feature.toRight at he
        rw [hkn] at he
        exact (List.mem_filter.1 he).1
      rw [landing]
      simp only [splits, Option.isSome_some, Bool.true_or, if_true, hdir]
      cases hpc : p c with
      | true =>
        have := ihl hpl _ _ gl (fun i hi F' hF' e he => hk i hi F' hF' e (hsubL e he))
          (by unfold Feature.toLeft; rw [hkn]; exact List.mem_filter.2 ⟨hc, hpc⟩)
        simpa using this
      | false =>
        have := ihr hpr _ _ gr (fun i hi F' hF' e he => hk i hi F' hF' e (hsubR e he))
          (by unfold Feature.toRight; rw [hkn]; exact List.mem_filter.2 ⟨hc, by rw [hpc]; rfl⟩)
        simpa using this

/-- A tree that is the best it can be is so up to nothing. -/
theorem Greedy.upTo {fm : FeatureMatrix K} {cans : List Nat} {imp : List Nat → K} {leafSize : Nat} {md : Int} :
    ∀ (n : Node K) (cs : List Nat) (d : Nat), Greedy fm cans imp leafSize md n cs d →
      GreedyUpTo 0 fm cans imp leafSize md n cs d := by
  intro n
  induction n with
  | nil => exact fun _ _ h => h
  | mk coded fi l r m pred spl ihl ihr ihm =>
    intro cs d h
    cases coded with
    | none =>
      rw [Greedy] at h
      rw [GreedyUpTo]
      refine h.imp id fun h i hi F hF p hd hr hk => ?_
      rw [add_zero] at hk ⊢
      exact h i hi F hF p ⟨hd, hr, hk⟩
    | some code =>
      rw [Greedy] at h
      rw [GreedyUpTo]
      obtain ⟨h1, F, p, h2, h3, h4, h5, h6, h7, h8, h9⟩ := h
      refine ⟨h1, F, p, h2, h3, h4.divides, h4.room, by rwa [sub_zero], fun i hi F' hF' q hd hr hk => ?_, ihl _ _ h7,
        ihr _ _ h8, h9.imp id (ihm _ _)⟩
      rw [add_zero] at hk ⊢
      exact h6 i hi F' hF' q ⟨hd, hr, hk⟩

/-- The cases that end where a given path ends are such that no candidate offers a division. -/
theorem greedy_landing {fm : FeatureMatrix K} {cans : List Nat} {imp : List Nat → K} {leafSize : Nat} {md : Int}
    (hmd : md ≤ 0) (n : Node K) (hp : n.Plain) (cs : List Nat) (d : Nat) (h : Greedy fm cans imp leafSize md n cs d) (c : Nat)
    (hc : c ∈ cs) (path : List Dir) (pred : String) (hl : landing fm n c = some (path, pred)) :
    ∀ i ∈ cans, ∀ F, fm.data[i]? = some F → ∀ p,
      F.Offers imp leafSize p (cs.filter fun e => (landing fm n e).map (·.1) == some path) →
      F.gain3 imp p (cs.filter fun e => (landing fm n e).map (·.1) == some path) ≤ 1 / 10000000 := by
  intro i hi F hF p ho
  have := greedyUpTo_landing hmd n hp cs d (Greedy.upTo _ _ _ h) c hc path pred hl i hi F hF p ho.divides ho.room
    (by rw [add_zero]; exact ho.gain)
  rwa [add_zero] at this

/-- Without missing values every case ends in a leaf. -/
theorem greedy_lands {fm : FeatureMatrix K} {cans : List Nat} {imp : List Nat → K} {leafSize : Nat} {md : Int} (n : Node K)
    (hp : n.Plain) (cs : List Nat) (d : Nat) (h : Greedy fm cans imp leafSize md n cs d)
    (hk : ∀ i ∈ cans, ∀ F, fm.data[i]? = some F → ∀ c ∈ cs, F.isMissing c = some false) (c : Nat) (hc : c ∈ cs) :
    landing fm n c ≠ none :=
  greedyUpTo_lands n hp cs d (Greedy.upTo _ _ _ h) hk c hc

/-! ## The division at the smallest value -/

/-- The case with the smallest value. -/
theorem exists_least (v : Nat → K) (cs : List Nat) (h : cs ≠ []) : ∃ c ∈ cs, ∀ d ∈ cs, v c ≤ v d := by
  induction cs with
  | nil => exact absurd rfl h
  | cons x xs ih =>
    rcases eq_or_ne xs [] with rfl | hx
    · exact ⟨x, by simp, by simp⟩
    · obtain ⟨c, hc, hm⟩ := ih hx
      rcases le_total (v x) (v c) with hle | hle
      · refine ⟨x, by simp, fun d hd => ?_⟩
        rcases List.mem_cons.1 hd with rfl | hd
        · exact le_rfl
        · exact hle.trans (hm d hd)
      · refine ⟨c, by simp [hc], fun d hd => ?_⟩
        rcases List.mem_cons.1 hd with rfl | hd
        · exact hle
        · exact hm d hd

theorem knowns_all {F : Feature K} {cs : List Nat} (hk : ∀ c ∈ cs, F.isMissing c = some false) : F.knowns cs = cs := by
  unfold Feature.knowns
  rw [List.filter_eq_self]
  intro c hc
  rw [hk c hc]
  rfl

theorem missings_none {F : Feature K} {cs : List Nat} (hk : ∀ c ∈ cs, F.isMissing c = some false) : F.missings cs = [] := by
  unfold Feature.missings
  rw [List.filter_eq_nil_iff]
  intro c hc
  rw [hk c hc]
  simp

/-- Unless one value is had by all cases but one, the cases with the smallest value can be parted from the others. -/
theorem least_room {F : NumFeature K} {cs : List Nat} (hk : ∀ c ∈ cs, (Feature.num F).isMissing c = some false)
    (hne : cs ≠ []) (hv : ¬ ∃ e ∈ cs, ∀ c ∈ cs.erase e, ∀ d ∈ cs.erase e, F.value c = F.value d) :
    ∃ c ∈ cs, (∀ d ∈ cs, F.value c ≤ F.value d) ∧
      (Feature.num F).Room 1 (fun d => decide (F.value d ≤ F.value c)) cs := by
  obtain ⟨c, hc, hm⟩ := exists_least F.value cs hne
  refine ⟨c, hc, hm, ?_, ?_⟩
  · unfold Feature.toLeft
    rw [knowns_all hk]
    exact List.length_pos_of_mem (List.mem_filter.2 ⟨hc, by simp⟩)
  · show 1 < ((Feature.num F).toRight _ cs).length
    unfold Feature.toRight
    rw [knowns_all hk]
    by_contra hlt
    have hlt : ¬ 1 < (cs.filter fun c' => !decide (F.value c' ≤ F.value c)).length := hlt
    have heq : ∀ d ∈ cs, d ∉ cs.filter (fun c' => !decide (F.value c' ≤ F.value c)) → F.value d = F.value c := by
      intro d hd hn
      by_contra hne
      exact hn (List.mem_filter.2 ⟨hd, by
        have := lt_of_le_of_ne (hm d hd) (Ne.symm hne)
        simpa using this⟩)
    rcases Nat.lt_or_ge 0 (cs.filter fun c' => !decide (F.value c' ≤ F.value c)).length with h1 | h0
    · obtain ⟨e, he⟩ : ∃ e, cs.filter (fun c' => !decide (F.value c' ≤ F.value c)) = [e] :=
        List.length_eq_one_iff.1 (by omega)
      have hem : e ∈ cs := (List.mem_filter.1 (he ▸ List.mem_singleton.2 rfl)).1
      have hek : (!decide (F.value e ≤ F.value c)) = true := by
        have : e ∈ cs.filter (fun c' => !decide (F.value c' ≤ F.value c)) := by rw [he]; simp
        exact (List.mem_filter.1 this).2
      have hcnt : (cs.erase e).filter (fun c' => !decide (F.value c' ≤ F.value c)) = [] := by
        have hp := List.perm_cons_erase hem
        have := (hp.filter (fun c' => !decide (F.value c' ≤ F.value c))).length_eq
        rw [he, List.filter_cons_of_pos (by simpa using hek)] at this
        exact List.length_eq_zero_iff.1 (by simpa using this)
      have hall : ∀ d ∈ cs.erase e, F.value d = F.value c := by
        intro d hd
        rw [List.filter_eq_nil_iff] at hcnt
        have h1 := hcnt d hd
        have h2 := hm d (List.mem_of_mem_erase hd)
        simp only [Bool.not_eq_true', decide_eq_false_iff_not, not_not] at h1
        exact le_antisymm h1 h2
      exact hv ⟨e, hem, fun a ha b hb => (hall a ha).trans (hall b hb).symm⟩
    · have h0 : cs.filter (fun c' => !decide (F.value c' ≤ F.value c)) = [] := List.length_eq_zero_iff.1 (by omega)
      have hall : ∀ d ∈ cs, F.value d = F.value c := fun d hd => heq d hd (by rw [h0]; simp)
      exact hv ⟨c, hc, fun a ha b hb =>
        (hall a (List.mem_of_mem_erase ha)).trans (hall b (List.mem_of_mem_erase hb)).symm⟩

theorem one_le_sum (l : List Nat) (hn : l.Nodup) (g : Nat → K) (k : Nat) (hk : k ∈ l) (h : ∀ j ∈ l, j ≠ k → 0 ≤ g j) :
    g k ≤ (l.map g).sum := by
  induction l with
  | nil => cases hk
  | cons x xs ih =>
    rw [List.nodup_cons] at hn
    rw [List.map_cons, List.sum_cons]
    rcases List.mem_cons.1 hk with rfl | hk
    · have := sum_nonneg' xs g fun j hj => h j (by simp [hj]) (fun e => hn.1 (e ▸ hj))
      linarith
    · have h1 := ih hn.2 hk fun j hj => h j (by simp [hj])
      have h2 := h x (by simp) fun e => hn.1 (e ▸ hk)
      linarith

/-- Parting cases of one class from a mixed rest. -/
theorem gini_part (f : CatFeature) (n : Nat) (l r : List Nat) (k : Nat) (hk : k < n) (hl : l ≠ [])
    (hlk : ∀ c ∈ l, f.catData[c]? = some k) (hr : ∃ d ∈ r, f.catData[d]? ≠ some k) :
    1 / ((l.length + r.length : K) ^ 2) ≤
      giniMass K f n (l ++ r) - giniMass K f n l - giniMass K f n r := by
  have hl0 : 0 < (l.length : K) := by
    have := List.length_pos_iff.2 hl
    exact_mod_cast this
  have hl1 : 1 ≤ (l.length : K) := by
    have := List.length_pos_iff.2 hl
    exact_mod_cast this
  obtain ⟨d, hd, hdk⟩ := hr
  have hr0 : 0 < (r.length : K) := by
    have := List.length_pos_of_mem hd
    exact_mod_cast this
  have hcl : f.catCount l k = l.length := by
    unfold CatFeature.catCount
    rw [List.countP_eq_length]
    intro c hc
    rw [hlk c hc]
    simp
  have hcr : f.catCount r k + 1 ≤ r.length := by
    unfold CatFeature.catCount
    have := List.length_eq_countP_add_countP (l := r) (fun c => f.catData[c]? == some k)
    have h2 : 0 < r.countP fun c => !(f.catData[c]? == some k) := by
      rw [List.countP_pos_iff]
      exact ⟨d, hd, by simpa using hdk⟩
    simp only [Bool.not_eq_true, decide_eq_true_eq] at this
    have h3 : (r.countP fun c => !(f.catData[c]? == some k)) =
        r.countP fun a => decide ((f.catData[a]? == some k) = false) := by
      congr 1
      funext a
      cases f.catData[a]? == some k <;> rfl
    omega
  rw [giniMass_eq, giniMass_eq, giniMass_eq]
  have hs := one_le_sum (List.range n) List.nodup_range (fun j => (f.catCount l j : K) ^ 2 / (l.length : K) +
      (f.catCount r j : K) ^ 2 / (r.length : K) - (f.catCount (l ++ r) j : K) ^ 2 / ((l ++ r).length : K)) k
    (List.mem_range.2 hk) (by
      intro j _ _
      have := titu (a := (f.catCount l j : K)) (b := (f.catCount r j : K)) hl0.le hr0.le
        (fun e => absurd e hl0.ne') (fun e => absurd e hr0.ne')
      rw [catCount_append, List.length_append]
      push_cast
      linarith)
  have hsum : ((List.range n).map fun j => (f.catCount l j : K) ^ 2 / (l.length : K) +
      (f.catCount r j : K) ^ 2 / (r.length : K) - (f.catCount (l ++ r) j : K) ^ 2 / ((l ++ r).length : K)).sum =
      ((List.range n).map fun j => (f.catCount l j : K) ^ 2 / (l.length : K)).sum +
      ((List.range n).map fun j => (f.catCount r j : K) ^ 2 / (r.length : K)).sum -
      ((List.range n).map fun j => (f.catCount (l ++ r) j : K) ^ 2 / ((l ++ r).length : K)).sum := by
    induction List.range n with
    | nil => simp
    | cons x xs ih => simp only [List.map_cons, List.sum_cons, ih]; ring
  rw [hsum] at hs
  have hlen : (((l ++ r).length : Nat) : K) = l.length + r.length := by rw [List.length_append]; push_cast; rfl
  have key : 1 / ((l.length + r.length : K) ^ 2) ≤ (f.catCount l k : K) ^ 2 / (l.length : K) +
      (f.catCount r k : K) ^ 2 / (r.length : K) - (f.catCount (l ++ r) k : K) ^ 2 / ((l ++ r).length : K) := by
    rw [catCount_append, hcl, hlen]
    push_cast
    obtain ⟨a, ha⟩ : ∃ a : K, a = f.catCount r k := ⟨_, rfl⟩
    have ha1 : a + 1 ≤ r.length := by rw [ha]; exact_mod_cast hcr
    rw [← ha]
    obtain ⟨x, hx⟩ : ∃ x : K, x = l.length := ⟨_, rfl⟩
    obtain ⟨y, hy⟩ : ∃ y : K, y = r.length := ⟨_, rfl⟩
    rw [← hx] at hl0 hl1 ⊢
    rw [← hy] at hr0 ha1 ⊢
    have e : x ^ 2 / x + a ^ 2 / y - (x + a) ^ 2 / (x + y) = x * (y - a) ^ 2 / (y * (x + y)) := by
      have : x + y ≠ 0 := by positivity
      field_simp
      ring
    rw [e, div_le_div_iff₀ (by positivity) (by positivity)]
    have h1 : 1 ≤ (y - a) ^ 2 := by nlinarith
    have h2 : y * (x + y) ≤ (x + y) ^ 2 := by nlinarith
    have h3 : 1 ≤ x * (y - a) ^ 2 := by nlinarith
    nlinarith [mul_nonneg (sub_nonneg.2 h3) (sq_nonneg (x + y))]
  rw [hlen] at hs key ⊢
  linarith

end CloudForest
