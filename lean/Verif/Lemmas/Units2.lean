import Verif.Lemmas.Units

/-! # Lemmas about the same search in another order: categories -/

set_option linter.unusedSectionVars false

namespace CloudForest
variable {K : Type} [Field K] [LinearOrder K] [IsStrictOrderedRing K]

section
variable {T T' : Target K} {cases : List Nat} {L : TargetLaws T cases} {L' : TargetLaws T' cases} (hE : L.Agrees L')
  (parentImp : XF K) (f : CatFeature) (leafSize : Nat)

/-- Trying one code: what the best becomes, by the cases alone. -/
def codeStep {T : Target K} {cases : List Nat} (L : TargetLaws T cases) (parentImp : XF K) (f : CatFeature) (leafSize : Nat)
    (cs : List Nat) (b : Nat) (s : Nat × XF K × Bool) : Nat × XF K × Bool :=
  if AdmCode (.cat (K := K) f) leafSize cs (.int b) then
    if s.2.1 < codeGain L parentImp (.cat f) cs (.int b) then (b, codeGain L parentImp (.cat f) cs (.int b), false)
    else (s.1, s.2.1, false)
  else s

theorem catStep_pure {T : Target K} (L : TargetLaws T cases) (parentImp : XF K) (f : CatFeature) (leafSize : Nat) {cs : List Nat} (hv : f.HasVals cs) (hcs : ∀ c ∈ cs, c ∈ cases) (ex : Bool) {st : CatState K}
    (hp : st.cs.Perm cs) (hc : st.cached = st.cs.map fun c => 1 <<< f.cat c) (hok : L.Ok st.allocs) (i : Nat) :
    ∃ cs' a', cs'.Perm cs ∧ L.Ok a' ∧ catStep T parentImp leafSize ex st i =
      some ⟨cs', cs'.map fun c => 1 <<< f.cat c,
        (codeStep L parentImp f leafSize cs (if ex then (i, st.rng) else st.rng.int63).1 (st.best, st.imp, st.constant)).1,
        (codeStep L parentImp f leafSize cs (if ex then (i, st.rng) else st.rng.int63).1 (st.best, st.imp, st.constant)).2.1,
        (codeStep L parentImp f leafSize cs (if ex then (i, st.rng) else st.rng.int63).1 (st.best, st.imp, st.constant)).2.2,
        a', (if ex then (i, st.rng) else st.rng.int63).2⟩ := by
  obtain ⟨b, rng, hb⟩ : ∃ b rng, (if ex then (i, st.rng) else st.rng.int63) = (b, rng) := ⟨_, _, rfl⟩
  unfold catStep
  rw [hb]
  have hv' : f.HasVals st.cs := fun c hc => hv c (hp.mem_iff.1 hc)
  obtain ⟨cs', m, e, hp1, hm, hl, hr⟩ := catPart_sides (K := K) f st.cs hv' b
  simp only [hc, e, Option.bind_eq_bind, Option.bind_some]
  have hp' := hp1.trans hp
  have hadm : AdmCode (.cat (K := K) f) leafSize cs (.int b) ↔
      ¬ (m < leafSize ∨ cs'.length - m < leafSize) := by
    rw [← admCode_perm leafSize hp']
    unfold AdmCode
    rw [← hl, ← hr, List.length_take, List.length_drop]
    omega
  unfold codeStep
  by_cases ha : AdmCode (.cat (K := K) f) leafSize cs (.int b)
  swap
  · rw [if_pos (not_not.1 fun hh => ha (hadm.2 hh)), if_neg ha]
    exact ⟨cs', st.allocs, hp', hok, rfl⟩
  rw [if_neg (hadm.1 ha), if_pos ha]
  obtain ⟨a', hs, ht⟩ := L.split st.allocs (cs'.take m) (cs'.drop m) hok (by
    intro c hc
    rw [List.take_append_drop] at hc
    exact hcs c (hp'.mem_iff.1 hc))
  have hg : gain parentImp (L.S (cs'.take m) (cs'.drop m)) =
      codeGain L parentImp (.cat f) cs (.int b) := by
    rw [← codeGain_perm L parentImp hp', hl, hr]; rfl
  rw [hs]
  simp only [Option.bind_some, hg]
  refine ⟨cs', a', hp', L.tracks_ok _ _ _ ht, ?_⟩
  by_cases hlt : st.imp < codeGain L parentImp (.cat f) cs (.int b)
  · rw [if_pos hlt, if_pos hlt]
  · rw [if_neg hlt, if_neg hlt]

include hE in
theorem codeStep_agree {cs : List Nat} (hcs : ∀ c ∈ cs, c ∈ cases) (b : Nat) (s : Nat × XF K × Bool) :
    codeStep L' parentImp f leafSize cs b s = codeStep L parentImp f leafSize cs b s := by
  have : codeGain L' parentImp (.cat f) cs (.int b) = codeGain L parentImp (.cat f) cs (.int b) := by
    unfold codeGain
    rw [hE.S _ _ fun c hc => ?_]
    rcases List.mem_append.1 hc with h | h <;> exact hcs c (List.mem_of_mem_filter h)
  unfold codeStep
  rw [this]

/-- Two states of the search over codes that differ in the order of the cases only. -/
structure TwinCat (L : TargetLaws T cases) (L' : TargetLaws T' cases) (f : CatFeature) (cs : List Nat) (st st' : CatState K) : Prop where
  perm : st.cs.Perm cs
  perm' : st'.cs.Perm cs
  cached : st.cached = st.cs.map fun c => 1 <<< f.cat c
  cached' : st'.cached = st'.cs.map fun c => 1 <<< f.cat c
  ok : L.Ok st.allocs
  ok' : L'.Ok st'.allocs
  rng : st'.rng = st.rng
  best : st'.best = st.best
  imp : st'.imp = st.imp
  constant : st'.constant = st.constant

include hE in
theorem catFold_twin {cs : List Nat} (hv : f.HasVals cs) (hcs : ∀ c ∈ cs, c ∈ cases) (ex : Bool) (is : List Nat) :
    ∀ (st st' : CatState K), TwinCat L L' f cs st st' → ∃ st1 st1', is.foldlM (catStep T parentImp leafSize ex) st = some st1 ∧
      is.foldlM (catStep T' parentImp leafSize ex) st' = some st1' ∧ TwinCat L L' f cs st1 st1' := by
  induction is with
  | nil => intro st st' h; exact ⟨st, st', rfl, rfl, h⟩
  | cons i is ih =>
    intro st st' h
    obtain ⟨cs1, a1, hp, ho, e⟩ := catStep_pure L parentImp f leafSize hv hcs ex h.perm h.cached h.ok i
    obtain ⟨cs1', a1', hp', ho', e'⟩ := catStep_pure L' parentImp f leafSize hv hcs ex h.perm' h.cached' h.ok' i
    rw [codeStep_agree hE parentImp f leafSize hcs] at e'
    rw [List.foldlM_cons, List.foldlM_cons, e, e']
    exact ih _ _ ⟨hp, hp', rfl, rfl, ho, ho', by simp only [h.rng], by simp only [h.rng, h.best, h.imp, h.constant],
      by simp only [h.rng, h.best, h.imp, h.constant], by simp only [h.rng, h.best, h.imp, h.constant]⟩

include hE in
theorem bestCatSplit_twin (maxEx : Nat) {w w' : Work K} (hv : f.HasVals w.cases) (hcs : ∀ c ∈ w.cases, c ∈ cases)
    (hw : TwinWork L L' w w') : ∃ r w1 w1', f.bestCatSplit T parentImp maxEx leafSize w = some (r, w1) ∧
      f.bestCatSplit T' parentImp maxEx leafSize w' = some (r, w1') ∧ TwinWork L L' w1 w1' := by
  have hm : ∀ {l : List Nat}, l.Perm w.cases → (l.mapM fun c => f.catData[c]?) = some (l.map f.cat) :=
    fun hp => mapM_some fun c hc => hv.eq (hp.mem_iff.1 hc)
  unfold CatFeature.bestCatSplit
  rw [hm (List.Perm.refl _), hm hw.perm]
  simp only [Option.bind_eq_bind, Option.bind_some]
  obtain ⟨st, st', e, e', h⟩ := catFold_twin hE parentImp f leafSize hv hcs (decide (f.cm.nCats ≤ maxEx))
    (List.range' 1 (nPartitions f.cm.nCats maxEx - 1))
    ⟨w.cases, (w.cases.map f.cat).map fun k => 1 <<< k, 0, minImp, true, w.allocs, w.rng⟩
    ⟨w'.cases, (w'.cases.map f.cat).map fun k => 1 <<< k, 0, minImp, true, w'.allocs, w'.rng⟩
    ⟨List.Perm.refl _, hw.perm, by simp, by simp, hw.ok, hw.ok', hw.rng, rfl, rfl, rfl⟩
  rw [e, e']
  simp only [Option.bind_some, h.best, h.imp, h.constant]
  exact ⟨_, _, _, rfl, rfl, h.perm'.trans h.perm.symm, h.ok, h.ok', h.rng⟩

include hE in
theorem bestBinSplit_twin {w w' : Work K} (hv : f.HasVals w.cases) (h2 : ∀ c ∈ w.cases, f.cat c < 2)
    (hcs : ∀ c ∈ w.cases, c ∈ cases) (hw : TwinWork L L' w w') :
    ∃ r w1 w1', f.bestBinSplit T parentImp leafSize w = some (r, w1) ∧
      f.bestBinSplit T' parentImp leafSize w' = some (r, w1') ∧ TwinWork L L' w1 w1' := by
  unfold CatFeature.bestBinSplit
  obtain ⟨c1, m, e, hp, hm, hl, hr⟩ := binPart_ok f w.cases.length w.cases 0 w.cases.length
    (by simp) (by simp) (le_refl _) hv (by simp) (by simp)
  obtain ⟨c1', m', e', hp', hm', hl', hr'⟩ := binPart_ok f w'.cases.length w'.cases 0 w'.cases.length
    (by simp) (by simp) (le_refl _) (fun c hc => hv c (hw.perm.mem_iff.1 hc)) (by simp) (by simp)
  simp only [e, e', Option.bind_eq_bind, Option.bind_some]
  obtain ⟨h3, h4⟩ := filter_take_drop (fun c => f.cat c == 1) c1 m hl hr
  obtain ⟨h3', h4'⟩ := filter_take_drop (fun c => f.cat c == 1) c1' m' hl' hr'
  have hpp : c1'.Perm c1 := (hp'.trans hw.perm).trans hp.symm
  have hpl : (c1'.take m').Perm (c1.take m) := by rw [← h3, ← h3']; exact hpp.filter _
  have hpr : (c1'.drop m').Perm (c1.drop m) := by rw [← h4, ← h4']; exact hpp.filter _
  have hmm : m' = m := by
    have := hpl.length_eq
    rw [List.length_take, List.length_take] at this
    have := hp.length_eq
    have := hp'.length_eq
    omega
  subst hmm
  rw [hpp.length_eq]
  split
  · exact ⟨_, _, _, rfl, rfl, hpp, hw.ok, hw.ok', hw.rng⟩
  · obtain ⟨a, hs, ht⟩ := L.split w.allocs (c1.take m') (c1.drop m') hw.ok (by
      intro c hc
      rw [List.take_append_drop] at hc
      exact hcs c (hp.mem_iff.1 hc))
    obtain ⟨a', hs', ht'⟩ := L'.split w'.allocs (c1'.take m') (c1'.drop m') hw.ok' (by
      intro c hc
      rw [List.take_append_drop] at hc
      exact hcs c (hw.perm.mem_iff.1 (hp'.mem_iff.1 hc)))
    rw [hs, hs', hE.S_perm hpl hpr (by rw [List.take_append_drop]; exact fun c hc => hcs c (hp.mem_iff.1 hc))]
    exact ⟨_, _, _, rfl, rfl, hpp, L.tracks_ok _ _ _ ht, L'.tracks_ok _ _ _ ht', hw.rng⟩

include hE in
/-- The two sides by a code, when they are asked for. -/
theorem sides_twin {w w' : Work K} (hcs : ∀ c ∈ w.cases, c ∈ cases) (hp : w'.cases.Perm w.cases) {a a' : Allocs K}
    (hok : L.Ok a) (hok' : L'.Ok a') (F : Feature K) (code : Coded K) :
    ∃ s a1 a1', T.splitImpurity a (F.lefts code w.cases) (F.rights code w.cases) none = some (s, a1) ∧
      T'.splitImpurity a' (F.lefts code w'.cases) (F.rights code w'.cases) none = some (s, a1') ∧ L.Ok a1 ∧ L'.Ok a1' := by
  have hm : ∀ {l : List Nat}, l.Perm w.cases → ∀ c ∈ F.lefts code l ++ F.rights code l, c ∈ cases := by
    intro l hl c hc
    rcases List.mem_append.1 hc with h | h <;> exact hcs c (hl.mem_iff.1 (List.mem_of_mem_filter h))
  obtain ⟨a1, e, ht⟩ := L.split a _ _ hok (hm (List.Perm.refl _))
  obtain ⟨a1', e', ht'⟩ := L'.split a' _ _ hok' (hm hp)
  have hS : L'.S (F.lefts code w'.cases) (F.rights code w'.cases) = L.S (F.lefts code w.cases) (F.rights code w.cases) :=
    hE.S_perm (hp.filter _) (hp.filter _) (hm (List.Perm.refl _))
  rw [hS] at e'
  exact ⟨_, a1, a1', e, e', L.tracks_ok _ _ _ ht, L'.tracks_ok _ _ _ ht'⟩

include hE in
theorem iterFold_twin {w w' : Work K} (hv : f.HasVals w.cases) (hcs : ∀ c ∈ w.cases, c ∈ cases)
    (hp : w'.cases.Perm w.cases) (best : Nat) (is : List Nat) :
    ∀ (inner : XF K) (split : Nat) (a a' : Allocs K), L.Ok a → L'.Ok a' → ∃ inner1 split1 a1 a1',
      is.foldlM (iterStep f T parentImp leafSize w.cases best) (inner, split, a) = some (inner1, split1, a1) ∧
      is.foldlM (iterStep f T' parentImp leafSize w'.cases best) (inner, split, a') = some (inner1, split1, a1') ∧
      L.Ok a1 ∧ L'.Ok a1' := by
  induction is with
  | nil => intro inner split a a' ho ho'; exact ⟨_, _, _, _, rfl, rfl, ho, ho'⟩
  | cons i is ih =>
    intro inner split a a' ho ho'
    rw [List.foldlM_cons, List.foldlM_cons, iterStep_eq parentImp f leafSize _ hv,
      iterStep_eq parentImp f leafSize _ (fun c hc => hv c (hp.mem_iff.1 hc))]
    simp only [admCode_perm leafSize hp]
    split
    · exact ih _ _ _ _ ho ho'
    · split
      · obtain ⟨s, a1, a1', e, e', h1, h1'⟩ := sides_twin hE hcs hp ho ho' (.cat f) (.int (best ||| 1 <<< i))
        rw [e, e']
        simp only [Option.bind_some]
        split
        · exact ih _ _ _ _ h1 h1'
        · exact ih _ _ _ _ h1 h1'
      · exact ih _ _ _ _ ho ho'

include hE in
theorem iterRounds_twin {w w' : Work K} (hv : f.HasVals w.cases) (hcs : ∀ c ∈ w.cases, c ∈ cases)
    (hp : w'.cases.Perm w.cases) (rounds : Nat) :
    ∀ (best : Nat) (imp : XF K) (a a' : Allocs K), L.Ok a → L'.Ok a' → ∃ best1 imp1 a1 a1',
      iterRounds f T parentImp leafSize w.cases rounds best imp a = some (best1, imp1, a1) ∧
      iterRounds f T' parentImp leafSize w'.cases rounds best imp a' = some (best1, imp1, a1') ∧ L.Ok a1 ∧ L'.Ok a1' := by
  induction rounds with
  | zero => intro best imp a a' ho ho'; exact ⟨_, _, _, _, rfl, rfl, ho, ho'⟩
  | succ n ih =>
    intro best imp a a' ho ho'
    obtain ⟨inner, split, a1, a1', e, e', h1, h1'⟩ := iterFold_twin hE parentImp f leafSize hv hcs hp best
      (List.range f.cm.nCats) imp 0 a a' ho ho'
    rw [iterRounds, iterRounds, e, e']
    simp only [Option.bind_eq_bind, Option.bind_some]
    split
    · exact ih _ _ _ _ h1 h1'
    · exact ⟨_, _, _, _, rfl, rfl, h1, h1'⟩

include hE in
theorem bestCatSplitIter_twin {w w' : Work K} (hv : f.HasVals w.cases) (hcs : ∀ c ∈ w.cases, c ∈ cases)
    (hw : TwinWork L L' w w') : ∃ r w1 w1', f.bestCatSplitIter T parentImp leafSize w = some (r, w1) ∧
      f.bestCatSplitIter T' parentImp leafSize w' = some (r, w1') ∧ TwinWork L L' w1 w1' := by
  obtain ⟨b, imp, a, a', e, e', h, h'⟩ := iterRounds_twin hE parentImp f leafSize hv hcs hw.perm f.cm.nCats 0 minImp
    w.allocs w'.allocs hw.ok hw.ok'
  unfold CatFeature.bestCatSplitIter
  rw [e, e']
  exact ⟨_, _, _, rfl, rfl, hw.perm, h, h', hw.rng⟩

theorem bigStep_eq {cs : List Nat} (hv : f.HasVals cs) (ex : Bool) (st : Nat × XF K × Allocs K × Rng) (i : Nat)
    {b : Nat} {rng : Rng}
    (hb : (if ex then (i, st.2.2.2) else st.2.2.2.below (2 * 2 ^ (f.cm.nCats - 2))) = (b, rng)) :
    bigStep f T parentImp leafSize ex cs st i =
      if AdmCode (.cat (K := K) f) leafSize cs (.int b) then
        (T.splitImpurity st.2.2.1 ((Feature.cat (K := K) f).lefts (.int b) cs)
          ((Feature.cat (K := K) f).rights (.int b) cs) none).bind fun r =>
          if st.2.1 < gain parentImp r.1 then some (b, gain parentImp r.1, r.2, rng)
          else some (st.1, st.2.1, r.2, rng)
      else some (st.1, st.2.1, st.2.2.1, rng) := by
  unfold bigStep
  rw [hb]
  simp only []
  rw [sift_eq _ cs (by intro c hc; rw [hv.eq hc]; simp)]
  have e1 : (cs.filter fun c => (do
      let k ← f.catData[c]?
      some (b.testBit k)) == some true) = (Feature.cat (K := K) f).lefts (.int b) cs := by
    rw [lefts_cat hv]
    apply List.filter_congr
    intro c hc
    rw [hv.eq hc]
    simp only [Option.bind_eq_bind, Option.bind_some]
    cases b.testBit (f.cat c) <;> rfl
  have e2 : (cs.filter fun c => (do
      let k ← f.catData[c]?
      some (b.testBit k)) == some false) = (Feature.cat (K := K) f).rights (.int b) cs := by
    rw [rights_cat hv]
    apply List.filter_congr
    intro c hc
    rw [hv.eq hc]
    simp only [Option.bind_eq_bind, Option.bind_some]
    cases b.testBit (f.cat c) <;> rfl
  rw [e1, e2]
  simp only [Option.bind_eq_bind, Option.bind_some]
  by_cases ha : AdmCode (.cat (K := K) f) leafSize cs (.int b)
  · rw [if_neg (by unfold AdmCode at ha; omega), if_pos ha]
  · rw [if_pos (by unfold AdmCode at ha; omega), if_neg ha]

include hE in
theorem bigFold_twin {w w' : Work K} (hv : f.HasVals w.cases) (hcs : ∀ c ∈ w.cases, c ∈ cases)
    (hp : w'.cases.Perm w.cases) (ex : Bool) (is : List Nat) :
    ∀ (b : Nat) (imp : XF K) (a a' : Allocs K) (rng : Rng), L.Ok a → L'.Ok a' → ∃ b1 imp1 a1 a1' rng1,
      is.foldlM (bigStep f T parentImp leafSize ex w.cases) (b, imp, a, rng) = some (b1, imp1, a1, rng1) ∧
      is.foldlM (bigStep f T' parentImp leafSize ex w'.cases) (b, imp, a', rng) = some (b1, imp1, a1', rng1) ∧
      L.Ok a1 ∧ L'.Ok a1' := by
  induction is with
  | nil => intro b imp a a' rng ho ho'; exact ⟨_, _, _, _, _, rfl, rfl, ho, ho'⟩
  | cons i is ih =>
    intro b imp a a' rng ho ho'
    obtain ⟨c, rng1, hc⟩ : ∃ c rng1, (if ex then (i, rng) else rng.below (2 * 2 ^ (f.cm.nCats - 2))) = (c, rng1) :=
      ⟨_, _, rfl⟩
    rw [List.foldlM_cons, List.foldlM_cons, bigStep_eq parentImp f leafSize hv ex _ i (b := c) (rng := rng1) hc,
      bigStep_eq parentImp f leafSize (fun c hc => hv c (hp.mem_iff.1 hc)) ex _ i (b := c) (rng := rng1) hc]
    simp only [admCode_perm leafSize hp]
    split
    · obtain ⟨s, a1, a1', e, e', h1, h1'⟩ := sides_twin hE hcs hp ho ho' (.cat f) (.int c)
      rw [e, e']
      simp only [Option.bind_some]
      split
      · exact ih _ _ _ _ _ h1 h1'
      · exact ih _ _ _ _ _ h1 h1'
    · exact ih _ _ _ _ _ ho ho'

include hE in
theorem bestCatSplitBig_twin (maxEx : Nat) {w w' : Work K} (hv : f.HasVals w.cases) (hcs : ∀ c ∈ w.cases, c ∈ cases)
    (hw : TwinWork L L' w w') : ∃ r w1 w1', f.bestCatSplitBig T parentImp maxEx leafSize w = some (r, w1) ∧
      f.bestCatSplitBig T' parentImp maxEx leafSize w' = some (r, w1') ∧ TwinWork L L' w1 w1' := by
  obtain ⟨b, imp, a, a', rng, e, e', h, h'⟩ := bigFold_twin hE parentImp f leafSize hv hcs hw.perm
    (decide (f.cm.nCats ≤ maxEx)) (List.range' 1 (nPartitions f.cm.nCats maxEx - 1)) 0 minImp
    w.allocs w'.allocs w.rng hw.ok hw.ok'
  unfold CatFeature.bestCatSplitBig
  rw [hw.rng, e, e']
  exact ⟨_, _, _, rfl, rfl, hw.perm, h, h', rfl⟩

include hE in
/-- The search of a categorical feature. -/
theorem searchCat_twin (rs : Bool) {w w' : Work K} (hr : f.InRange f.cm.nCats w.cases)
    (hcs : ∀ c ∈ w.cases, c ∈ cases) (hw : TwinWork L L' w w') :
    ∃ r w1 w1', (Feature.cat (K := K) f).search T parentImp leafSize rs w = some (r, w1) ∧
      (Feature.cat (K := K) f).search T' parentImp leafSize rs w' = some (r, w1') ∧ TwinWork L L' w1 w1' := by
  have hv : f.HasVals w.cases := fun c hc => (hr c hc).imp fun k hk => hk.1
  unfold Feature.search
  simp only []
  split_ifs with h1 h2 h3 h4
  · obtain ⟨r, w1, w1', e, e', h⟩ := bestCatSplitIter_twin hE parentImp f leafSize hv hcs hw
    rw [bestCatSplitIterBig_eq, bestCatSplitIterBig_eq, e, e']
    exact ⟨_, _, _, rfl, rfl, h⟩
  · exact bestCatSplitIter_twin hE parentImp f leafSize hv hcs hw
  · exact bestCatSplitBig_twin hE parentImp f leafSize 10 hv hcs hw
  · exact bestBinSplit_twin hE parentImp f leafSize hv (by
        intro c hc
        obtain ⟨k, hk, hlt⟩ := hr c hc
        rw [hv.eq hc] at hk; cases hk
        rwa [h4] at hlt) hcs hw
  · exact bestCatSplit_twin hE parentImp f leafSize 10 hv hcs hw

end
end CloudForest
