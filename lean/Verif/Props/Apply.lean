import Verif.Lemmas.Apply
import Verif.Props.Splitter
import Verif.Props.Sf

/-!
# Properties C97 and C98: predictions and vote totals of applyforest
-/

set_option linter.unusedSectionVars false

namespace CloudForest
variable {K : Type} [Field K] [LinearOrder K] [IsStrictOrderedRing K]

/-- All trees vote in the box that is chosen. -/
theorem applyForest_casts (nt : NumText K) (o : ApplyOptions) (forest : Forest K) (fm : FeatureMatrix K) (n : Nat)
    (hc : fm.allCases = some (List.range n)) (hf : forest.Fits fm) :
    ∃ fv : List (FVote K), fv.Perm (forestVotes fm n forest.trees) ∧
      applyForest nt o forest fm = (chooseBox o forest.target n).castVotes nt (fv.map FVote.ballot) := by
  obtain ⟨fv, h1, h2⟩ := forest_casts nt hc forest.trees fun t ht => ⟨(hf t ht).1, (hf t ht).2 _ hc⟩
  refine ⟨fv, h1, ?_⟩
  obtain ⟨f, hf0, hlen⟩ : ∃ f, fm.data[0]? = some f ∧ f.length = n := by
    simp only [FeatureMatrix.allCases, Option.bind_eq_bind, Option.bind_eq_some_iff] at hc
    obtain ⟨f, h, hr⟩ := hc
    refine ⟨f, h, ?_⟩
    have := congrArg List.length (Option.some.inj hr)
    simpa using this
  unfold applyForest
  simp only [hf0, Option.bind_eq_bind, Option.bind_some, hlen]
  exact h2 _

/-- Which box is chosen: for `-sum` sums; else for `-mode`, and without `-mean` for a target not called `N…`,
classes; else means. -/
theorem chooseBox_eq (o : ApplyOptions) (target : String) (size : Nat) :
    (o.sum = true → chooseBox (K := K) o target size = .sum (.new size)) ∧
    (o.sum = false → (o.cat = true ∨ o.num = false ∧ target.toList.head? ≠ some 'N') →
      chooseBox (K := K) o target size = .cat (.new size)) ∧
    (o.sum = false → o.cat = false → (o.num = true ∨ target.toList.head? = some 'N') →
      chooseBox (K := K) o target size = .num (.new size)) := by
  have hp : ['N'].isPrefixOf target.toList = decide (target.toList.head? = some 'N') := by
    cases h : target.toList with
    | nil => rfl
    | cons c s =>
      by_cases hc : 'N' = c
      · subst hc; simp [List.isPrefixOf]
      · simp [List.isPrefixOf, hc, Ne.symm hc]
  refine ⟨fun h => ?_, fun h h' => ?_, fun h h1 h2 => ?_⟩
  · simp [chooseBox, h]
  · rcases h' with h' | ⟨h1, h2⟩
    · simp [chooseBox, h, h']
    · simp [chooseBox, h, h1, hp, h2]
  · rcases h2 with h2 | h2
    · simp [chooseBox, h, h1, h2]
    · simp [chooseBox, h, h1, hp, h2]

/-- **C97**, classes: a class for which trees of the largest total weight vote is written for each case, in
whatever order Go looks at the votes, and "NA" if no tree of positive weight predicts the case. -/
theorem c97_classes (nt : NumText K) (tanh : XF K → XF K) (o : ApplyOptions) (forest : Forest K) (fm : FeatureMatrix K)
    (n : Nat) (hc : fm.allCases = some (List.range n)) (hf : forest.Fits fm) (hi : forest.intercept = .fin 0)
    (hsum : o.sum = false) (hcat : o.cat = true ∨ o.num = false ∧ forest.target.toList.head? ≠ some 'N') :
    ∃ bb, applyForest nt o forest fm = some bb ∧ ∀ i < n,
      (∃ res, bb.Predicts nt tanh o forest.intercept i res) ∧
      ∀ res, bb.Predicts nt tanh o forest.intercept i res → ∃ p, res = some p ∧
        ((p = "NA" ∧ ∀ q, weightOf fm forest.trees i q ≤ 0) ∨
         (0 < weightOf fm forest.trees i p ∧ ∀ q, weightOf fm forest.trees i q ≤ weightOf fm forest.trees i p)) := by
  obtain ⟨fv, h1, h2⟩ := applyForest_casts nt o forest fm n hc hf
  obtain ⟨bb, e, hb⟩ := c25_tally n fv fun v hv => (mem_forestVotes (h1.mem_iff.1 hv)).1
  rw [(chooseBox_eq o forest.target n).2.1 hsum hcat] at h2
  refine ⟨.cat bb, by rw [h2, Box.castVotes, e]; rfl, fun i hi' => ?_⟩
  have hw : ∀ q, weightFor fv i q = weightOf fm forest.trees i q := fun q =>
    (weightFor_perm h1 i q).trans (weightFor_forest fm n forest.trees i hi' q)
  have hp : ∀ res, (Box.cat bb).Predicts nt tanh o forest.intercept i res ↔ bb.Tallies i res := by
    intro res
    unfold Box.Predicts
    rw [if_neg (by simp [hsum, hi])]
    rfl
  simp only [hp]
  simpa only [hw] using hb i hi'

/-- What `-expit` does to a number. -/
def ApplyOptions.transform (o : ApplyOptions) (tanh : XF K → XF K) (x : XF K) : XF K :=
  if o.expit then CloudForest.expit tanh x else x

/-- **C97**, means: the weighted mean of the numbers predicted by the trees, plus the intercept. With an
intercept that is not zero the number is transformed as `-expit` asks, and a case without predictions gets the
intercept; otherwise it is not transformed (`c97_expit_skipped`), and such a case gets "NA". -/
theorem c97_mean_partial (nt : NumText K) (tanh : XF K → XF K) (o : ApplyOptions) (forest : Forest K)
    (fm : FeatureMatrix K) (n : Nat) (c : K) (hc : fm.allCases = some (List.range n)) (hf : forest.Fits fm)
    (hi : forest.intercept = .fin c) (hsum : o.sum = false) (hcat : o.cat = false)
    (hnum : o.num = true ∨ forest.target.toList.head? = some 'N') (hpos : ∀ t ∈ forest.trees, 0 < t.say)
    (hfin : ∀ t ∈ forest.trees, ∀ i < n, ∀ p x, t.opinion fm i = some p → nt.parse p.toList = some x →
      x = .nan ∨ ∃ y, x = .fin y) :
    ∃ bb, applyForest nt o forest fm = some bb ∧ ∀ i < n, ∀ res,
      (bb.Predicts nt tanh o forest.intercept i res ↔
        res = some (if c = 0 then
            (if numbersOf nt fm forest.trees i = [] then "NA" else
              String.ofList (nt.fmt (.fin (weightedSum (numbersOf nt fm forest.trees i) /
                totalWeight (numbersOf nt fm forest.trees i)))))
          else
            String.ofList (nt.fmt (o.transform tanh (.fin
              ((if numbersOf nt fm forest.trees i = [] then 0 else
                weightedSum (numbersOf nt fm forest.trees i) / totalWeight (numbersOf nt fm forest.trees i)) + c)))))) := by
  obtain ⟨fv, h1, h2⟩ := applyForest_casts nt o forest fm n hc hf
  have hv : ∀ v ∈ fv, v.case < n ∧ 0 < v.weight ∧ ∀ x, nt.parse v.pred.toList = some x →
      x = .nan ∨ ∃ y, x = .fin y := by
    intro v hv
    obtain ⟨h3, t, ht, h4, h5⟩ := mem_forestVotes (h1.mem_iff.1 hv)
    exact ⟨h3, by rw [h5]; exact hpos t ht, fun x hx => hfin t ht v.case h3 _ x h4 hx⟩
  obtain ⟨bb, e, hb⟩ := castAll_inv (NumBox.vote fun s => nt.parse s.toList) (NumBoxInv (fun s => nt.parse s.toList) n)
    (fun v => v.case < n ∧ 0 < v.weight ∧ ∀ x, nt.parse v.pred.toList = some x → x = .nan ∨ ∃ y, x = .fin y) _
    (numBox_inv_new _ n) (fun _ _ v hb hv => numBox_vote hb v hv.1 hv.2.2 (.inl hv.2.1)) fv hv
  rw [(chooseBox_eq o forest.target n).2.2 hsum hcat hnum] at h2
  refine ⟨.num bb, by rw [h2, Box.castVotes, e]; rfl, fun i hi' res => ?_⟩
  obtain ⟨m, hm⟩ : ∃ m, bb[i]? = some m := ⟨_, List.getElem?_eq_getElem (by rw [hb.len]; exact hi')⟩
  have hperm : (numVotes (fun s => nt.parse s.toList) fv i).Perm (numbersOf nt fm forest.trees i) := by
    rw [← numVotes_forest nt fm n forest.trees i hi']
    exact h1.filterMap _
  have hs : weightedSum (numVotes (fun s => nt.parse s.toList) fv i) = weightedSum (numbersOf nt fm forest.trees i) :=
    (hperm.map _).sum_eq
  have ht : totalWeight (numVotes (fun s => nt.parse s.toList) fv i) = totalWeight (numbersOf nt fm forest.trees i) :=
    (hperm.map _).sum_eq
  have hz : numVotes (fun s => nt.parse s.toList) fv i = [] ↔ numbersOf nt fm forest.trees i = [] := by
    constructor <;> intro h <;> rw [h] at hperm
    · exact List.nil_perm.1 hperm
    · exact List.perm_nil.1 hperm
  unfold Box.Predicts
  rw [hi]
  rcases hb.vals i m hm with ⟨hnil, rfl⟩ | ⟨hp, rfl⟩
  · have hnil := hz.1 hnil
    by_cases h0 : c = 0
    · rw [if_neg (by simp [hsum, h0]), if_pos h0, if_pos hnil]
      simp only [Box.Tallies, NumBox.tally, hm, Option.bind_eq_bind, Option.bind_some, RunningMean.new]
      rw [if_neg (show ¬ (XF.fin 0 : XF K) < .fin 0 from lt_irrefl _)]
    · rw [if_pos (by simp [h0]), if_neg h0, if_pos hnil]
      simp only [Box.number, NumBox.tallyNum, hm, Option.bind_eq_bind, Option.bind_some, RunningMean.new,
        Option.map_some, XF.fin_add]
      rfl
  · have hne : numbersOf nt fm forest.trees i ≠ [] := by
      intro h
      rw [hz.2 h] at hp
      simp [totalWeight] at hp
    by_cases h0 : c = 0
    · rw [if_neg (by simp [hsum, h0]), if_pos h0, if_neg hne]
      simp only [Box.Tallies, NumBox.tally, hm, Option.bind_eq_bind, Option.bind_some]
      rw [if_pos (show (XF.fin 0 : XF K) < .fin _ from hp), hs, ht]
    · rw [if_pos (by simp [h0]), if_neg h0, if_neg hne]
      simp only [Box.number, NumBox.tallyNum, hm, Option.bind_eq_bind, Option.bind_some,
        Option.map_some, XF.fin_add, hs, ht]
      rfl

/-- **C97**, sums: with `-sum` the weighted sum of the numbers predicted by the trees plus the intercept, as
`-expit` transforms it. -/
theorem c97_sum (nt : NumText K) (tanh : XF K → XF K) (o : ApplyOptions) (forest : Forest K)
    (fm : FeatureMatrix K) (n : Nat) (c : K) (hc : fm.allCases = some (List.range n)) (hf : forest.Fits fm)
    (hi : forest.intercept = .fin c) (hsum : o.sum = true)
    (hfin : ∀ t ∈ forest.trees, ∀ i < n, ∀ p x, t.opinion fm i = some p → nt.parse p.toList = some x →
      ∃ y, x = .fin y) :
    ∃ bb, applyForest nt o forest fm = some bb ∧ ∀ i < n, ∀ res,
      (bb.Predicts nt tanh o forest.intercept i res ↔
        res = some (String.ofList (nt.fmt (o.transform tanh
          (.fin (weightedSum (numbersOf nt fm forest.trees i) + c)))))) := by
  obtain ⟨fv, h1, h2⟩ := applyForest_casts nt o forest fm n hc hf
  obtain ⟨bb, e, hb⟩ := c26_sum (fun s => nt.parse s.toList) n fv (by
    intro v hv
    obtain ⟨h3, t, ht, h4, -⟩ := mem_forestVotes (h1.mem_iff.1 hv)
    exact ⟨h3, fun x hx => hfin t ht v.case h3 _ x h4 hx⟩)
  rw [(chooseBox_eq o forest.target n).1 hsum] at h2
  refine ⟨.sum bb, by rw [h2, Box.castVotes, e]; rfl, fun i hi' res => ?_⟩
  have hperm : (numVotes (fun s => nt.parse s.toList) fv i).Perm (numbersOf nt fm forest.trees i) := by
    rw [← numVotes_forest nt fm n forest.trees i hi']
    exact h1.filterMap _
  have hs : weightedSum (numVotes (fun s => nt.parse s.toList) fv i) = weightedSum (numbersOf nt fm forest.trees i) :=
    (hperm.map _).sum_eq
  unfold Box.Predicts
  rw [if_pos (.inl hsum), hi]
  simp only [Box.number, hb i hi', Option.bind_eq_bind, Option.bind_some, Option.map_some, XF.fin_add, hs]
  rfl

/-- **C97** fails of `-expit`: without `-sum` and with an intercept of zero it is ignored. -/
theorem c97_expit_skipped (nt : NumText K) (tanh : XF K → XF K) (o : ApplyOptions) (bb : Box K) (hsum : o.sum = false)
    (i : Nat) (res : Option String) :
    bb.Predicts nt tanh { o with expit := true } (.fin 0) i res ↔
      bb.Predicts nt tanh { o with expit := false } (.fin 0) i res := by
  unfold Box.Predicts
  rw [if_neg (by simp [hsum]), if_neg (by simp [hsum])]

/-- **C97** fails for a target of classes whose name begins with N: no option given, the classes are taken for
numbers, and every case is "NA". -/
theorem c97_name (nt : NumText K) (tanh : XF K → XF K) (o : ApplyOptions) (forest : Forest K) (fm : FeatureMatrix K)
    (n : Nat) (hc : fm.allCases = some (List.range n)) (hf : forest.Fits fm) (hi : forest.intercept = .fin 0)
    (hsum : o.sum = false) (hcat : o.cat = false) (hN : forest.target.toList.head? = some 'N')
    (hpos : ∀ t ∈ forest.trees, 0 < t.say)
    (hclass : ∀ t ∈ forest.trees, ∀ i < n, ∀ p, t.opinion fm i = some p → nt.parse p.toList = none) :
    ∃ bb, applyForest nt o forest fm = some bb ∧ ∀ i < n, ∀ res,
      bb.Predicts nt tanh o forest.intercept i res ↔ res = some "NA" := by
  obtain ⟨bb, h1, h2⟩ := c97_mean_partial nt tanh o forest fm n 0 hc hf hi hsum hcat (.inr hN) hpos
    (fun t ht i hi p x hp hx => by rw [hclass t ht i hi p hp] at hx; cases hx)
  refine ⟨bb, h1, fun i hi' res => ?_⟩
  rw [h2 i hi' res, if_pos rfl, if_pos]
  unfold numbersOf
  rw [List.filterMap_eq_nil_iff]
  intro t ht
  cases h : t.opinion fm i with
  | none => rfl
  | some p => rw [Option.bind_some, hclass t ht i hi' p h]

/-- **C97** fails of the error: it does not depend on the intercept, and with `-sum` it is always one. -/
theorem c97_error (nt : NumText K) (o : ApplyOptions) (forest : Forest K) (c : XF K) (fm : FeatureMatrix K) (bb : Box K)
    (tally : Nat → Option String) (target : Feature K) (h : applyForest nt o forest fm = some bb) :
    (applyForest nt o { forest with intercept := c } fm = some bb) ∧
    (o.sum = true → forest.Fits fm → bb.error tally target = some (.fin 1)) := by
  refine ⟨h, fun hs hf => ?_⟩
  obtain ⟨f, hf0, h'⟩ := Option.bind_eq_some_iff.1 h
  have hc : fm.allCases = some (List.range f.length) := by
    simp only [FeatureMatrix.allCases, hf0, Option.bind_eq_bind, Option.bind_some]
  obtain ⟨fv, h1, h2⟩ := applyForest_casts nt o forest fm f.length hc hf
  rw [h, (chooseBox_eq o forest.target f.length).1 hs, Box.castVotes] at h2
  obtain ⟨b, -, rfl⟩ := Option.map_eq_some_iff.1 h2.symm
  rfl

/-! ## C98: vote totals -/

theorem entryOf_mem {m : List (Nat × XF K)} (hn : (m.map (·.1)).Nodup) {k : Nat} {x : XF K} (h : (k, x) ∈ m) :
    entryOf m k = x := by
  unfold entryOf
  cases h1 : m.find? (fun e => e.1 == k) with
  | none =>
    have := List.find?_eq_none.1 h1 _ h
    simp at this
  | some e =>
    have h2 := List.mem_of_find?_eq_some h1
    have h3 := List.find?_some h1
    simp only [beq_iff_eq] at h3
    obtain ⟨k', x'⟩ := e
    simp only at h3 ⊢
    subst h3
    have := (List.nodup_map_iff_inj_on (List.Nodup.of_map _ hn)).1 hn _ h2 _ h rfl
    cases this
    rfl

theorem entryOf_none {m : List (Nat × XF K)} {k : Nat} (h : ∀ x, (k, x) ∉ m) : entryOf m k = .fin 0 := by
  unfold entryOf
  cases h1 : m.find? (fun e => e.1 == k) with
  | none => rfl
  | some e =>
    have h2 := List.mem_of_find?_eq_some h1
    have h3 := List.find?_some h1
    simp only [beq_iff_eq] at h3
    obtain ⟨k', x'⟩ := e
    simp only at h3
    subst h3
    exact absurd h2 (h x')

/-- The categories of a box after votes are those it had and those voted for. -/
theorem castAll_labels (vs : List (Ballot K)) : ∀ (bb bb' : CatBox K), castAll CatBox.vote bb vs = some bb' →
    ∀ p ∈ bb'.cm.back, p ∈ bb.cm.back ∨ ∃ v ∈ vs, v.pred = p := by
  induction vs with
  | nil =>
    intro bb bb' h p hp
    cases h
    exact .inl hp
  | cons v vs ih =>
    intro bb bb' h p hp
    obtain ⟨b1, h1, h2⟩ := Option.bind_eq_some_iff.1 (show (CatBox.vote bb v.case v.pred v.weight).bind
      (fun b => castAll CatBox.vote b vs) = some bb' by simpa [castAll, List.foldlM_cons] using h)
    rcases ih b1 bb' h2 p hp with h3 | ⟨w, hw, h3⟩
    · obtain ⟨m, -, hb⟩ := Option.bind_eq_some_iff.1 h1
      cases hb
      simp only [CatMap.catToNum] at h3
      split at h3
      · exact .inl h3
      · rcases List.mem_append.1 h3 with h3 | h3
        · exact .inl h3
        · exact .inr ⟨v, by simp, (List.mem_singleton.1 h3).symm⟩
    · exact .inr ⟨w, by simp [hw], h3⟩

/-- **C98**: the table of vote totals has one column for each class that some tree predicts for some case, and a
row for each case. The entry of a case and a class is the total weight of the trees that predict the class for
the case. -/
theorem c98_votes (nt : NumText K) (o : ApplyOptions) (forest : Forest K) (fm : FeatureMatrix K) (n : Nat)
    (hc : fm.allCases = some (List.range n)) (hf : forest.Fits fm) (hsum : o.sum = false)
    (hcat : o.cat = true ∨ o.num = false ∧ forest.target.toList.head? ≠ some 'N') :
    ∃ bb labels rows, applyForest nt o forest fm = some bb ∧ bb.voteTable = some (labels, rows) ∧ labels.Nodup ∧
      (∀ p, p ∈ labels ↔ ∃ i < n, ∃ t ∈ forest.trees, t.opinion fm i = some p) ∧ rows.length = n ∧
      ∀ i < n, ∃ row, rows[i]? = some row ∧ row.length = labels.length ∧
        ∀ (j : Nat) (p : String), labels[j]? = some p → row[j]? = some (.fin (weightOf fm forest.trees i p)) := by
  obtain ⟨fv, h1, h2⟩ := applyForest_casts nt o forest fm n hc hf
  obtain ⟨bb, e, hb⟩ := catBox_castAll n fv fun v hv => (mem_forestVotes (h1.mem_iff.1 hv)).1
  rw [(chooseBox_eq o forest.target n).2.1 hsum hcat] at h2
  refine ⟨.cat bb, _, _, by rw [h2, Box.castVotes, e]; rfl, rfl, ?_, ?_, ?_, ?_⟩
  · exact hb.wf.nodup
  · intro p
    constructor
    · intro hp
      rcases castAll_labels _ _ _ e p hp with h3 | ⟨v, hv, rfl⟩
      · cases h3
      · obtain ⟨w, hw, rfl⟩ := List.mem_map.1 hv
        obtain ⟨h3, t, ht, h4, -⟩ := mem_forestVotes (h1.mem_iff.1 hw)
        exact ⟨w.case, h3, t, ht, h4⟩
    · rintro ⟨i, hi, t, ht, hp⟩
      have : (⟨i, p, t.say⟩ : FVote K) ∈ fv := by
        rw [h1.mem_iff]
        simp only [forestVotes, List.mem_flatMap, List.mem_filterMap, List.mem_range, Option.map_eq_some_iff]
        exact ⟨t, ht, i, hi, p, hp, rfl⟩
      exact hb.known _ this
  · simp [hb.len]
  · intro i hi
    obtain ⟨m, hm⟩ : ∃ m, bb.box[i]? = some m := ⟨_, List.getElem?_eq_getElem (by rw [hb.len]; exact hi)⟩
    refine ⟨_, by rw [List.getElem?_map, hm]; rfl, by simp, fun j p hj => ?_⟩
    have hlt : j < bb.cm.back.length := (List.getElem?_eq_some_iff.1 hj).1
    rw [List.getElem?_map, List.getElem?_range hlt, Option.map_some]
    congr 1
    rw [← weightFor_forest fm n forest.trees i hi p, ← weightFor_perm h1 i p]
    by_cases hex : ∃ v ∈ fv, v.case = i ∧ v.pred = p
    · exact entryOf_mem (hb.nodup i m hm) ((hb.mem i m hm j _).2 ⟨p, hj, rfl, hex⟩)
    · rw [weightFor_none hex]
      refine entryOf_none fun x hx => ?_
      obtain ⟨p', hp', -, h⟩ := (hb.mem i m hm j x).1 hx
      rw [hj] at hp'
      cases hp'
      exact hex h

/-! ## Forests used in the examples -/

/-- A tree that is a leaf. -/
def leafTree (p : String) (w : ℚ) : Tree ℚ := ⟨.mk none 0 .nil .nil .nil p none, "", .fin w⟩

/-- The example tree, a leaf that agrees with it on some cases, and one of negative weight. -/
def exApply (target : String) : Forest ℚ := ⟨target, [exTree, leafTree "x" 1, leafTree "y" (-1)], .fin 0⟩

theorem exFM_cases : exFM.allCases = some (List.range 5) := by decide

theorem exApply_fits (target : String) : (exApply target).Fits exFM := by
  intro t ht
  simp only [exApply, List.mem_cons, List.not_mem_nil, or_false] at ht
  rcases ht with rfl | rfl | rfl
  · refine ⟨⟨2, rfl⟩, fun cases h => ?_⟩
    rw [exFM_cases] at h
    cases h
    have hv : ∀ c ∈ List.range 5, (Feature.cat (K := ℚ) exCat).ValidCase c := by
      intro c hc
      apply exCat_valid
      revert c; decide
    exact ⟨⟨.cat exCat, rfl, trivial, fun _ _ => rfl, hv⟩, ⟨⟨.cat exCat, rfl,
      fun _ _ => rfl, hv⟩, ⟨rfl, rfl⟩, ⟨rfl, rfl⟩, .inl rfl⟩, ⟨rfl, rfl⟩, .inr ⟨rfl, rfl⟩⟩
  · exact ⟨⟨1, rfl⟩, fun _ _ => ⟨rfl, rfl⟩⟩
  · exact ⟨⟨-1, rfl⟩, fun _ _ => ⟨rfl, rfl⟩⟩

/-- Five cases, votes for four classes. -/
example : (exApply "C:t").intercept = .fin 0 ∧ "C:t".toList.head? ≠ some 'N' ∧
    ([0, 1, 2].map fun i => ["x", "y", "z", "w"].map (weightOf exFM (exApply "C:t").trees i)) =
      [[1, 1, 2, 0], [3, 1, 0, 0], [1, 1, 0, 2]] ∧
    ((applyForest exNums ⟨false, false, false, false⟩ (exApply "C:t") exFM).bind Box.voteTable) =
      some (["x", "y", "z", "w"], [[.fin 1, .fin 1, .fin 2, .fin 0], [.fin 3, .fin 1, .fin 0, .fin 0],
        [.fin 1, .fin 1, .fin 0, .fin 2], [.fin 1, .fin 3, .fin 0, .fin 0], [.fin 3, .fin 1, .fin 0, .fin 0]]) :=
  ⟨rfl, by decide, by decide +kernel, by decide +kernel⟩

/-- Called `Nation`, the same target gets numerical votes. -/
example : "Nation".toList.head? = some 'N' ∧ (∀ t ∈ (exApply "Nation").trees, 0 < t.say) ∧
    (∀ t ∈ (exApply "Nation").trees, ∀ i < 5, ∀ p, t.opinion exFM i = some p → exNums.parse p.toList = none) := by
  refine ⟨by decide, ?_, ?_⟩
  · intro t ht
    simp only [exApply, List.mem_cons, List.not_mem_nil, or_false] at ht
    rcases ht with rfl | rfl | rfl <;> decide +kernel
  · have : ∀ t ∈ (exApply "Nation").trees, ∀ i < 5,
        ((t.opinion exFM i).bind fun p => exNums.parse p.toList) = none := by decide +kernel
    intro t ht i hi p hp
    simpa [hp] using this t ht i hi

/-- Two numbers and a word, with an intercept. -/
def exBoosted : Forest ℚ := ⟨"N:y", [leafTree "2" 1, leafTree "0.5" 3, leafTree "no" 1], .fin 1⟩

theorem exBoosted_fits : exBoosted.Fits exFM := by
  intro t ht
  simp only [exBoosted, List.mem_cons, List.not_mem_nil, or_false] at ht
  rcases ht with rfl | rfl | rfl
  · exact ⟨⟨1, rfl⟩, fun _ _ => ⟨rfl, rfl⟩⟩
  · exact ⟨⟨3, rfl⟩, fun _ _ => ⟨rfl, rfl⟩⟩
  · exact ⟨⟨1, rfl⟩, fun _ _ => ⟨rfl, rfl⟩⟩

theorem exBoosted_numbers : ∀ t ∈ exBoosted.trees, ∀ i < 5, ∀ p x, t.opinion exFM i = some p →
    exNums.parse p.toList = some x → ∃ y, x = .fin y := by
  have : ∀ t ∈ exBoosted.trees, ∀ i < 5, ((t.opinion exFM i).bind fun p => exNums.parse p.toList) = none ∨
      ((t.opinion exFM i).bind fun p => exNums.parse p.toList) = some (.fin 2) ∨
      ((t.opinion exFM i).bind fun p => exNums.parse p.toList) = some (.fin (1 / 2)) := by decide +kernel
  intro t ht i hi p x hp hx
  rcases this t ht i hi with h | h | h <;> rw [hp, Option.bind_some, hx] at h <;> cases h
  · exact ⟨_, rfl⟩
  · exact ⟨_, rfl⟩

example : (∀ t ∈ exBoosted.trees, 0 < t.say) ∧ numbersOf exNums exFM exBoosted.trees 3 = [(2, 1), (1 / 2, 3)] ∧
    ((applyForest exNums ⟨false, false, false, false⟩ exBoosted exFM).bind fun bb =>
      bb.number id ⟨false, false, false, false⟩ (.fin 1) 3) = some (.fin (15 / 8)) ∧
    ((applyForest exNums ⟨false, true, false, false⟩ exBoosted exFM).bind fun bb =>
      bb.number id ⟨false, true, false, false⟩ (.fin 1) 3) = some (.fin (9 / 2)) :=
  ⟨by decide +kernel, by decide +kernel, by decide +kernel, by decide +kernel⟩

/-- Two cases of a numerical target. -/
def exActual : NumFeature ℚ := ⟨[.fin 3, .fin (3 / 2)], [false, false], "N:y", false⟩

/-- A matrix of that target only. -/
def exActualFM : FeatureMatrix ℚ := .push ⟨[], fun _ => none, ["p", "q"]⟩ (.num exActual)

/-- A forest that is right about both cases, with its intercept. -/
def exRight : Forest ℚ :=
  ⟨"N:y", [⟨.mk none 0 (leafTree "0.5" 1).root (leafTree "2" 1).root .nil "" (some ⟨"N:y", true, .fin 2, []⟩), "",
    .fin 1⟩], .fin 1⟩

/-- **C97** fails of the error: all predictions that are written are right, but the error is not zero. -/
theorem c97_error_witness :
    ((applyForest exNums ⟨false, false, false, false⟩ exRight exActualFM).map fun bb =>
      ([0, 1].map fun i => bb.number id ⟨false, false, false, false⟩ exRight.intercept i,
        bb.error (fun _ => none) (.num exActual))) =
    some ([exActual.numData[0]?, exActual.numData[1]?], some (.fin (16 / 9))) := by decide +kernel

end CloudForest
