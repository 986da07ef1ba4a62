import Verif.Model.ApplyWhole
import Verif.Spec.ApplyWhole
import Verif.Props.Commands
import Verif.Lemmas.CostCommand
import Verif.Props.Ballot

/-!
Boxes of applyforest, and what is reported of them.
-/

set_option linter.unusedSectionVars false

namespace CloudForest
variable {K : Type} [Field K] [LinearOrder K] [IsStrictOrderedRing K]

theorem apply_numbers (nt : NumText K) (o : ApplyOptions) (forest : Forest K)
    (fm : FeatureMatrix K) (n : Nat) (hc : fm.allCases = some (List.range n)) (hf : forest.Fits fm)
    (hsum : o.sum = false) (hcat : o.cat = false)
    (hnum : o.num = true ∨ forest.target.toList.head? = some 'N') (hpos : ∀ t ∈ forest.trees, 0 < t.say)
    (hfin : ∀ t ∈ forest.trees, ∀ i < n, ∀ p x, t.opinion fm i = some p → nt.parse p.toList = some x →
      x = .nan ∨ ∃ y, x = .fin y) :
    ∃ bb, applyForest nt o forest fm = some (.num bb) ∧ ∀ i < n, bb.tallyNum i = some (.fin (weightedSum (numbersOf nt fm forest.trees i) /
        totalWeight (numbersOf nt fm forest.trees i))) := by
  obtain ⟨fv, h1, h2⟩ := applyForest_casts nt o forest fm n hc hf
  have hv : ∀ v ∈ fv, v.case < n ∧ 0 < v.weight ∧ ∀ x, nt.parse v.pred.toList = some x →
      x = .nan ∨ ∃ y, x = .fin y := by
    intro v hv
    obtain ⟨h3, t, ht, h4, h5⟩ := mem_forestVotes (h1.mem_iff.1 hv)
    exact ⟨h3, by rw [h5]; exact hpos t ht, fun x hx => hfin t ht v.case h3 _ x h4 hx⟩
  obtain ⟨bb, e, hb⟩ := castAll_inv (NumBox.vote fun s => nt.parse s.toList) (NumBoxInv (fun s => nt.parse s.toList) n)
    (fun v => v.case < n ∧ 0 < v.weight ∧ ∀ x, nt.parse v.pred.toList = some x → x = .nan ∨ ∃ y, x = .fin y) _
    (numBox_inv_new _ n) (fun _ _ v hb hv => numBox_vote hb v hv.1 hv.2.2 (.inl hv.2.1)) fv hv
  rw [(chooseBox_eq o forest.target n).2.2 hsum hcat hnum] at h2
  refine ⟨bb, by rw [h2, Box.castVotes, e]; rfl, fun i hi' => ?_⟩
  obtain ⟨m, hm⟩ : ∃ m, bb[i]? = some m := ⟨_, List.getElem?_eq_getElem (by rw [hb.len]; exact hi')⟩
  have hperm : (numVotes (fun s => nt.parse s.toList) fv i).Perm (numbersOf nt fm forest.trees i) := by
    rw [← numVotes_forest nt fm n forest.trees i hi']
    exact h1.filterMap _
  have hs : weightedSum (numVotes (fun s => nt.parse s.toList) fv i) = weightedSum (numbersOf nt fm forest.trees i) :=
    (hperm.map _).sum_eq
  have ht : totalWeight (numVotes (fun s => nt.parse s.toList) fv i) = totalWeight (numbersOf nt fm forest.trees i) :=
    (hperm.map _).sum_eq
  have hz : numVotes (fun s => nt.parse s.toList) fv i = [] ↔ numbersOf nt fm forest.trees i = [] := by
    constructor <;> intro h <;> rw [h] at hperm
    · exact List.nil_perm.1 hperm
    · exact List.perm_nil.1 hperm
  unfold NumBox.tallyNum
  rw [hm]
  rcases hb.vals i m hm with ⟨hnil, rfl⟩ | ⟨hp, rfl⟩
  · rw [hz.1 hnil]
    simp [RunningMean.new, weightedSum, totalWeight]
  · rw [← hs, ← ht]
    rfl

theorem castVotes_cat {nt : NumText K} {b : CatBox K} {vs : List (Ballot K)} {bb : Box K} (h : (Box.cat b).castVotes nt vs = some bb) :
    ∃ b', bb = .cat b' := by
  obtain ⟨b', -, rfl⟩ := Option.map_eq_some_iff.1 h
  exact ⟨b', rfl⟩

theorem apply_cat {nt : NumText K} {o : ApplyOptions} {forest : Forest K} {fm : FeatureMatrix K} {bb : Box K}
    (h : applyForest nt o forest fm = some bb) (hsum : o.sum = false)
    (hcat : o.cat = true ∨ o.num = false ∧ forest.target.toList.head? ≠ some 'N') : ∃ b, bb = .cat b := by
  obtain ⟨f, -, h⟩ := Option.bind_eq_some_iff.1 h
  rw [(chooseBox_eq o forest.target f.length).2.1 hsum hcat] at h
  have key : ∀ (ts : List (Tree K)) (b : CatBox K) (bb : Box K), ts.foldlM (fun bb t => do
      let votes ← t.vote fm
      bb.castVotes nt votes) (Box.cat b) = some bb → ∃ b, bb = .cat b := by
    intro ts
    induction ts with
    | nil => intro b bb h; cases h; exact ⟨b, rfl⟩
    | cons t ts ih =>
      intro b bb h
      rw [List.foldlM_cons] at h
      obtain ⟨b1, h1, h2⟩ := Option.bind_eq_some_iff.1 h
      obtain ⟨vs, -, h3⟩ := Option.bind_eq_some_iff.1 h1
      obtain ⟨b', rfl⟩ := castVotes_cat h3
      exact ih b' bb h2
  exact key _ _ _ h

theorem mapM_total {α β : Type} {g : α → Option β} : ∀ {l : List α}, (∀ x ∈ l, ∃ y, g x = some y) → ∃ ys : List β, l.mapM g = some ys ∧
    ys.length = l.length ∧ ∀ (i : Nat) (x : α), l[i]? = some x → ys[i]? = g x
  | [], _ => ⟨[], rfl, rfl, by simp⟩
  | x :: l, h => by
    obtain ⟨y, hy⟩ := h x (by simp)
    obtain ⟨ys, h1, h2, h3⟩ := mapM_total (l := l) fun z hz => h z (by simp [hz])
    refine ⟨y :: ys, by simp [List.mapM_cons, hy, h1], by simp [h2], fun i z hz => ?_⟩
    cases i with
    | zero =>
      simp only [List.getElem?_cons_zero, Option.some.injEq] at hz ⊢
      rw [← hz, hy]
    | succ i =>
      rw [List.getElem?_cons_succ] at hz ⊢
      exact h3 i z hz

/-- The target is found by its name. -/
theorem target_found {nt : NumText K} {text : Text} {fm : FeatureMatrix K} (hp : parseAFM nt text = some fm)
    (hn : (fm.data.map Feature.name).Nodup) {F : Feature K} (hF : F ∈ fm.data) :
    ∃ i, fm.map F.name = some i ∧ fm.data[i]? = some F := by
  obtain ⟨i, hi⟩ := List.mem_iff_getElem?.1 hF
  exact ⟨i, (c139_sound nt text fm hp hn).named i F hi, hi⟩

/-- What is printed and written, from the boxes. -/
theorem applyWhole_eq {nt : NumText K} {o : ApplyOptions} {file text : Text} {fm : FeatureMatrix K} (hp : parseAFM nt text = some fm)
    (hn : (fm.data.map Feature.name).Nodup) {F : Feature K} (hF : F ∈ fm.data) {forest : Forest K} {bb : Box K}
    (ha : applyCommand nt o file text = some (forest, bb)) (ht : forest.target = F.name) (counted shown : Nat → Option String) {e : XF K}
    (he : bb.error counted F = some e) (hs : ∀ c < fm.caseLabels.length, ∃ p, shown c = some p)
    (hy : ∀ c < fm.caseLabels.length, ∃ y, F.getStr nt c = some y) :
    ∃ lines, applyWhole nt o file text counted shown = some (some e, lines) ∧ ReportsAll nt fm F shown lines := by
  obtain ⟨i, h1, h2⟩ := target_found hp hn hF
  obtain ⟨lines, h3, h4, h5⟩ := mapM_total (l := List.range fm.caseLabels.length) (g := fun i => do
    let l ← fm.caseLabels[i]?
    let actual ← F.getStr nt i
    let result ← shown i
    some (l, result, actual)) (by
      intro c hc
      have hc := List.mem_range.1 hc
      obtain ⟨p, hp⟩ := hs c hc
      obtain ⟨y, hy⟩ := hy c hc
      exact ⟨(fm.caseLabels[c], p, y), by simp [List.getElem?_eq_getElem hc, hp, hy]⟩)
  refine ⟨lines, ?_, by rw [h4, List.length_range], fun c hc => ?_⟩
  · unfold applyWhole
    rw [hp]
    simp only [Option.bind_eq_bind, Option.bind_some, ha, ht, h1, h2, he, Option.map_some] at h3 ⊢
    rw [h3]
    rfl
  · obtain ⟨p, hp⟩ := hs c hc
    obtain ⟨y, hy⟩ := hy c hc
    refine ⟨fm.caseLabels[c], p, y, ?_, List.getElem?_eq_getElem hc, hp, hy⟩
    rw [h5 c c (List.getElem?_range hc)]
    simp [List.getElem?_eq_getElem hc, hp, hy]

theorem classCases_names {f : CatFeature} (hf : f.Consistent) {k : Nat} {s : String} (hk : f.cm.back[k]? = some s) :
    f.classCases k = f.casesOf s := by
  unfold CatFeature.classCases CatFeature.casesOf knownCases
  rw [List.filter_filter, ← hf.lengths]
  refine List.filter_congr fun c hc => ?_
  rw [Bool.eq_iff_iff]
  simp only [decide_eq_true_eq, Bool.and_eq_true]
  constructor
  · rintro ⟨h1, h2⟩
    refine ⟨?_, h1⟩
    unfold CatFeature.getStr
    simp [h1, h2, hk]
  · rintro ⟨h1, h2⟩
    refine ⟨h2, ?_⟩
    obtain ⟨k', s', e1, e2, e3, e4⟩ := known_className hf h2
    rw [e4] at h1
    obtain rfl := Option.some.inj h1
    have w1 := (hf.map s' k).2 hk
    rw [(hf.map s' k').2 e3] at w1
    rw [e1, w1]

theorem balancedError_eq {f : CatFeature} (hf : f.Consistent) (tally : Nat → Option String) :
    ((List.range f.cm.nCats).map fun k => ((wrongCases f tally k).length : K) / ((f.classCases k).length : K)).sum / (f.cm.nCats : K) =
      f.balancedError tally := by
  unfold CatFeature.balancedError
  congr 2
  apply List.ext_getElem
  · simp [CatMap.nCats]
  · intro k h1 h2
    have hk : k < f.cm.back.length := by simpa using h2
    have e := List.getElem?_eq_getElem hk
    simp only [List.getElem_map, List.getElem_range]
    unfold wrongCases
    rw [classCases_names hf e, e]

end CloudForest
