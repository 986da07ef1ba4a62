import Verif.Lemmas.Commands2

/-!
# C140: from a data file to predictions

growforest reads a text and writes a forest, applyforest reads both and predicts.
-/

set_option linter.unusedSectionVars false

namespace CloudForest
variable {K : Type} [Field K] [LinearOrder K] [IsStrictOrderedRing K]

/-! ## Proof -/

theorem class_ready [FloorRing K] {nt : NumText K} {text : Text} {fm : FeatureMatrix K} (hp : parseAFM nt text = some fm) {a : GrowArgs}
    (hc : fm.Clean a.target) {f : CatFeature} (hf : .cat f ∈ fm.data) (hn : f.name = a.target) {ti : Nat} {b : Blacklist}
    (hP : Prepared fm a (.cat f) ti b) {m l s : Nat} (hm : m ≤ (allowedFeatures fm a.blacklist a.target a.block a.incl).length)
    (hl : 1 ≤ l) {order : List Nat → List Nat} (horder : ∀ bag, (order bag).Perm bag) (draws : Nat) (log : XF K → XF K) :
    ∃ how, a.bagging f = some how ∧ how.isNobag = a.nobag ∧ (how = .plain → a.nobag = false ∧ a.balance = false) ∧
    ∃ (L : TargetLaws (a.classRun log fm f how m l s draws order).T (a.classRun log fm f how m l s draws order).all)
      (good : CatFeature → Prop),
      (a.classRun log fm f how m l s draws order).Ok L good (candidates fm ti b.marks) ∧ L.Ok (newAllocs f.cm.nCats) := by
  obtain ⟨i, hi⟩ := hc.known _ hf hn
  have hi : f.missing[i]? = some false := hi
  have hcons : f.Consistent := (c139_afm nt text fm hp).1.consistent _ hf
  have hz := parsed_zeroFilled hp _ hf
  have hlen : f.missing.length = fm.caseLabels.length := hP.length
  have hil := (List.getElem?_eq_some_iff.1 hi).1
  have hin : f.InRange f.cm.nCats (List.range f.missing.length) := by
    intro c hcm
    have hcl : c < f.missing.length := List.mem_range.1 hcm
    have hd : f.catData[c]? = some (f.catData[c]'(by rw [hcons.lengths]; exact hcl)) := List.getElem?_eq_getElem _
    refine ⟨_, hd, ?_⟩
    cases hmc : f.missing[c]'hcl with
    | false => exact hcons.valid c _ (by rw [List.getElem?_eq_getElem hcl, hmc]) hd
    | true =>
      have h0 := hz.2 c (by rw [List.getElem?_eq_getElem hcl, hmc])
      rw [hd, Option.some.injEq] at h0
      rw [h0]
      have hdi : f.catData[i]? = some (f.catData[i]'(by rw [hcons.lengths]; exact hil)) := List.getElem?_eq_getElem _
      exact Nat.lt_of_le_of_lt (Nat.zero_le _) (hcons.valid i _ hi hdi)
  obtain ⟨how, hb1, hb2, hb3, hb4⟩ := bagging_ok hp hf hi hin hcons a
  have hC := catContrast_ok (K := K) f f.cm.nCats _ hin hcons.lengths.symm (if a.entropy then entropyFromCounts log else giniFromCounts)
  refine ⟨how, hb1, hb3, hb4, countLaws f (if a.entropy then entropyFromCounts log else giniFromCounts) f.cm.nCats _ hin,
    fun g => g.InRange f.cm.nCats (List.range f.missing.length) ∧ g.missing.length = g.catData.length ∧ g.catData.length = f.catData.length,
    ⟨?_, ?_, ?_, hb2, horder⟩, ?_⟩
  · show fm.allCases = some (List.range f.missing.length)
    rw [hlen]
    exact hP.cases
  · show MatrixOk fm (List.range f.missing.length)
    rw [hlen]
    exact hP.matrix
  · exact
    { feats := fun g hg => by
        show FeatOk g (List.range f.missing.length)
        rw [hlen]
        exact hP.feats g hg
      total3 := fun _ => countLaws_total3 _ _ _ _ hin
      contrast := fun _ => hC
      start := hC.start
      leafSize := hl
      exist := hP.exist
      mTry := by rw [hP.cans]; exact hm
      oobs := by simp }
  · refine ⟨?_, ?_, ?_⟩ <;> simp [newAllocs]

theorem num_ready [FloorRing K] {nt : NumText K} {text : Text} {fm : FeatureMatrix K} (hp : parseAFM nt text = some fm) {a : GrowArgs}
    (hc : fm.Clean a.target) {f : NumFeature K} (hf : .num f ∈ fm.data) (hn : f.name = a.target) {ti : Nat} {b : Blacklist}
    (hP : Prepared fm a (.num f) ti b) {m l s : Nat} (hm : m ≤ (allowedFeatures fm a.blacklist a.target a.block a.incl).length)
    (hl : 1 ≤ l) {order : List Nat → List Nat} (horder : ∀ bag, (order bag).Perm bag) (draws : Nat) :
    f.Finite (List.range f.missing.length) ∧
    ∃ (L : TargetLaws (a.numRun nt fm f m l s draws order).T (a.numRun nt fm f m l s draws order).all) (good : NumFeature K → Prop),
      (a.numRun nt fm f m l s draws order).Ok L good (candidates fm ti b.marks) ∧ L.Ok (newAllocs 0) := by
  obtain ⟨i, hi⟩ := hc.known _ hf hn
  have hi : f.missing[i]? = some false := hi
  have hcons : f.Consistent := (c139_afm nt text fm hp).1.consistent _ hf
  have hz := parsed_zeroFilled hp _ hf
  have hlen : f.missing.length = fm.caseLabels.length := hP.length
  have hil := (List.getElem?_eq_some_iff.1 hi).1
  have hfin : f.Finite (List.range f.missing.length) := by
    intro c hcm
    have hcl : c < f.missing.length := List.mem_range.1 hcm
    have hd : f.numData[c]? = some (f.numData[c]'(by rw [hcons.lengths]; exact hcl)) := List.getElem?_eq_getElem _
    cases hmc : f.missing[c]'hcl with
    | false =>
      obtain ⟨y, hy⟩ := hc.finite f hf c _ (by rw [List.getElem?_eq_getElem hcl, hmc]) hd
      exact ⟨y, by rw [hd, hy]⟩
    | true => exact ⟨0, hz.2 c (by rw [List.getElem?_eq_getElem hcl, hmc])⟩
  obtain ⟨L, hL, hT⟩ := num_laws f _ hfin (fun c hcm => List.mem_range.1 hcm) hcons.lengths a.l1
  have hC := numContrast_any f _ hfin hcons.lengths.symm L hL
  refine ⟨hfin, L, fun g => g.Finite (List.range f.missing.length) ∧ g.missing.length = g.numData.length, ⟨?_, ?_, ?_, ?_, horder⟩, by rw [hL]; trivial⟩
  · show fm.allCases = some (List.range f.missing.length)
    rw [hlen]
    exact hP.cases
  · show MatrixOk fm (List.range f.missing.length)
    rw [hlen]
    exact hP.matrix
  · exact
    { feats := fun g hg => by
        show FeatOk g (List.range f.missing.length)
        rw [hlen]
        exact hP.feats g hg
      total3 := fun _ => hT
      contrast := fun _ => hC
      start := hC.start
      leafSize := hl
      exist := hP.exist
      mTry := by rw [hP.cans]; exact hm
      oobs := by simp }
  · show (if a.nobag then Bagging.nobag else .plain).Fit f.missing
    split
    · trivial
    · exact Nat.lt_of_le_of_lt (Nat.zero_le _) hil

/-! ## C140 -/

/-- **C140, classes.** The text of a table is parsed, growforest grows a forest from it and writes it, applyforest reads the file
and predicts the classes of the same table. Nothing on this way panics; growforest can only go on drawing. There are as many
trees as asked for, or as workers if that is more, with a bag each of `nSamples` cases of known class. A tree answers with the class that is most frequent
among the cases of its bag that fall into the same leaf, and refuses to answer only if a value is missing. What is predicted
is a class that most trees answer, or "NA" if none does.

Missing from the full property: classes under a name beginning with N if applyforest is not told, `c140_name`. -/
theorem c140_classes_partial [FloorRing K] {nt : NumText K} (hnt : ∀ x, nt.Faithful x) {ord : Splitter K → List String}
    (hord : ∀ s : Splitter K, (ord s).Perm s.left) {order : List Nat → List Nat} (horder : ∀ bag, (order bag).Perm bag)
    {text : Text} {fm : FeatureMatrix K} (hp : parseAFM nt text = some fm) {a : GrowArgs} (hc : fm.Clean a.target)
    {f : CatFeature} (hf : .cat f ∈ fm.data) (hn : f.name = a.target) (hids : a.target ∉ a.blacklist) {m l s : Int}
    (hm : inferMTry nt a.mTry (allowedFeatures fm a.blacklist a.target a.block a.incl).length = some m)
    (hmle : m ≤ (allowedFeatures fm a.blacklist a.target a.block a.incl).length)
    (hl : inferLeafSize nt a.leafSize false f.cm.nCats (nKnown f.missing) = some l)
    (hs : inferNSamples nt a.nSamples (nKnown f.missing) = some s) (hcores : 1 ≤ a.nCores)
    (hvet : ¬ (a.vet = true ∧ a.evaloob = true)) (draws : Nat) (log : XF K → XF K) (own global : Nat → Rng) (pick : Nat → Nat) :
    (growCommand nt log ord a draws order text own global pick = none →
      (a.nobag = false ∧ a.balance = false) ∧ ∃ rng, bagLoop (f.missing[·]?) f.missing.length s.toNat draws [] rng = none) ∧
    ∀ file, growCommand nt log ord a draws order text own global pick = some file →
      ∃ voters : List (Tree K × List Nat), voters.length = max a.nCores a.nTrees ∧
        (∀ x ∈ voters, (∀ c ∈ x.2, f.missing[c]? = some false) ∧ x.2.length ≤ s ∧ (a.nobag = false → x.2.length = s ∧ x.2 ≠ []) ∧
          (x.2 ≠ [] → ∀ c < fm.caseLabels.length, AnswersBy fm f.Plurality x c)) ∧
        ∀ (tanh : XF K → XF K) (o : ApplyOptions), o.sum = false →
          (o.cat = true ∨ o.num = false ∧ a.target.toList.head? ≠ some 'N') →
          ∃ forest bb, applyCommand nt o file text = some (forest, bb) ∧ forest.target = a.target ∧
            ∀ c < fm.caseLabels.length, (∃ res, bb.Predicts nt tanh o forest.intercept c res) ∧
              ∀ res, bb.Predicts nt tanh o forest.intercept c res → ∃ p, res = some p ∧
                ((p = "NA" ∧ ∀ q, votesFor fm voters c q = 0) ∨
                  (0 < votesFor fm voters c p ∧ ∀ q, votesFor fm voters c q ≤ votesFor fm voters c p)) := by
  obtain ⟨ti, b, hP⟩ := prepared hp hc hf hn hids
  have hl1 := inferLeafSize_pos hl
  obtain ⟨i, hi⟩ := hc.known _ hf hn
  have hs1 := inferNSamples_pos (nKnown_pos hi) hs
  have hcons : f.Consistent := (c139_afm nt text fm hp).1.consistent _ hf
  have hlen : f.missing.length = fm.caseLabels.length := hP.length
  obtain ⟨how, hhow, hnob, hpl, L, good, hr, hok⟩ := class_ready (m := m.toNat) (l := l.toNat) (s := s.toNat) hp hc hf hn hP (by omega) (by omega)
    horder draws log
  have hcmd : growCommand nt log ord a draws order text own global pick =
      ((a.classRun log fm f how m.toNat l.toNat s.toNat draws order).runCores (a.classRun log fm f how m.toNat l.toNat s.toNat draws order).grower
        a.nCores (nKnown f.missing) f.cm.nCats (candidates fm ti b.marks) own global pick).bind fun out =>
      growforestFile nt ord a.progress a.target none (out.map (·.1)) := by
    simp only [growCommand, hp, hP.chosen, hP.count, hm, hP.target, hl, hs, hhow, Option.bind_eq_bind, Option.bind_some]
  have htidy := hc.tidy _ hf
  obtain ⟨h1, h2⟩ := run_read hr hvet rfl hcores hok own global pick hnt
    (fun g hg => by have := hc.tidy g hg; cases g <;> exact this)
    (fun cs => by
      show Plain ((f.findPredicted cs).getD "").toList
      cases hfp : f.findPredicted cs with
      | none => exact plain_empty
      | some p =>
        unfold CatFeature.findPredicted at hfp
        obtain ⟨m, -, hb⟩ := Option.bind_eq_some_iff.1 hfp
        exact (htidy.2 p (List.mem_of_getElem? hb)).1) (by
      show Plain a.target.toList
      rw [← hn]
      exact htidy.1) ord hord a.progress
  rw [hcmd]
  refine ⟨fun h => ?_, fun file h => ?_⟩
  · obtain ⟨rng, hh, he⟩ := h1 h
    exact ⟨hpl hh, rng, he⟩
  · obtain ⟨out, forest, c1, hrec, c4, c5, c6, c7, -⟩ := h2 file h
    obtain ⟨c2, c3⟩ := recorded_voters hr rfl hrec
    refine ⟨out.map voterOf, by rw [List.length_map]; exact c1, ?_, ?_⟩
    · intro x hx
      obtain ⟨-, d1, d2, d3⟩ := c3 x hx
      have d1a : x.2.length ≤ s.toNat := d1.1
      refine ⟨d2, by omega, fun hnb => ?_, fun hne c hcl => ?_⟩
      · have : x.2.length = s.toNat := d1.2 (hnob.trans hnb)
        exact ⟨by omega, List.ne_nil_of_length_pos (by omega)⟩
      · obtain ⟨e1, e2⟩ := d3 c (List.mem_range.2 (by rw [← hlen] at hcl; exact hcl))
        unfold AnswersBy
        cases ho : x.1.opinion fm c with
        | none => exact e1 ho
        | some p =>
          obtain ⟨S, g1, g2, g3⟩ := e2 p ho
          obtain ⟨p', g4, g5⟩ := plurality_of hcons (S := S) (fun d hd => by
            have := g1.mem_iff.1 hd
            exact d2 d (List.mem_filter.1 this).1) (g3 hne)
          have : p = p' := by rw [g2]; show (f.findPredicted S).getD "" = p'; rw [g4]; rfl
          rw [this]
          exact Plurality.perm g1 g5
    · intro tanh o hsum hcat
      obtain ⟨bb, e1, e2⟩ := c97_classes nt tanh o (cleaned a.target out) fm fm.caseLabels.length hP.cases c2 rfl hsum hcat
      refine ⟨forest, bb, ?_, c5, ?_⟩
      · have := c7 o
        simp only [applyCommand, hp, c4, Option.bind_eq_bind, Option.bind_some]
        rw [show applyForest nt o forest fm = some bb from this.trans e1]
        rfl
      · rw [c6]
        intro c hcl
        obtain ⟨g1, g2⟩ := e2 c hcl
        refine ⟨g1, fun res hres => ?_⟩
        obtain ⟨p, hp', g3⟩ := g2 res hres
        have hw : ∀ q, weightOf fm (cleaned a.target out).trees c q = (votesFor fm (out.map voterOf) c q : K) := by
          intro q
          rw [cleaned_voters]
          exact weightOf_votes fm c q _ fun x hx => (c3 x hx).1
        refine ⟨p, hp', ?_⟩
        simp only [hw] at g3
        rcases g3 with ⟨g4, g5⟩ | ⟨g4, g5⟩
        · exact .inl ⟨g4, fun q => by have := g5 q; exact_mod_cast Nat.le_zero.1 (by exact_mod_cast this)⟩
        · exact .inr ⟨by exact_mod_cast g4, fun q => by exact_mod_cast g5 q⟩

theorem numbersOf_means {nt : NumText K} (hnt : ∀ x, nt.Faithful x) (fm : FeatureMatrix K) (f : NumFeature K) (c : Nat) :
    ∀ (voters : List (Tree K × List Nat)), (∀ x ∈ voters, x.1.weight = .fin (-1)) →
      (∀ x ∈ voters, ∀ p, x.1.opinion fm c = some p → p = String.ofList (nt.fmt (.fin (f.meanOf (neighbours fm x.1 x.2 c))))) →
      numbersOf nt fm (voters.map (·.1)) c = (meansFor fm f voters c).map fun y => (y, 1) := by
  intro voters
  induction voters with
  | nil => intro _ _; rfl
  | cons x voters ih =>
    intro hw ho
    have ih := ih (fun y hy => hw y (List.mem_cons_of_mem _ hy)) (fun y hy => ho y (List.mem_cons_of_mem _ hy))
    unfold numbersOf meansFor at ih ⊢
    rw [List.map_cons, List.filterMap_cons, List.filter_cons]
    cases hop : x.1.opinion fm c with
    | none => simpa using ih
    | some p =>
      have hpe := ho x List.mem_cons_self p hop
      have : nt.parse p.toList = some (.fin (f.meanOf (neighbours fm x.1 x.2 c))) := by
        rw [hpe, String.toList_ofList]
        exact (hnt _).2
      simp only [Option.bind_some, this, Option.isSome_some, if_true, List.map_cons]
      rw [ih, say_one (hw x List.mem_cons_self)]

theorem means_average (l : List K) : weightedSum (l.map fun y => (y, (1 : K))) / totalWeight (l.map fun y => (y, (1 : K))) =
    l.sum / l.length := by
  have h1 : weightedSum (l.map fun y => (y, (1 : K))) = l.sum := by
    unfold weightedSum
    rw [List.map_map]
    congr 1
    simp [Function.comp_def]
  have h2 : totalWeight (l.map fun y => (y, (1 : K))) = (l.length : K) := by
    unfold totalWeight
    rw [List.map_map]
    simp [Function.comp_def]
  rw [h1, h2]

/-- **C140, numbers.** The same for a numerical target: a tree answers with the mean of the values of its neighbours in the bag,
and what is predicted is the mean of these answers.

Missing from the full property: `-balance`, `c140_balance`. -/
theorem c140_numbers_partial [FloorRing K] {nt : NumText K} (hnt : ∀ x, nt.Faithful x) {ord : Splitter K → List String}
    (hord : ∀ s : Splitter K, (ord s).Perm s.left) {order : List Nat → List Nat} (horder : ∀ bag, (order bag).Perm bag)
    {text : Text} {fm : FeatureMatrix K} (hp : parseAFM nt text = some fm) {a : GrowArgs} (hc : fm.Clean a.target)
    {f : NumFeature K} (hf : .num f ∈ fm.data) (hn : f.name = a.target) (hids : a.target ∉ a.blacklist) (hbal : a.balance = false)
    {m l s : Int}
    (hm : inferMTry nt a.mTry (allowedFeatures fm a.blacklist a.target a.block a.incl).length = some m)
    (hmle : m ≤ (allowedFeatures fm a.blacklist a.target a.block a.incl).length)
    (hl : inferLeafSize nt a.leafSize false 0 (nKnown f.missing) = some l)
    (hs : inferNSamples nt a.nSamples (nKnown f.missing) = some s) (hcores : 1 ≤ a.nCores)
    (hvet : ¬ (a.vet = true ∧ a.evaloob = true)) (draws : Nat) (log : XF K → XF K) (own global : Nat → Rng) (pick : Nat → Nat) :
    (growCommand nt log ord a draws order text own global pick = none →
      a.nobag = false ∧ ∃ rng, bagLoop (f.missing[·]?) f.missing.length s.toNat draws [] rng = none) ∧
    ∀ file, growCommand nt log ord a draws order text own global pick = some file →
      ∃ voters : List (Tree K × List Nat), voters.length = max a.nCores a.nTrees ∧
        (∀ x ∈ voters, (∀ c ∈ x.2, f.missing[c]? = some false) ∧ x.2.length ≤ s ∧ (a.nobag = false → x.2.length = s ∧ x.2 ≠ []) ∧
          (x.2 ≠ [] → ∀ c < fm.caseLabels.length,
            AnswersBy fm (fun S p => S ≠ [] ∧ p = String.ofList (nt.fmt (.fin (f.meanOf S)))) x c)) ∧
        ∀ (tanh : XF K → XF K) (o : ApplyOptions), o.sum = false → o.cat = false → (∀ x ∈ voters, x.2 ≠ []) →
          ∃ forest bb, applyCommand nt o file text = some (forest, bb) ∧ forest.target = a.target ∧
            ∀ c < fm.caseLabels.length, ∀ res, bb.Predicts nt tanh o forest.intercept c res ↔
              res = some (if meansFor fm f voters c = [] then "NA" else
                String.ofList (nt.fmt (.fin ((meansFor fm f voters c).sum / (meansFor fm f voters c).length)))) := by
  obtain ⟨ti, b, hP⟩ := prepared hp hc hf hn hids
  have hl1 := inferLeafSize_pos hl
  obtain ⟨i, hi⟩ := hc.known _ hf hn
  have hs1 := inferNSamples_pos (nKnown_pos hi) hs
  have hcons : f.Consistent := (c139_afm nt text fm hp).1.consistent _ hf
  have hlen : f.missing.length = fm.caseLabels.length := hP.length
  obtain ⟨hfin, L, good, hr, hok⟩ := num_ready (m := m.toNat) (l := l.toNat) (s := s.toNat) hp hc hf hn hP (by omega) (by omega) horder draws
  have hcmd : growCommand nt log ord a draws order text own global pick =
      ((a.numRun nt fm f m.toNat l.toNat s.toNat draws order).runCores (a.numRun nt fm f m.toNat l.toNat s.toNat draws order).grower
        a.nCores (nKnown f.missing) 0 (candidates fm ti b.marks) own global pick).bind fun out =>
      growforestFile nt ord a.progress a.target none (out.map (·.1)) := by
    simp only [growCommand, hp, hP.chosen, hP.count, hm, hP.target, hl, hs, hbal, Option.bind_eq_bind, Option.bind_some]
    rfl
  have htidy := hc.tidy _ hf
  obtain ⟨h1, h2⟩ := run_read hr hvet rfl hcores hok own global pick hnt
    (fun g hg => by have := hc.tidy g hg; cases g <;> exact this)
    (fun cs => by
      show Plain ((f.findPredicted nt cs).getD "").toList
      cases hfp : f.findPredicted nt cs with
      | none => exact plain_empty
      | some p =>
        unfold NumFeature.findPredicted at hfp
        obtain ⟨m, -, hb⟩ := Option.bind_eq_some_iff.1 hfp
        cases hb
        rw [Option.getD_some, String.toList_ofList]
        exact (hnt m).1) (by
      show Plain a.target.toList
      rw [← hn]
      exact htidy) ord hord a.progress
  rw [hcmd]
  refine ⟨fun h => ?_, fun file h => ?_⟩
  · obtain ⟨rng, hh, he⟩ := h1 h
    refine ⟨?_, rng, he⟩
    have hh : (if a.nobag then Bagging.nobag else .plain) = .plain := hh
    cases hnb : a.nobag with
    | false => rfl
    | true => rw [hnb] at hh; cases hh
  · obtain ⟨out, forest, c1, hrec, c4, c5, c6, c7, -⟩ := h2 file h
    obtain ⟨c2, c3⟩ := recorded_voters hr rfl hrec
    have hans : ∀ x ∈ out.map voterOf, x.2 ≠ [] → ∀ c < fm.caseLabels.length,
        (x.1.opinion fm c = none → ∃ g ∈ fm.data, g.isMissing c = some true) ∧
        ∀ p, x.1.opinion fm c = some p → neighbours fm x.1 x.2 c ≠ [] ∧
          p = String.ofList (nt.fmt (.fin (f.meanOf (neighbours fm x.1 x.2 c)))) := by
      intro x hx hne c hcl
      obtain ⟨-, -, d2, d3⟩ := c3 x hx
      obtain ⟨e1, e2⟩ := d3 c (List.mem_range.2 (by rw [← hlen] at hcl; exact hcl))
      refine ⟨e1, fun p ho => ?_⟩
      obtain ⟨S, g1, g2, g3⟩ := e2 p ho
      have hk : ∀ d ∈ S, f.missing[d]? = some false := fun d hd => d2 d (List.mem_filter.1 (g1.mem_iff.1 hd)).1
      have hkl : ∀ d ∈ S, d < f.missing.length := fun d hd => (List.getElem?_eq_some_iff.1 (hk d hd)).1
      refine ⟨fun h0 => g3 hne (by rw [show neighbours (a.numRun nt fm f m.toNat l.toNat s.toNat draws order).fm x.1 x.2 c = [] from h0] at g1; exact List.perm_nil.1 g1), ?_⟩
      have hme := mean_eq f S hkl hcons.lengths (by
        rw [knownOf_all hk]
        exact fun d hd => hfin d (List.mem_range.2 (hkl d hd))) (by rw [knownOf_all hk]; exact g3 hne)
      rw [knownOf_all hk] at hme
      rw [g2]
      show (f.findPredicted nt S).getD "" = _
      unfold NumFeature.findPredicted
      rw [hme, neighbours_mean_perm g1]
      rfl
    refine ⟨out.map voterOf, by rw [List.length_map]; exact c1, ?_, ?_⟩
    · intro x hx
      obtain ⟨-, d1, d2, d3⟩ := c3 x hx
      have d1a : x.2.length ≤ s.toNat := d1.1
      refine ⟨d2, by omega, fun hnb => ?_, fun hne c hcl => ?_⟩
      · have : x.2.length = s.toNat := d1.2 (by
          show (if a.nobag then Bagging.nobag else .plain).isNobag = false
          rw [hnb]
          rfl)
        exact ⟨by omega, List.ne_nil_of_length_pos (by omega)⟩
      · obtain ⟨e1, e2⟩ := hans x hx hne c hcl
        unfold AnswersBy
        cases ho : x.1.opinion fm c with
        | none => exact e1 ho
        | some p => exact e2 p ho
    · intro tanh o hsum hcat hne
      have hw : ∀ x ∈ out.map voterOf, x.1.weight = .fin (-1) := fun x hx => (c3 x hx).1
      have hN : a.target.toList.head? = some 'N' := by
        rw [← hn]
        exact parsed_num_name hp hf
      obtain ⟨bb, e1, e2⟩ := c97_mean_partial nt tanh o (cleaned a.target out) fm fm.caseLabels.length 0 hP.cases c2 rfl hsum hcat
        (.inr hN) (by
          rw [cleaned_voters]
          intro t ht
          obtain ⟨x, hx, rfl⟩ := List.mem_map.1 ht
          rw [say_one (hw x hx)]
          exact zero_lt_one) (by
          rw [cleaned_voters]
          intro t ht c hcl p y ho hy
          obtain ⟨x, hx, rfl⟩ := List.mem_map.1 ht
          have := ((hans x hx (hne x hx) c hcl).2 p ho).2
          rw [this, String.toList_ofList, (hnt _).2] at hy
          cases hy
          exact .inr ⟨_, rfl⟩)
      refine ⟨forest, bb, ?_, c5, ?_⟩
      · have := c7 o
        simp only [applyCommand, hp, c4, Option.bind_eq_bind, Option.bind_some]
        rw [show applyForest nt o forest fm = some bb from this.trans e1]
        rfl
      · rw [c6]
        intro c hcl res
        have := e2 c hcl res
        rw [cleaned_voters, numbersOf_means hnt fm f c _ hw fun x hx p ho => ((hans x hx (hne x hx) c hcl).2 p ho).2,
          means_average] at this
        simp only [if_pos, List.map_eq_nil_iff] at this
        exact this

/-- **C140, default options.** If `-mTry`, `-leafSize` and `-nSamples` are not given, the conditions on them hold: the root of the
number of features is tried, leaves have at least 1 case (4 for numbers), and as many cases are drawn as have a known target. -/
theorem c140_defaults [FloorRing K] (nt : NumText K) (n nCats k : Nat) :
    (∃ m : Nat, inferMTry nt ['0'] n = some (m : Int) ∧ m ≤ n ∧ n ≤ m * m ∧ ∀ j, n ≤ j * j → m ≤ j) ∧
    inferLeafSize nt ['0'] false nCats k = some (if nCats = 0 then 4 else 1) ∧ inferNSamples nt ['0'] k = some (k : Int) := by
  have h0 : ∀ t : Int, parseAsIntOrFraction nt ['0'] t = some 0 := by
    intro t
    unfold parseAsIntOrFraction
    rw [if_neg (by simp), if_neg (by decide), show parseInt0 ['0'] = some 0 by decide +kernel]
  refine ⟨⟨ceilSqrt n, ?_, (ceilSqrt_spec n).2 _ (Nat.le_mul_self _), ceilSqrt_spec n⟩, ?_, ?_⟩
  · rw [inferMTry, h0]; rfl
  · rw [inferLeafSize, h0]; rfl
  · rw [inferNSamples, h0]; rfl

/-! ## Examples -/

/-- A check for the conditions on tables. -/
def cleanCheck (fm : FeatureMatrix K) (target : String) : Bool :=
  decide (fm.data.map Feature.name).Nodup && fm.data.all fun f => decide (Plain f.name.toList) &&
    (match f with
    | .cat f => f.cm.back.all fun s => decide (Plain s.toList ∧ ':' ∉ s.toList)
    | .num f => f.numData.all fun x => match x with
      | .fin _ => true
      | _ => false) &&
    (decide (f.name ≠ target) || (List.range f.length).any fun i => f.isMissing i == some false)

theorem cleanCheck_ok {fm : FeatureMatrix K} {target : String} (h : cleanCheck fm target = true) : fm.Clean target := by
  unfold cleanCheck at h
  rw [Bool.and_eq_true, decide_eq_true_eq, List.all_eq_true] at h
  refine ⟨h.1, fun f hf i x _ hx => ?_, fun f hf => ?_, fun f hf hn => ?_⟩
  · have := h.2 _ hf
    simp only [Bool.and_eq_true, List.all_eq_true] at this
    have := this.1.2 x (List.mem_of_getElem? hx)
    split at this
    · exact ⟨_, rfl⟩
    · cases this
  · have := h.2 f hf
    simp only [Bool.and_eq_true, decide_eq_true_eq] at this
    cases f with
    | num f => exact this.1.1
    | cat f =>
      refine ⟨this.1.1, fun s hs => ?_⟩
      have := this.1.2
      simp only [List.all_eq_true, decide_eq_true_eq] at this
      exact this s hs
  · have := h.2 f hf
    simp only [Bool.and_eq_true, Bool.or_eq_true, decide_eq_true_eq, List.any_eq_true, beq_iff_eq] at this
    rcases this.2 with h | ⟨i, -, h⟩
    · exact absurd hn h
    · exact ⟨i, h⟩

/-- Numbers written with strokes: a zero, a stroke for each unit of the numerator, a letter for each further one of the
denominator. -/
def exStrokes : NumText ℚ where
  fmt x := match x with
    | .nan => ['n']
    | .pinf => ['p']
    | .ninf => ['q']
    | .fin q => (if q.num < 0 then ['m'] else []) ++ '0' :: (List.replicate q.num.natAbs '1' ++ List.replicate (q.den - 1) 'd')
  parse s := match s with
    | ['n'] => some .nan
    | ['p'] => some .pinf
    | ['q'] => some .ninf
    | s => if '0' ∈ s then some (.fin (mkRat (if 'm' ∈ s then -(s.count '1' : Int) else (s.count '1' : Int)) (s.count 'd' + 1)))
        else none

theorem plain_letters {s : Text} (h : ∀ c ∈ s, c ∈ ['m', '0', '1', 'd', 'n', 'p', 'q']) : Plain s := by
  have hn : ∀ c : Char, c ∉ ['m', '0', '1', 'd', 'n', 'p', 'q'] → c ∉ s := fun c hc hm => hc (h c hm)
  refine ⟨hn _ (by decide), hn _ (by decide), hn _ (by decide), fun piece hp => ?_⟩
  rw [splitC_none (hn _ (by decide)), List.mem_singleton] at hp
  subst hp
  refine ⟨fun c hc => ?_, fun c hc => ?_⟩
  · have := h c (List.mem_of_mem_head? hc)
    revert c
    simp only [List.mem_cons, List.not_mem_nil, or_false]
    rintro c - (rfl | rfl | rfl | rfl | rfl | rfl | rfl) <;> decide
  · have := h c (List.mem_of_mem_getLast? hc)
    revert c
    simp only [List.mem_cons, List.not_mem_nil, or_false]
    rintro c - (rfl | rfl | rfl | rfl | rfl | rfl | rfl) <;> decide

theorem exStrokes_faithful (x : XF ℚ) : exStrokes.Faithful x := by
  cases x with
  | nan => exact ⟨plain_letters (by decide), rfl⟩
  | pinf => exact ⟨plain_letters (by decide), rfl⟩
  | ninf => exact ⟨plain_letters (by decide), rfl⟩
  | fin q =>
    refine ⟨plain_letters fun c hc => ?_, ?_⟩
    · simp only [exStrokes, List.mem_append, List.mem_cons, List.mem_replicate] at hc
      rcases hc with h | rfl | ⟨-, rfl⟩ | ⟨-, rfl⟩
      · split at h
        · rw [List.mem_singleton.1 h]; decide
        · cases h
      all_goals decide
    · have hd : q.den - 1 + 1 = q.den := Nat.sub_add_cancel q.den_pos
      show exStrokes.parse ((if q.num < 0 then ['m'] else []) ++ '0' :: (List.replicate q.num.natAbs '1' ++
        List.replicate (q.den - 1) 'd')) = _
      generalize hs : (if q.num < 0 then ['m'] else []) ++ '0' :: (List.replicate q.num.natAbs '1' ++
        List.replicate (q.den - 1) 'd') = s
      have h0 : '0' ∈ s := by rw [← hs]; simp
      have h1 : s.count '1' = q.num.natAbs := by
        rw [← hs]
        split <;> simp [List.count_append, List.count_cons, List.count_replicate]
      have h2 : s.count 'd' = q.den - 1 := by
        rw [← hs]
        split <;> simp [List.count_append, List.count_cons, List.count_replicate]
      have h3 : 'm' ∈ s ↔ q.num < 0 := by
        rw [← hs]
        split
        · rename_i h; simp [h]
        · rename_i h; simp [h, List.mem_replicate]
      have hp : exStrokes.parse s = if '0' ∈ s then
          some (.fin (mkRat (if 'm' ∈ s then -(s.count '1' : Int) else (s.count '1' : Int)) (s.count 'd' + 1))) else none := by
        unfold exStrokes
        dsimp only
        split
        · exact absurd h0 (by decide)
        · exact absurd h0 (by decide)
        · exact absurd h0 (by decide)
        · rfl
      rw [hp, if_pos h0, h1, h2, hd]
      congr 2
      have : (if 'm' ∈ s then -(q.num.natAbs : Int) else (q.num.natAbs : Int)) = q.num := by
        by_cases hq : q.num < 0
        · rw [if_pos (h3.2 hq)]; omega
        · rw [if_neg (fun h => hq (h3.1 h))]; omega
      rw [this]
      exact Rat.mkRat_self q

/-- A table of five cases, two features and a class, which is not known for the last case. -/
def exAfmTable : Text :=
  ".\tN:x\tC:k\tC:y\na\t01\tu\tyes\nb\t011\tu\tyes\nc\t0111\tv\tno\nd\t011\tv\tno\ne\tNA\tu\tNA\n".toList

/-- Two trees for the class, with default options otherwise. -/
def exGrowArgs : GrowArgs := { target := "C:y", nTrees := 2 }

/-- Two trees for the number, leaves of a single case. -/
def exGrowNums : GrowArgs := { target := "N:x", nTrees := 2, leafSize := ['1'] }

theorem exAfmTable_ok : ∃ fm f g, parseAFM exStrokes exAfmTable = some fm ∧ fm.Clean "C:y" ∧ fm.Clean "N:x" ∧
    .cat f ∈ fm.data ∧ f.name = "C:y" ∧ f.cm.nCats = 2 ∧ nKnown f.missing = 4 ∧ .num g ∈ fm.data ∧ g.name = "N:x" ∧ nKnown g.missing = 4 ∧
    (allowedFeatures fm [] "C:y" none none).length = 2 ∧ (allowedFeatures fm [] "N:x" none none).length = 2 := by
  have h : (parseAFM exStrokes exAfmTable).any (fun fm => cleanCheck fm "C:y" && cleanCheck fm "N:x" && (match fm.data with
      | [.num g, _, .cat f] => decide (f.name = "C:y" ∧ f.cm.nCats = 2 ∧ nKnown f.missing = 4 ∧ g.name = "N:x" ∧ nKnown g.missing = 4)
      | _ => false) && decide ((allowedFeatures fm [] "C:y" none none).length = 2 ∧
        (allowedFeatures fm [] "N:x" none none).length = 2)) = true := by
    decide +kernel
  obtain ⟨fm, h1, h2⟩ := (Option.any_eq_true _ _).1 h
  simp only [Bool.and_eq_true, decide_eq_true_eq] at h2
  obtain ⟨⟨⟨c1, c2⟩, c3⟩, c4, c5⟩ := h2
  split at c3
  · rename_i g k f hd
    simp only [decide_eq_true_eq] at c3
    obtain ⟨d1, d2, d3, d4, d5⟩ := c3
    exact ⟨fm, f, g, h1, cleanCheck_ok c1, cleanCheck_ok c2, by rw [hd]; simp, d1, d2, d3, by rw [hd]; simp, d4, d5, c4, c5⟩
  · cases c3

/-- What is written for a case if Go iterates over the votes in the order they were first cast. -/
def firstTally (nt : NumText ℚ) (x : Forest ℚ × Box ℚ) (i : Nat) : Option String :=
  match x.2 with
  | .cat bb => (bb.box[i]?).bind bb.tallyIn
  | .num bb => bb.tally (fun y => String.ofList (nt.fmt y)) i
  | .sum _ => none

/-- The conditions of `c140_classes_partial` hold for this table, and the commands work: the file is written, and read with the table it
gives the classes. The last case, of unknown class, is predicted from the feature that is known. -/
example : (∀ x, exStrokes.Faithful x) ∧ (∃ fm f m l s, parseAFM exStrokes exAfmTable = some fm ∧ fm.Clean exGrowArgs.target ∧ .cat f ∈ fm.data ∧
      f.name = exGrowArgs.target ∧ exGrowArgs.target ∉ exGrowArgs.blacklist ∧
      inferMTry exStrokes exGrowArgs.mTry (allowedFeatures fm exGrowArgs.blacklist exGrowArgs.target exGrowArgs.block exGrowArgs.incl).length =
        some m ∧ m ≤ (allowedFeatures fm exGrowArgs.blacklist exGrowArgs.target exGrowArgs.block exGrowArgs.incl).length ∧
      inferLeafSize exStrokes exGrowArgs.leafSize false f.cm.nCats (nKnown f.missing) = some l ∧
      inferNSamples exStrokes exGrowArgs.nSamples (nKnown f.missing) = some s) ∧
    ((growCommand exStrokes id (fun s => s.left) exGrowArgs 20 id exAfmTable (fun _ k => 5 * k + 1) (fun _ k => 3 * k + 1) id).bind fun file =>
      (applyCommand exStrokes ⟨false, false, false, false⟩ file exAfmTable).map fun x =>
        (List.range 5).map (firstTally exStrokes x)) = some [some "yes", some "yes", some "no", some "no", some "yes"] := by
  refine ⟨exStrokes_faithful, ?_, by decide +kernel⟩
  obtain ⟨fm, f, g, h1, h2, -, h3, h4, h5, h6, -, -, -, h7, -⟩ := exAfmTable_ok
  refine ⟨fm, f, 2, 1, 4, h1, h2, h3, h4, by decide, ?_, ?_, ?_, ?_⟩
  · show inferMTry exStrokes ['0'] (allowedFeatures fm [] "C:y" none none).length = some 2
    rw [h7]
    decide +kernel
  · show (2 : Int) ≤ (allowedFeatures fm [] "C:y" none none).length
    rw [h7]
    decide
  · rw [h5, h6]
    decide +kernel
  · rw [h6]
    decide +kernel

/-- The same for the number as target: the means are 3/2 and 5/2. -/
example : (∀ x, exStrokes.Faithful x) ∧ (∃ fm f m l s, parseAFM exStrokes exAfmTable = some fm ∧ fm.Clean exGrowNums.target ∧ .num f ∈ fm.data ∧
      f.name = exGrowNums.target ∧ exGrowNums.target ∉ exGrowNums.blacklist ∧
      inferMTry exStrokes exGrowNums.mTry (allowedFeatures fm exGrowNums.blacklist exGrowNums.target exGrowNums.block exGrowNums.incl).length =
        some m ∧ m ≤ (allowedFeatures fm exGrowNums.blacklist exGrowNums.target exGrowNums.block exGrowNums.incl).length ∧
      inferLeafSize exStrokes exGrowNums.leafSize false 0 (nKnown f.missing) = some l ∧
      inferNSamples exStrokes exGrowNums.nSamples (nKnown f.missing) = some s) ∧
    ((growCommand exStrokes id (fun s => s.left) exGrowNums 20 id exAfmTable (fun _ k => 5 * k + 1) (fun _ k => 3 * k + 1) id).bind fun file =>
      (applyCommand exStrokes ⟨false, false, false, false⟩ file exAfmTable).map fun x =>
        (List.range 5).map (firstTally exStrokes x)) =
      some [some "0111d", some "0111d", some "011111d", some "011111d", some "0111d"] := by
  refine ⟨exStrokes_faithful, ?_, by decide +kernel⟩
  obtain ⟨fm, f, g, h1, -, h2, -, -, -, -, h3, h4, h6, -, h7⟩ := exAfmTable_ok
  refine ⟨fm, g, 2, 1, 4, h1, h2, h3, h4, by decide, ?_, ?_, ?_, ?_⟩
  · show inferMTry exStrokes ['0'] (allowedFeatures fm [] "N:x" none none).length = some 2
    rw [h7]
    decide +kernel
  · show (2 : Int) ≤ (allowedFeatures fm [] "N:x" none none).length
    rw [h7]
    decide
  · rw [h6]
    decide +kernel
  · rw [h6]
    decide +kernel

/-- **C140 is false of the code** for classes under a name that begins with N. applyforest takes them for numbers, which they are
not, and the box holds "NA" for every case, though all trees answer (before this is written it panics: `c167_name`). -/
theorem c140_name :
    ((growCommand exStrokes id (fun s => s.left) { target := "Near", nTrees := 2 } 20 id
        ".\tN:x\tNear\na\t01\tyes\nb\t01\tyes\nc\t0111\tno\nd\t0111\tno\n".toList (fun _ k => 5 * k + 1) (fun _ k => 3 * k + 1) id).bind fun file =>
      (applyCommand exStrokes ⟨false, false, false, false⟩ file
        ".\tN:x\tNear\na\t01\tyes\nb\t01\tyes\nc\t0111\tno\nd\t0111\tno\n".toList).map fun x =>
        (x.1.trees.map fun t => leavesOf t.root |>.map (·.2), (List.range 4).map (firstTally exStrokes x))) =
      some ([["yes", "no"], ["yes", "no"]], [some "NA", some "NA", some "NA", some "NA"]) := by
  decide +kernel

/-- **C140 is false of the code** for `-balance` with a numerical target: growforest panics. -/
theorem c140_balance : growCommand exStrokes id (fun s => s.left) { exGrowNums with balance := true } 20 id exAfmTable
    (fun _ k => 5 * k + 1) (fun _ k => 3 * k + 1) id = none := by
  decide +kernel

end CloudForest
