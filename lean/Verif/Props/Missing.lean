import Verif.Lemmas.Missing

/-!
# C165: `-splitmissing`, from a data file to predictions

The trees get a third branch for the cases whose value is missing. The file does not keep it.
-/

set_option linter.unusedSectionVars false

namespace CloudForest
variable {K : Type} [Field K] [LinearOrder K] [IsStrictOrderedRing K]

/-- **C165, classes.** The text of a table is parsed, growforest with `-splitmissing` grows a forest from it and writes it, applyforest
reads the file and predicts the classes of the same table. Nothing on this way panics; growforest can only go on drawing. The trees
that were grown answer every case, and with the class most frequent among the cases of the bag in its leaf, which for a missing value
is a leaf of cases that also lack it. What is predicted is not what most of these trees answer, but what most answer if a case goes right
wherever its value is missing: the class most frequent among the cases of the bag in that leaf. No case is left without a prediction.

Missing from the full property: cases with missing values are not predicted from cases that also lack them, `c165_other_side`. For
cases whose values are all known the two agree, `c165_known`. -/
theorem c165_classes_partial [FloorRing K] {nt : NumText K} (hnt : ∀ x, nt.Faithful x) {ord : Splitter K → List String}
    (hord : ∀ s : Splitter K, (ord s).Perm s.left) {order : List Nat → List Nat} (horder : ∀ bag, (order bag).Perm bag)
    {text : Text} {fm : FeatureMatrix K} (hp : parseAFM nt text = some fm) {a : GrowArgs} (hc : fm.Clean a.target)
    {f : CatFeature} (hf : .cat f ∈ fm.data) (hn : f.name = a.target) (hids : a.target ∉ a.blacklist) {m l s : Int}
    (hm : inferMTry nt a.mTry (allowedFeatures fm a.blacklist a.target a.block a.incl).length = some m)
    (hmle : m ≤ (allowedFeatures fm a.blacklist a.target a.block a.incl).length)
    (hl : inferLeafSize nt a.leafSize false f.cm.nCats (nKnown f.missing) = some l)
    (hs : inferNSamples nt a.nSamples (nKnown f.missing) = some s) (hcores : 1 ≤ a.nCores)
    (hvet : ¬ (a.vet = true ∧ a.evaloob = true)) (draws : Nat) (log : XF K → XF K) (own global : Nat → Rng) (pick : Nat → Nat) :
    (growMissingCommand nt log ord a draws order text own global pick = none →
      (a.nobag = false ∧ a.balance = false) ∧ ∃ rng, bagLoop (f.missing[·]?) f.missing.length s.toNat draws [] rng = none) ∧
    ∀ file, growMissingCommand nt log ord a draws order text own global pick = some file →
      ∃ voters : List (Tree K × List Nat), voters.length = max a.nCores a.nTrees ∧
        (∀ x ∈ voters, (∀ c ∈ x.2, f.missing[c]? = some false) ∧ x.2.length ≤ s ∧ (a.nobag = false → x.2.length = s ∧ x.2 ≠ []) ∧
          ∀ c < fm.caseLabels.length,
            (∃ p, x.1.opinion fm c = some p ∧ (neighbours fm x.1 x.2 c ≠ [] → f.Plurality (neighbours fm x.1 x.2 c) p)) ∧
            ∃ p, x.1.opinionRight fm c = some p ∧ (x.2 ≠ [] → f.Plurality (neighboursRight fm x.1 x.2 c) p)) ∧
        ∀ (tanh : XF K → XF K) (o : ApplyOptions), o.sum = false →
          (o.cat = true ∨ o.num = false ∧ a.target.toList.head? ≠ some 'N') →
          ∃ forest bb, applyCommand nt o file text = some (forest, bb) ∧ forest.target = a.target ∧
            ∀ c < fm.caseLabels.length, (∃ res, bb.Predicts nt tanh o forest.intercept c res) ∧
              ∀ res, bb.Predicts nt tanh o forest.intercept c res → ∃ p, res = some p ∧
                0 < votesForRight fm voters c p ∧ ∀ q, votesForRight fm voters c q ≤ votesForRight fm voters c p := by
  obtain ⟨ti, b, hP⟩ := prepared hp hc hf hn hids
  have hl1 := inferLeafSize_pos hl
  obtain ⟨i, hi⟩ := hc.known _ hf hn
  have hs1 := inferNSamples_pos (nKnown_pos hi) hs
  have hcons : f.Consistent := (c139_afm nt text fm hp).1.consistent _ hf
  have hlen : f.missing.length = fm.caseLabels.length := hP.length
  obtain ⟨how, hhow, hnob, hpl, L, good, hr0, hok⟩ := class_ready (m := m.toNat) (l := l.toNat) (s := s.toNat) hp hc hf hn hP (by omega) (by omega)
    horder draws log
  have hr : ({ a.classRun log fm f how m.toNat l.toNat s.toNat draws order with splitmissing := true } : RunSetup K CatFeature).Ok L good
      (candidates fm ti b.marks) := ⟨hr0.1, hr0.2, hr0.3, hr0.4, hr0.5⟩
  have hcmd : growMissingCommand nt log ord a draws order text own global pick =
      (({ a.classRun log fm f how m.toNat l.toNat s.toNat draws order with splitmissing := true } : RunSetup K CatFeature).runCores
        ({ a.classRun log fm f how m.toNat l.toNat s.toNat draws order with splitmissing := true } : RunSetup K CatFeature).grower
        a.nCores (nKnown f.missing) f.cm.nCats (candidates fm ti b.marks) own global pick).bind fun out =>
      growforestFile nt ord a.progress a.target none (out.map (·.1)) := by
    simp only [growMissingCommand, hp, hP.chosen, hP.count, hm, hP.target, hl, hs, hhow, Option.bind_eq_bind, Option.bind_some]
  have htidy := hc.tidy _ hf
  obtain ⟨h1, h2⟩ := run_read_righted hr hvet hcores hok own global pick hnt
    (fun g hg => by have := hc.tidy g hg; cases g <;> exact this)
    (fun cs => by
      show Plain ((f.findPredicted cs).getD "").toList
      cases hfp : f.findPredicted cs with
      | none => exact plain_empty
      | some p =>
        unfold CatFeature.findPredicted at hfp
        obtain ⟨m, -, hb⟩ := Option.bind_eq_some_iff.1 hfp
        exact (htidy.2 p (List.mem_of_getElem? hb)).1) (by
      show Plain a.target.toList
      rw [← hn]
      exact htidy.1) ord hord a.progress
  rw [hcmd]
  refine ⟨fun h => ?_, fun file h => ?_⟩
  · obtain ⟨rng, hh, he⟩ := h1 h
    exact ⟨hpl hh, rng, he⟩
  · obtain ⟨out, forest, c1, hrec, c4, c5, c6, c7⟩ := h2 file h
    obtain ⟨c2, c3⟩ := recorded_righted_voters hr rfl hrec
    have hplu : ∀ x ∈ out, ∀ S : List Nat, (∀ d ∈ S, d ∈ x.2) → S ≠ [] → f.Plurality S ((f.findPredicted S).getD "") := by
      intro x hx S hS hne
      obtain ⟨p', g4, g5⟩ := plurality_of hcons (S := S) (fun d hd => (c3 x hx).2.2.1 d (hS d hd)) hne
      rw [g4]
      exact g5
    refine ⟨out.map voterOf, by rw [List.length_map]; exact c1, ?_, ?_⟩
    · intro y hy
      obtain ⟨x, hx, rfl⟩ := List.mem_map.1 hy
      obtain ⟨-, d1, d2, d3⟩ := c3 x hx
      have d1a : x.2.length ≤ s.toNat := d1.1
      refine ⟨d2, by show (x.2.length : Int) ≤ s; omega, fun hnb => ?_, fun c hcl => ?_⟩
      · have : x.2.length = s.toNat := d1.2 (hnob.trans hnb)
        exact ⟨by show (x.2.length : Int) = s; omega, List.ne_nil_of_length_pos (by show 0 < x.2.length; omega)⟩
      · obtain ⟨⟨p, e1, e2⟩, -, q, S, e3, e4, e5, e6⟩ := d3 c (List.mem_range.2 (by rw [← hlen] at hcl; exact hcl))
        refine ⟨⟨p, e1, fun hne => ?_⟩, q, e3, fun hne => ?_⟩
        · obtain ⟨S, g1, g2⟩ := e2 hne
          have := hplu x hx S (fun d hd => (List.mem_filter.1 (g1.mem_iff.1 hd)).1) (fun h0 => hne (by rw [h0] at g1; exact List.nil_perm.1 g1))
          rw [g2]
          exact Plurality.perm g1 this
        · have := hplu x hx S (fun d hd => (List.mem_filter.1 (e4.mem_iff.1 hd)).1) (e6 hne)
          rw [e5]
          exact Plurality.perm e4 this
    · intro tanh o hsum hcat
      obtain ⟨bb, e1, e2⟩ := c97_classes nt tanh o (righted a.target out) fm fm.caseLabels.length hP.cases c2 rfl hsum hcat
      refine ⟨forest, bb, ?_, c5, ?_⟩
      · have := c7 o
        simp only [applyCommand, hp, c4, Option.bind_eq_bind, Option.bind_some]
        rw [show applyForest nt o forest fm = some bb from this.trans e1]
        rfl
      · rw [c6]
        intro c hcl
        have hcm : c ∈ List.range f.missing.length := List.mem_range.2 (by rw [← hlen] at hcl; exact hcl)
        obtain ⟨g1, g2⟩ := e2 c hcl
        refine ⟨g1, fun res hres => ?_⟩
        obtain ⟨p, hp', g3⟩ := g2 res hres
        have hw : ∀ q, weightOf fm (righted a.target out).trees c q = (votesForRight fm (out.map voterOf) c q : K) := by
          intro q
          rw [← votesFor_righted fm c q out fun x hx => ((c3 x hx).2.2.2 c hcm).2.1]
          exact weightOf_votes fm c q _ fun x hx => by
            obtain ⟨y, hy, rfl⟩ := List.mem_map.1 hx
            exact (c3 y hy).1
        refine ⟨p, hp', ?_⟩
        simp only [hw] at g3
        rcases g3 with ⟨g4, g5⟩ | ⟨g4, g5⟩
        · obtain ⟨x, hx⟩ := List.exists_mem_of_length_pos (l := out) (by rw [c1]; exact Nat.lt_of_lt_of_le hcores (le_max_left _ _))
          obtain ⟨-, -, q, S, e3, -⟩ := (c3 x hx).2.2.2 c hcm
          have h0 : votesForRight fm (out.map voterOf) c q = 0 := by have := g5 q; exact_mod_cast Nat.le_zero.1 (by exact_mod_cast this)
          have : voterOf x ∈ (out.map voterOf).filter fun x => decide (x.1.opinionRight fm c = some q) :=
            List.mem_filter.2 ⟨List.mem_map_of_mem hx, decide_eq_true e3⟩
          unfold votesForRight at h0
          rw [List.length_eq_zero_iff.1 h0] at this
          cases this
        · exact ⟨by exact_mod_cast g4, fun q => by exact_mod_cast g5 q⟩

/-- **C165, numbers.** The same for a numerical target: what is predicted is the mean over all trees of the mean of the values of the
cases of the bag in the leaf that the case reaches going right wherever its value is missing.

Missing from the full property: cases with missing values are not predicted from cases that also lack them, `c165_other_side`;
`-balance`, as in `c140_balance`. -/
theorem c165_numbers_partial [FloorRing K] {nt : NumText K} (hnt : ∀ x, nt.Faithful x) {ord : Splitter K → List String}
    (hord : ∀ s : Splitter K, (ord s).Perm s.left) {order : List Nat → List Nat} (horder : ∀ bag, (order bag).Perm bag)
    {text : Text} {fm : FeatureMatrix K} (hp : parseAFM nt text = some fm) {a : GrowArgs} (hc : fm.Clean a.target)
    {f : NumFeature K} (hf : .num f ∈ fm.data) (hn : f.name = a.target) (hids : a.target ∉ a.blacklist) (hbal : a.balance = false)
    {m l s : Int}
    (hm : inferMTry nt a.mTry (allowedFeatures fm a.blacklist a.target a.block a.incl).length = some m)
    (hmle : m ≤ (allowedFeatures fm a.blacklist a.target a.block a.incl).length)
    (hl : inferLeafSize nt a.leafSize false 0 (nKnown f.missing) = some l)
    (hs : inferNSamples nt a.nSamples (nKnown f.missing) = some s) (hcores : 1 ≤ a.nCores)
    (hvet : ¬ (a.vet = true ∧ a.evaloob = true)) (draws : Nat) (log : XF K → XF K) (own global : Nat → Rng) (pick : Nat → Nat) :
    (growMissingCommand nt log ord a draws order text own global pick = none →
      a.nobag = false ∧ ∃ rng, bagLoop (f.missing[·]?) f.missing.length s.toNat draws [] rng = none) ∧
    ∀ file, growMissingCommand nt log ord a draws order text own global pick = some file →
      ∃ voters : List (Tree K × List Nat), voters.length = max a.nCores a.nTrees ∧
        (∀ x ∈ voters, (∀ c ∈ x.2, f.missing[c]? = some false) ∧ x.2.length ≤ s ∧ (a.nobag = false → x.2.length = s ∧ x.2 ≠ []) ∧
          ∀ c < fm.caseLabels.length,
            (∃ p, x.1.opinion fm c = some p ∧
              (neighbours fm x.1 x.2 c ≠ [] → p = String.ofList (nt.fmt (.fin (f.meanOf (neighbours fm x.1 x.2 c)))))) ∧
            (x.2 ≠ [] → neighboursRight fm x.1 x.2 c ≠ [])) ∧
        ∀ (tanh : XF K → XF K) (o : ApplyOptions), o.sum = false → o.cat = false → (∀ x ∈ voters, x.2 ≠ []) →
          ∃ forest bb, applyCommand nt o file text = some (forest, bb) ∧ forest.target = a.target ∧
            ∀ c < fm.caseLabels.length, ∀ res, bb.Predicts nt tanh o forest.intercept c res ↔
              res = some (String.ofList (nt.fmt (.fin
                ((voters.map fun x => f.meanOf (neighboursRight fm x.1 x.2 c)).sum / voters.length)))) := by
  obtain ⟨ti, b, hP⟩ := prepared hp hc hf hn hids
  have hl1 := inferLeafSize_pos hl
  obtain ⟨i, hi⟩ := hc.known _ hf hn
  have hs1 := inferNSamples_pos (nKnown_pos hi) hs
  have hcons : f.Consistent := (c139_afm nt text fm hp).1.consistent _ hf
  have hlen : f.missing.length = fm.caseLabels.length := hP.length
  obtain ⟨hfin, L, good, hr0, hok⟩ := num_ready (m := m.toNat) (l := l.toNat) (s := s.toNat) hp hc hf hn hP (by omega) (by omega) horder draws
  have hr : ({ a.numRun nt fm f m.toNat l.toNat s.toNat draws order with splitmissing := true } : RunSetup K (NumFeature K)).Ok L good
      (candidates fm ti b.marks) := ⟨hr0.1, hr0.2, hr0.3, hr0.4, hr0.5⟩
  have hcmd : growMissingCommand nt log ord a draws order text own global pick =
      (({ a.numRun nt fm f m.toNat l.toNat s.toNat draws order with splitmissing := true } : RunSetup K (NumFeature K)).runCores
        ({ a.numRun nt fm f m.toNat l.toNat s.toNat draws order with splitmissing := true } : RunSetup K (NumFeature K)).grower
        a.nCores (nKnown f.missing) 0 (candidates fm ti b.marks) own global pick).bind fun out =>
      growforestFile nt ord a.progress a.target none (out.map (·.1)) := by
    simp only [growMissingCommand, hp, hP.chosen, hP.count, hm, hP.target, hl, hs, hbal, Option.bind_eq_bind, Option.bind_some]
    rfl
  have htidy := hc.tidy _ hf
  obtain ⟨h1, h2⟩ := run_read_righted hr hvet hcores hok own global pick hnt
    (fun g hg => by have := hc.tidy g hg; cases g <;> exact this)
    (fun cs => by
      show Plain ((f.findPredicted nt cs).getD "").toList
      cases hfp : f.findPredicted nt cs with
      | none => exact plain_empty
      | some p =>
        unfold NumFeature.findPredicted at hfp
        obtain ⟨m, -, hb⟩ := Option.bind_eq_some_iff.1 hfp
        cases hb
        rw [Option.getD_some, String.toList_ofList]
        exact (hnt m).1) (by
      show Plain a.target.toList
      rw [← hn]
      exact htidy) ord hord a.progress
  rw [hcmd]
  refine ⟨fun h => ?_, fun file h => ?_⟩
  · obtain ⟨rng, hh, he⟩ := h1 h
    refine ⟨?_, rng, he⟩
    have hh : (if a.nobag then Bagging.nobag else .plain) = .plain := hh
    cases hnb : a.nobag with
    | false => rfl
    | true => rw [hnb] at hh; cases hh
  · obtain ⟨out, forest, c1, hrec, c4, c5, c6, c7⟩ := h2 file h
    obtain ⟨c2, c3⟩ := recorded_righted_voters hr rfl hrec
    have hmean : ∀ x ∈ out, ∀ S : List Nat, (∀ d ∈ S, d ∈ x.2) → S ≠ [] →
        (f.findPredicted nt S).getD "" = String.ofList (nt.fmt (.fin (f.meanOf S))) := by
      intro x hx S hS hne
      have hk : ∀ d ∈ S, f.missing[d]? = some false := fun d hd => (c3 x hx).2.2.1 d (hS d hd)
      have hkl : ∀ d ∈ S, d < f.missing.length := fun d hd => (List.getElem?_eq_some_iff.1 (hk d hd)).1
      have hme := mean_eq f S hkl hcons.lengths (by
        rw [knownOf_all hk]
        exact fun d hd => hfin d (List.mem_range.2 (hkl d hd))) (by rw [knownOf_all hk]; exact hne)
      rw [knownOf_all hk] at hme
      unfold NumFeature.findPredicted
      rw [hme]
      rfl
    have hright : ∀ x ∈ out, x.2 ≠ [] → ∀ c < fm.caseLabels.length, neighboursRight fm (voterOf x).1 x.2 c ≠ [] ∧
        (rightedOf x).1.opinion fm c = some (String.ofList (nt.fmt (.fin (f.meanOf (neighboursRight fm (voterOf x).1 x.2 c))))) := by
      intro x hx hne c hcl
      obtain ⟨-, e0, q, S, e3, e4, e5, e6⟩ := (c3 x hx).2.2.2 c (List.mem_range.2 (by rw [← hlen] at hcl; exact hcl))
      have e4 : S.Perm (neighboursRight fm (voterOf x).1 x.2 c) := e4
      refine ⟨fun h0 => e6 hne (by rw [h0] at e4; exact List.perm_nil.1 e4), ?_⟩
      refine (e0.trans e3).trans (congrArg some ?_)
      rw [e5, ← neighbours_mean_perm e4]
      exact hmean x hx S (fun d hd => (List.mem_filter.1 (e4.mem_iff.1 hd)).1) (e6 hne)
    refine ⟨out.map voterOf, by rw [List.length_map]; exact c1, ?_, ?_⟩
    · intro y hy
      obtain ⟨x, hx, rfl⟩ := List.mem_map.1 hy
      obtain ⟨-, d1, d2, d3⟩ := c3 x hx
      have d1a : x.2.length ≤ s.toNat := d1.1
      refine ⟨d2, by show (x.2.length : Int) ≤ s; omega, fun hnb => ?_, fun c hcl => ?_⟩
      · have : x.2.length = s.toNat := d1.2 (by
          show (if a.nobag then Bagging.nobag else .plain).isNobag = false
          rw [hnb]
          rfl)
        exact ⟨by show (x.2.length : Int) = s; omega, List.ne_nil_of_length_pos (by show 0 < x.2.length; omega)⟩
      · obtain ⟨⟨p, e1, e2⟩, -⟩ := d3 c (List.mem_range.2 (by rw [← hlen] at hcl; exact hcl))
        refine ⟨⟨p, e1, fun hne => ?_⟩, fun hne => (hright x hx hne c hcl).1⟩
        obtain ⟨S, g1, g2⟩ := e2 hne
        have g1 : S.Perm (neighbours fm (voterOf x).1 x.2 c) := g1
        have := hmean x hx S (fun d hd => (List.mem_filter.1 (g1.mem_iff.1 hd)).1) (fun h0 => hne (by rw [h0] at g1; exact List.nil_perm.1 g1))
        rw [g2]
        refine Eq.trans this ?_
        rw [neighbours_mean_perm g1]
        rfl
    · intro tanh o hsum hcat hne
      have hne' : ∀ x ∈ out, x.2 ≠ [] := fun x hx => hne (voterOf x) (List.mem_map_of_mem hx)
      have hw : ∀ x ∈ out.map rightedOf, x.1.weight = .fin (-1) := fun x hx => by
        obtain ⟨y, hy, rfl⟩ := List.mem_map.1 hx
        exact (c3 y hy).1
      have hN : a.target.toList.head? = some 'N' := by
        rw [← hn]
        exact parsed_num_name hp hf
      obtain ⟨bb, e1, e2⟩ := c97_mean_partial nt tanh o (righted a.target out) fm fm.caseLabels.length 0 hP.cases c2 rfl hsum hcat
        (.inr hN) (by
          intro t ht
          obtain ⟨x, hx, rfl⟩ := List.mem_map.1 ht
          rw [say_one (hw x hx)]
          exact zero_lt_one) (by
          intro t ht c hcl p y ho hy
          obtain ⟨x, hx, rfl⟩ := List.mem_map.1 ht
          obtain ⟨z, hz, rfl⟩ := List.mem_map.1 hx
          rw [(hright z hz (hne' z hz) c hcl).2, Option.some.injEq] at ho
          rw [← ho, String.toList_ofList, (hnt _).2] at hy
          cases hy
          exact .inr ⟨_, rfl⟩)
      refine ⟨forest, bb, ?_, c5, ?_⟩
      · have := c7 o
        simp only [applyCommand, hp, c4, Option.bind_eq_bind, Option.bind_some]
        rw [show applyForest nt o forest fm = some bb from this.trans e1]
        rfl
      · rw [c6]
        intro c hcl res
        have := e2 c hcl res
        have hnum : numbersOf nt fm (righted a.target out).trees c =
            (out.map fun x => f.meanOf (neighboursRight fm (voterOf x).1 x.2 c)).map fun y => (y, 1) := by
          have := numbersOf_all hnt fm c (fun x => (rightedOf x).1) (fun x => f.meanOf (neighboursRight fm (voterOf x).1 x.2 c)) out
            (fun x hx => (c3 x hx).1) fun x hx => (hright x hx (hne' x hx) c hcl).2
          rw [← this]
          unfold righted
          rw [List.map_map]
          rfl
        rw [hnum, means_average] at this
        have hnn : out ≠ [] := List.ne_nil_of_length_pos (by rw [c1]; exact Nat.lt_of_lt_of_le hcores (le_max_left _ _))
        simp only [if_pos, List.map_eq_nil_iff, if_neg hnn, List.length_map] at this
        rw [List.map_map, List.length_map]
        exact this

theorem landingRight_known {fm : FeatureMatrix K} {c : Nat} (h : ∀ f ∈ fm.data, f.isMissing c ≠ some true) : ∀ n : Node K,
    landingRight fm n c = landing fm n c := by
  intro n
  induction n with
  | nil => rfl
  | mk coded fi l r m pred spl ihl ihr ihm =>
    rw [landingRight, landing]
    split
    · cases hd : caseDir fm coded fi spl c with
      | none => rfl
      | some d =>
        cases d with
        | L => simp only [ihl]
        | R => simp only [ihr]
        | M =>
          obtain ⟨g, hg, e⟩ := caseDir_missing hd
          exact absurd e (h g hg)
    · rfl

/-- **C165, cases with all values.** For a case without missing values it makes no difference that the third branch is lost: the leaf
is the one it reaches in the tree that was grown. -/
theorem c165_known {fm : FeatureMatrix K} {c : Nat} (h : ∀ f ∈ fm.data, f.isMissing c ≠ some true) (t : Tree K) (bag : List Nat) :
    t.opinionRight fm c = t.opinion fm c ∧ neighboursRight fm t bag c = neighbours fm t bag c := by
  unfold Tree.opinionRight Tree.opinion neighboursRight neighbours
  rw [landingRight_known h]
  exact ⟨rfl, rfl⟩

/-! ## Examples -/

/-- A table of six cases. The number is missing for the last two, which are a class of their own, and have a larger second number. -/
def exGapTable : Text :=
  ".\tN:x\tC:y\tN:z\na\t01\tlow\t01\nb\t01\tlow\t01\nc\t0111\thigh\t011\nd\t0111\thigh\t011\ne\tNA\tlost\t01111111\nf\tNA\tlost\t01111111\n".toList

/-- One tree for the class, from all cases and the first number. -/
def exGapArgs : GrowArgs := { target := "C:y", nTrees := 1, nobag := true, blacklist := ["N:z"] }

/-- One tree for the second number. -/
def exGapNums : GrowArgs := { target := "N:z", nTrees := 1, nobag := true, leafSize := ['1'], blacklist := ["C:y"] }

theorem exGapTable_ok : ∃ fm f g, parseAFM exStrokes exGapTable = some fm ∧ fm.Clean "C:y" ∧ fm.Clean "N:z" ∧
    .cat f ∈ fm.data ∧ f.name = "C:y" ∧ f.cm.nCats = 3 ∧ nKnown f.missing = 6 ∧ .num g ∈ fm.data ∧ g.name = "N:z" ∧ nKnown g.missing = 6 ∧
    (allowedFeatures fm ["N:z"] "C:y" none none).length = 1 ∧ (allowedFeatures fm ["C:y"] "N:z" none none).length = 1 := by
  have h : (parseAFM exStrokes exGapTable).any (fun fm => cleanCheck fm "C:y" && cleanCheck fm "N:z" && (match fm.data with
      | [_, .cat f, .num g] => decide (f.name = "C:y" ∧ f.cm.nCats = 3 ∧ nKnown f.missing = 6 ∧ g.name = "N:z" ∧ nKnown g.missing = 6)
      | _ => false) && decide ((allowedFeatures fm ["N:z"] "C:y" none none).length = 1 ∧
        (allowedFeatures fm ["C:y"] "N:z" none none).length = 1)) = true := by
    decide +kernel
  obtain ⟨fm, h1, h2⟩ := (Option.any_eq_true _ _).1 h
  simp only [Bool.and_eq_true, decide_eq_true_eq] at h2
  obtain ⟨⟨⟨c1, c2⟩, c3⟩, c4, c5⟩ := h2
  split at c3
  · rename_i k f g hd
    simp only [decide_eq_true_eq] at c3
    obtain ⟨d1, d2, d3, d4, d5⟩ := c3
    exact ⟨fm, f, g, h1, cleanCheck_ok c1, cleanCheck_ok c2, by rw [hd]; simp, d1, d2, d3, by rw [hd]; simp, d4, d5, c4, c5⟩
  · cases c3

/-- The conditions of `c165_classes_partial` hold for this table. -/
example : ∃ fm f m l s, parseAFM exStrokes exGapTable = some fm ∧ fm.Clean exGapArgs.target ∧ .cat f ∈ fm.data ∧
      f.name = exGapArgs.target ∧ exGapArgs.target ∉ exGapArgs.blacklist ∧
      inferMTry exStrokes exGapArgs.mTry (allowedFeatures fm exGapArgs.blacklist exGapArgs.target exGapArgs.block exGapArgs.incl).length =
        some m ∧ m ≤ (allowedFeatures fm exGapArgs.blacklist exGapArgs.target exGapArgs.block exGapArgs.incl).length ∧
      inferLeafSize exStrokes exGapArgs.leafSize false f.cm.nCats (nKnown f.missing) = some l ∧
      inferNSamples exStrokes exGapArgs.nSamples (nKnown f.missing) = some s := by
  obtain ⟨fm, f, g, h1, h2, -, h3, h4, h5, h6, -, -, -, h7, -⟩ := exGapTable_ok
  refine ⟨fm, f, 1, 1, 6, h1, h2, h3, h4, by decide, ?_, ?_, ?_, ?_⟩
  · show inferMTry exStrokes ['0'] (allowedFeatures fm ["N:z"] "C:y" none none).length = some 1
    rw [h7]
    decide +kernel
  · show (1 : Int) ≤ (allowedFeatures fm ["N:z"] "C:y" none none).length
    rw [h7]
    decide
  · rw [h5, h6]
    decide +kernel
  · rw [h6]
    decide +kernel

/-- The conditions of `c165_numbers_partial` hold for it, and the commands work: the last two cases get the mean of the cases with
a large first number, which is 2, though their own is 7. -/
example : (∃ fm f m l s, parseAFM exStrokes exGapTable = some fm ∧ fm.Clean exGapNums.target ∧ .num f ∈ fm.data ∧
      f.name = exGapNums.target ∧ exGapNums.target ∉ exGapNums.blacklist ∧ exGapNums.balance = false ∧
      inferMTry exStrokes exGapNums.mTry (allowedFeatures fm exGapNums.blacklist exGapNums.target exGapNums.block exGapNums.incl).length =
        some m ∧ m ≤ (allowedFeatures fm exGapNums.blacklist exGapNums.target exGapNums.block exGapNums.incl).length ∧
      inferLeafSize exStrokes exGapNums.leafSize false 0 (nKnown f.missing) = some l ∧
      inferNSamples exStrokes exGapNums.nSamples (nKnown f.missing) = some s) ∧
    ((growMissingCommand exStrokes id (fun s => s.left) exGapNums 20 id exGapTable (fun _ k => 5 * k + 1) (fun _ k => 3 * k + 1) id).bind fun file =>
      (applyCommand exStrokes ⟨false, false, false, false⟩ file exGapTable).map fun x =>
        (List.range 6).map (firstTally exStrokes x)) =
      some [some "01", some "01", some "011", some "011", some "011", some "011"] := by
  refine ⟨?_, by decide +kernel⟩
  obtain ⟨fm, f, g, h1, -, h2, -, -, -, -, h3, h4, h6, -, h7⟩ := exGapTable_ok
  refine ⟨fm, g, 1, 1, 6, h1, h2, h3, h4, by decide, rfl, ?_, ?_, ?_, ?_⟩
  · show inferMTry exStrokes ['0'] (allowedFeatures fm ["C:y"] "N:z" none none).length = some 1
    rw [h7]
    decide +kernel
  · show (1 : Int) ≤ (allowedFeatures fm ["C:y"] "N:z" none none).length
    rw [h7]
    decide
  · rw [h6]
    decide +kernel
  · rw [h6]
    decide +kernel

/-- **C165 is false of the code**: both cases that lack the number are of a class of their own, and the tree that was grown answers
with it. From the file they are predicted as cases with a large number; their class is not predicted for any case. -/
theorem c165_other_side :
    ((growMissingCommand exStrokes id (fun s => s.left) exGapArgs 20 id exGapTable (fun _ k => 5 * k + 1) (fun _ k => 3 * k + 1) id).bind
        fun file => (applyCommand exStrokes ⟨false, false, false, false⟩ file exGapTable).map fun x =>
          (List.range 6).map (firstTally exStrokes x)) =
      some [some "low", some "low", some "high", some "high", some "high", some "high"] ∧
    ((parseAFM exStrokes exGapTable).bind fun fm => match (fm.data[1]? : Option (Feature ℚ)) with
      | some (.cat f) =>
        let r := { exGapArgs.classRun id fm f .nobag 1 1 6 20 id with splitmissing := true }
        (r.runCores r.grower 1 6 3 [0] (fun _ k => 5 * k + 1) (fun _ k => 3 * k + 1) id).map fun out =>
          out.map fun x => (List.range 6).map fun c => x.1.opinion fm c
      | _ => none) = some [[some "low", some "low", some "high", some "high", some "lost", some "lost"]] := by
  decide +kernel

/-- A case with all values. -/
example : ∃ fm, parseAFM exStrokes exGapTable = some fm ∧ (∀ f ∈ fm.data, f.isMissing 2 ≠ some true) ∧ fm.data.length = 3 := by
  have h : (parseAFM exStrokes exGapTable).any (fun fm => (fm.data.all fun f => decide (f.isMissing 2 ≠ some true)) &&
      decide (fm.data.length = 3)) = true := by
    decide +kernel
  obtain ⟨fm, h1, h2⟩ := (Option.any_eq_true _ _).1 h
  simp only [Bool.and_eq_true, List.all_eq_true, decide_eq_true_eq] at h2
  exact ⟨fm, h1, h2.1, h2.2⟩

end CloudForest
