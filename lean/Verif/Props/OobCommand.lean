import Verif.Lemmas.OobCommand
import Verif.Props.ApplyWhole

/-!
# C171: out-of-bag error and predictions, from the data file on
-/

set_option linter.unusedSectionVars false

namespace CloudForest
variable {K : Type} [Field K] [LinearOrder K] [IsStrictOrderedRing K]

theorem neighbours_voterOf (fm : FeatureMatrix K) (x : Tree K × List Nat) (c : Nat) :
    neighbours fm (voterOf x).1 (voterOf x).2 c = neighbours fm x.1 x.2 c := by
  unfold neighbours voterOf
  simp only [landing_prune]

theorem opinion_voterOf (fm : FeatureMatrix K) (x : Tree K × List Nat) (c : Nat) : (voterOf x).1.opinion fm c = x.1.opinion fm c := by
  unfold Tree.opinion voterOf
  simp only [landing_prune]

theorem says_opinion {fm : FeatureMatrix K} {x : Tree K × List Nat} {c : Nat} {p : String} (h : saysOutside fm x c = some p) :
    c ∉ x.2 ∧ x.1.opinion fm c = some p := by
  unfold saysOutside at h
  split at h
  · cases h
  · rename_i hc
    obtain ⟨q, e⟩ := heard_landing fm _ c h
    exact ⟨hc, by unfold Tree.opinion; rw [e]; rfl⟩

theorem says_all {fm : FeatureMatrix K} {x : Tree K × List Nat} {c : Nat} (hn : prune x.1.root = x.1.root) (hc : c ∉ x.2) :
    saysOutside fm x c = x.1.opinion fm c := by
  unfold saysOutside
  rw [if_neg hc, heard_all fm _ c hn]
  rfl

theorem votesOutside_perm {fm : FeatureMatrix K} {v v' : List (Tree K × List Nat)} (h : v.Perm v') (c : Nat) (p : String) :
    votesOutside fm v c p = votesOutside fm v' c p := (h.filter _).length_eq

/-! ## C171 -/

/-- **C171, classes.** growforest with `-oob` writes the same forest as without, and does not panic where it would not without. For each case a line is
written with its label, a class that most of the trees heard say that do not have the case in their bag, or "NA" if none is heard, and the actual class.
The error printed is the mean over the classes of the fraction of cases that are predicted wrongly, by the predictions counted, which are such as are
written. What is heard of a tree is what it answers, and if no worker grows two trees all answers are heard.

Missing from the full property: answers of trees grown in an old tree object that are not heard, `c171_lost`; a case in all bags is counted as wrong,
`c171_inside`; ties, as in C167. -/
theorem c171_classes_partial [FloorRing K] {nt : NumText K} {ord : Splitter K → List String}
    {order : List Nat → List Nat} (horder : ∀ bag, (order bag).Perm bag)
    {text : Text} {fm : FeatureMatrix K} (hp : parseAFM nt text = some fm) {a : GrowArgs} (hc : fm.Clean a.target)
    {f : CatFeature} (hf : .cat f ∈ fm.data) (hn : f.name = a.target) (hids : a.target ∉ a.blacklist) {m l s : Int}
    (hm : inferMTry nt a.mTry (allowedFeatures fm a.blacklist a.target a.block a.incl).length = some m)
    (hmle : m ≤ (allowedFeatures fm a.blacklist a.target a.block a.incl).length)
    (hl : inferLeafSize nt a.leafSize false f.cm.nCats (nKnown f.missing) = some l)
    (hs : inferNSamples nt a.nSamples (nKnown f.missing) = some s) (hcores : 1 ≤ a.nCores)
    (hvet : ¬ (a.vet = true ∧ a.evaloob = true)) (draws : Nat) (log : XF K → XF K) (own global : Nat → Rng) (pick : Nat → Nat)
    {seen : List (Tree K × List Nat) → List (Tree K × List Nat)} (hseen : ∀ l, (seen l).Perm l) :
    (growOobCommand nt log ord a draws order text own global pick seen = none → growCommand nt log ord a draws order text own global pick = none) ∧
    ∀ file bb, growOobCommand nt log ord a draws order text own global pick seen = some (file, bb) →
      growCommand nt log ord a draws order text own global pick = some file ∧
      ∃ voters : List (Tree K × List Nat), voters.length = max a.nCores a.nTrees ∧
        (∀ x ∈ voters, (x.2 ≠ [] → ∀ c < fm.caseLabels.length, AnswersBy fm f.Plurality x c) ∧
          (∀ c p, saysOutside fm x c = some p → c ∉ x.2 ∧ x.1.opinion fm c = some p) ∧
          (a.nTrees ≤ a.nCores → ∀ c, c ∉ x.2 → saysOutside fm x c = x.1.opinion fm c)) ∧
        (∀ c < fm.caseLabels.length, ∃ res, bb.Tallies nt c res) ∧
        ∀ counted shown : Nat → Option String, (∀ c < fm.caseLabels.length, bb.Tallies nt c (counted c)) →
          (∀ c < fm.caseLabels.length, bb.Tallies nt c (shown c)) →
          ∃ lines, oobReport nt a.target text bb counted shown = some (.fin (f.balancedError counted), lines) ∧
            ReportsAll nt fm (.cat f) shown lines ∧
            ∀ c < fm.caseLabels.length, ∀ p, shown c = some p ∨ counted c = some p →
              (p = "NA" ∧ ∀ q, votesOutside fm voters c q = 0) ∨
                (0 < votesOutside fm voters c p ∧ ∀ q, votesOutside fm voters c q ≤ votesOutside fm voters c p) := by
  obtain ⟨ti, b, hP⟩ := prepared hp hc hf hn hids
  have hl1 := inferLeafSize_pos hl
  obtain ⟨i, hi⟩ := hc.known _ hf hn
  have hi : f.missing[i]? = some false := hi
  have hs1 := inferNSamples_pos (nKnown_pos hi) hs
  have hcons : f.Consistent := (c139_afm nt text fm hp).1.consistent _ hf
  have hlen : f.missing.length = fm.caseLabels.length := hP.length
  have hcats : f.cm.nCats ≠ 0 := by
    obtain ⟨k, s, -, h2, -⟩ := known_className hcons hi
    exact Nat.ne_of_gt (Nat.lt_of_le_of_lt (Nat.zero_le _) h2)
  obtain ⟨how, hhow, hnob, hpl, L, good, hr, hok⟩ := class_ready (m := m.toNat) (l := l.toNat) (s := s.toNat) hp hc hf hn hP (by omega) (by omega)
    horder draws log
  have hcmd : growCommand nt log ord a draws order text own global pick =
      ((a.classRun log fm f how m.toNat l.toNat s.toNat draws order).runCores (a.classRun log fm f how m.toNat l.toNat s.toNat draws order).grower
        a.nCores (nKnown f.missing) f.cm.nCats (candidates fm ti b.marks) own global pick).bind fun out =>
      growforestFile nt ord a.progress a.target none (out.map (·.1)) := by
    simp only [growCommand, hp, hP.chosen, hP.count, hm, hP.target, hl, hs, hhow, Option.bind_eq_bind, Option.bind_some]
  have hoob : growOobCommand nt log ord a draws order text own global pick seen =
      ((a.classRun log fm f how m.toNat l.toNat s.toNat draws order).runCores (a.classRun log fm f how m.toNat l.toNat s.toNat draws order).grower
        a.nCores (nKnown f.missing) f.cm.nCats (candidates fm ti b.marks) own global pick).bind fun out =>
      (oobVotes nt fm fm.caseLabels.length (oobBox f.cm.nCats fm.caseLabels.length) (seen out)).bind fun bb =>
      (growforestFile nt ord a.progress a.target none (out.map (·.1))).bind fun file => some (file, bb) := by
    simp only [growOobCommand, hp, hP.chosen, hP.count, hm, hP.target, hl, hs, hhow, hP.cases, List.length_range, Option.bind_eq_bind, Option.bind_some,
      Option.bind_assoc]
  obtain ⟨-, k2, k3⟩ := runCores_ok hr (nCores := a.nCores) hok own global pick
  have k3 := k3 hvet
  rw [← nKnown_eq] at k2 k3
  rw [hcmd, hoob]
  cases hrun : (a.classRun log fm f how m.toNat l.toNat s.toNat draws order).runCores
      (a.classRun log fm f how m.toNat l.toNat s.toNat draws order).grower a.nCores (nKnown f.missing) f.cm.nCats (candidates fm ti b.marks)
      own global pick with
  | none => exact ⟨fun _ => rfl, fun file bb h => by cases h⟩
  | some out =>
    obtain ⟨hl', hx⟩ := k2 out (k3 ▸ hrun)
    rw [if_neg (by omega)] at hl'
    obtain ⟨c2, c3⟩ := recorded_voters hr rfl hx
    have hfit : ∀ x ∈ seen out, (∀ c ∈ x.2, c < fm.caseLabels.length) ∧ x.1.weight = .fin (-1) ∧
        Usable fm (List.range fm.caseLabels.length) (prune x.1.root) := by
      intro x hxm
      have hxm := (hseen out).mem_iff.1 hxm
      obtain ⟨d0, -, d2, -⟩ := c3 (voterOf x) (List.mem_map_of_mem hxm)
      refine ⟨fun c hcm => ?_, d0, ?_⟩
      · rw [← hlen]
        exact (List.getElem?_eq_some_iff.1 (show f.missing[c]? = some false from d2 c hcm)).1
      · exact (c2 { x.1 with root := prune x.1.root } (List.mem_map_of_mem hxm)).2 _ hP.cases
    obtain ⟨fv, v1, v2⟩ := oob_heard nt (seen out) hfit
    obtain ⟨cb, e, hb⟩ := c25_tally fm.caseLabels.length fv fun v hv => (mem_heard (v1.mem_iff.1 hv)).1
    have hbb : oobVotes nt fm fm.caseLabels.length (oobBox f.cm.nCats fm.caseLabels.length) (seen out) = some (.cat cb) := by
      rw [v2, oobBox, if_neg hcats, Box.castVotes, e]
      rfl
    simp only [Option.bind_some, hbb]
    refine ⟨fun h => ?_, fun file bb h => ?_⟩
    · cases hfile : growforestFile nt ord a.progress a.target none (out.map (·.1)) with
      | none => rfl
      | some file => rw [hfile] at h; cases h
    · obtain ⟨file', hfile, h⟩ := Option.bind_eq_some_iff.1 h
      cases h
      have hv : ∀ c < fm.caseLabels.length, ∀ q, weightFor fv c q = (votesOutside fm out c q : K) := by
        intro c hcl q
        rw [weightFor_perm v1, heard_weight fm hcl, votesOutside_perm (hseen out)]
      have hwin : ∀ c < fm.caseLabels.length, ∀ res, cb.Tallies c res → ∃ p, res = some p ∧
          ((p = "NA" ∧ ∀ q, votesOutside fm out c q = 0) ∨
            (0 < votesOutside fm out c p ∧ ∀ q, votesOutside fm out c q ≤ votesOutside fm out c p)) := by
        intro c hcl res hres
        obtain ⟨p, hp', g3⟩ := (hb c hcl).2 res hres
        refine ⟨p, hp', ?_⟩
        simp only [hv c hcl] at g3
        rcases g3 with ⟨g4, g5⟩ | ⟨g4, g5⟩
        · exact .inl ⟨g4, fun q => by have := g5 q; exact_mod_cast Nat.le_zero.1 (by exact_mod_cast this)⟩
        · exact .inr ⟨by exact_mod_cast g4, fun q => by exact_mod_cast g5 q⟩
      refine ⟨hfile, out, hl', fun x hxm => ⟨fun hne c hcl => ?_, fun c p => says_opinion, fun hnt c hcx =>
        says_all (runCores_new (show (a.classRun log fm f how m.toNat l.toNat s.toNat draws order).nTrees ≤ a.nCores from hnt) hrun x hxm) hcx⟩,
        fun c hcl => (hb c hcl).1, fun counted shown hcount hshow => ?_⟩
      · obtain ⟨-, -, d2, d3⟩ := c3 (voterOf x) (List.mem_map_of_mem hxm)
        obtain ⟨e1, e2⟩ := d3 c (List.mem_range.2 (by rw [← hlen] at hcl; exact hcl))
        have e1 : (voterOf x).1.opinion fm c = none → ∃ g ∈ fm.data, g.isMissing c = some true := e1
        have e2 : ∀ p, (voterOf x).1.opinion fm c = some p → ∃ S : List Nat, S.Perm (neighbours fm (voterOf x).1 (voterOf x).2 c) ∧ _ := e2
        rw [opinion_voterOf] at e1 e2
        rw [neighbours_voterOf] at e2
        unfold AnswersBy
        cases ho : x.1.opinion fm c with
        | none => exact e1 ho
        | some p =>
          obtain ⟨S, g1, g2, g3⟩ := e2 p ho
          obtain ⟨p', g4, g5⟩ := plurality_of hcons (S := S) (fun d hd => by
            have := g1.mem_iff.1 hd
            exact d2 d (List.mem_filter.1 this).1) (g3 hne)
          have : p = p' := by rw [g2]; show (f.findPredicted S).getD "" = p'; rw [g4]; rfl
          rw [this]
          exact Plurality.perm g1 g5
      · have hK := parsed_classes hp hf hi
        have herr : (Box.cat cb).error counted (.cat f) = some (.fin (f.balancedError counted)) := by
          show catTallyError f counted = _
          rw [c28_error f hK (Nat.pos_of_ne_zero hcats) (fun k hk h0 => by
              obtain ⟨j, e1, e2⟩ := parsed_occurs hp hf k hk
              have : j ∈ f.classCases k := List.mem_filter.2 ⟨List.mem_range.2 (List.getElem?_eq_some_iff.1 e2).1, by simp [e1, e2]⟩
              rw [h0] at this
              cases this) counted (fun c hcl => by
                have hcl : c < fm.caseLabels.length := by rw [← hlen, hK.len]; exact hcl
                obtain ⟨p, e, -⟩ := hwin c hcl _ (hcount c hcl)
                rw [e]
                rfl), balancedError_eq hcons]
        obtain ⟨lines, hw, hR⟩ := oobReport_eq hp hc.names hf hn hP.length (.cat cb) counted shown herr
          (fun c hcl => by obtain ⟨p, e, -⟩ := hwin c hcl _ (hshow c hcl); exact ⟨p, e⟩) (fun c hcl => by
            show ∃ y, f.getStr c = some y
            have hm : c < f.missing.length := by rw [hlen]; exact hcl
            cases hmc : f.missing[c]'hm with
            | true => exact ⟨"NA", by unfold CatFeature.getStr; simp [List.getElem?_eq_getElem hm, hmc]⟩
            | false =>
              obtain ⟨-, s, -, -, -, h4⟩ := known_className hcons (c := c) (by rw [List.getElem?_eq_getElem hm, hmc])
              exact ⟨s, h4⟩)
        refine ⟨lines, hw, hR, ?_⟩
        intro c hcl p hpc
        rcases hpc with hpc | hpc
        · obtain ⟨p', e, hh⟩ := hwin c hcl _ (hshow c hcl)
          rw [e] at hpc
          cases hpc
          exact hh
        · obtain ⟨p', e, hh⟩ := hwin c hcl _ (hcount c hcl)
          rw [e] at hpc
          cases hpc
          exact hh

/-- **C171, numbers.** The same for a numerical target: written is the mean of the answers heard of trees that do not have the case in their bag, each the
mean of the neighbours of the case, and the error printed is the mean squared difference of it and the target, divided by the variance of the target. A
case of which nothing is heard is written as "NA", and counts as predicted 0.

Missing from the full property: as for classes; `-nobag`. -/
theorem c171_numbers_partial [FloorRing K] {nt : NumText K} (hnt : ∀ x, nt.Faithful x) {ord : Splitter K → List String}
    {order : List Nat → List Nat} (horder : ∀ bag, (order bag).Perm bag)
    {text : Text} {fm : FeatureMatrix K} (hp : parseAFM nt text = some fm) {a : GrowArgs} (hc : fm.Clean a.target)
    {f : NumFeature K} (hf : .num f ∈ fm.data) (hn : f.name = a.target) (hids : a.target ∉ a.blacklist) (hbal : a.balance = false)
    (hbag : a.nobag = false) {m l s : Int}
    (hm : inferMTry nt a.mTry (allowedFeatures fm a.blacklist a.target a.block a.incl).length = some m)
    (hmle : m ≤ (allowedFeatures fm a.blacklist a.target a.block a.incl).length)
    (hl : inferLeafSize nt a.leafSize false 0 (nKnown f.missing) = some l)
    (hs : inferNSamples nt a.nSamples (nKnown f.missing) = some s) (hcores : 1 ≤ a.nCores)
    (hvet : ¬ (a.vet = true ∧ a.evaloob = true)) (draws : Nat) (log : XF K → XF K) (own global : Nat → Rng) (pick : Nat → Nat)
    {seen : List (Tree K × List Nat) → List (Tree K × List Nat)} (hseen : ∀ l, (seen l).Perm l) :
    (growOobCommand nt log ord a draws order text own global pick seen = none → growCommand nt log ord a draws order text own global pick = none) ∧
    ∀ file bb, growOobCommand nt log ord a draws order text own global pick seen = some (file, bb) →
      growCommand nt log ord a draws order text own global pick = some file ∧
      ∃ voters : List (Tree K × List Nat), voters.length = max a.nCores a.nTrees ∧
        (∀ x ∈ voters, (∀ c < fm.caseLabels.length,
            AnswersBy fm (fun S p => S ≠ [] ∧ p = String.ofList (nt.fmt (.fin (f.meanOf S)))) x c) ∧
          (∀ c p, saysOutside fm x c = some p → c ∉ x.2 ∧ x.1.opinion fm c = some p) ∧
          (a.nTrees ≤ a.nCores → ∀ c, c ∉ x.2 → saysOutside fm x c = x.1.opinion fm c)) ∧
        ∀ counted shown : Nat → Option String, (∀ c < fm.caseLabels.length, bb.Tallies nt c (shown c)) →
          ∃ lines, oobReport nt a.target text bb counted shown =
              some (.fin (meanSquare (knownCases f.missing) f.value (meanOutside fm f voters)) /
                .fin (meanSquare (knownCases f.missing) f.value fun _ => meanOver (knownCases f.missing) f.value), lines) ∧
            ReportsAll nt fm (.num f) shown lines ∧
            ∀ c < fm.caseLabels.length, shown c = some (if meansOutside fm f voters c = [] then "NA" else
              String.ofList (nt.fmt (.fin (meanOutside fm f voters c)))) := by
  obtain ⟨ti, b, hP⟩ := prepared hp hc hf hn hids
  have hl1 := inferLeafSize_pos hl
  obtain ⟨i, hi⟩ := hc.known _ hf hn
  have hi : f.missing[i]? = some false := hi
  have hs1 := inferNSamples_pos (nKnown_pos hi) hs
  have hcons : f.Consistent := (c139_afm nt text fm hp).1.consistent _ hf
  have hlen : f.missing.length = fm.caseLabels.length := hP.length
  obtain ⟨hfin, L, good, hr, hok⟩ := num_ready (m := m.toNat) (l := l.toNat) (s := s.toNat) hp hc hf hn hP (by omega) (by omega) horder draws
  have hcmd : growCommand nt log ord a draws order text own global pick =
      ((a.numRun nt fm f m.toNat l.toNat s.toNat draws order).runCores (a.numRun nt fm f m.toNat l.toNat s.toNat draws order).grower
        a.nCores (nKnown f.missing) 0 (candidates fm ti b.marks) own global pick).bind fun out =>
      growforestFile nt ord a.progress a.target none (out.map (·.1)) := by
    simp only [growCommand, hp, hP.chosen, hP.count, hm, hP.target, hl, hs, hbal, Option.bind_eq_bind, Option.bind_some]
    rfl
  have hoob : growOobCommand nt log ord a draws order text own global pick seen =
      ((a.numRun nt fm f m.toNat l.toNat s.toNat draws order).runCores (a.numRun nt fm f m.toNat l.toNat s.toNat draws order).grower
        a.nCores (nKnown f.missing) 0 (candidates fm ti b.marks) own global pick).bind fun out =>
      (oobVotes nt fm fm.caseLabels.length (oobBox 0 fm.caseLabels.length) (seen out)).bind fun bb =>
      (growforestFile nt ord a.progress a.target none (out.map (·.1))).bind fun file => some (file, bb) := by
    simp only [growOobCommand, hp, hP.chosen, hP.count, hm, hP.target, hl, hs, hbal, hP.cases, List.length_range, Option.bind_eq_bind, Option.bind_some,
      Option.bind_assoc]
    rfl
  obtain ⟨-, k2, k3⟩ := runCores_ok hr (nCores := a.nCores) hok own global pick
  have k3 := k3 hvet
  rw [← nKnown_eq] at k2 k3
  rw [hcmd, hoob]
  cases hrun : (a.numRun nt fm f m.toNat l.toNat s.toNat draws order).runCores
      (a.numRun nt fm f m.toNat l.toNat s.toNat draws order).grower a.nCores (nKnown f.missing) 0 (candidates fm ti b.marks)
      own global pick with
  | none => exact ⟨fun _ => rfl, fun file bb h => by cases h⟩
  | some out =>
    obtain ⟨hl', hx⟩ := k2 out (k3 ▸ hrun)
    rw [if_neg (by omega)] at hl'
    obtain ⟨c2, c3⟩ := recorded_voters hr rfl hx
    have hne : ∀ x ∈ out, x.2 ≠ [] := by
      intro x hxm
      obtain ⟨-, d1, -⟩ := c3 (voterOf x) (List.mem_map_of_mem hxm)
      have : x.2.length = s.toNat := d1.2 (by
        show Bagging.isNobag (if a.nobag then .nobag else .plain) = false
        rw [hbag]
        rfl)
      exact List.ne_nil_of_length_pos (by omega)
    have hans : ∀ x ∈ out, ∀ c < fm.caseLabels.length, (x.1.opinion fm c = none → ∃ g ∈ fm.data, g.isMissing c = some true) ∧
        ∀ p, x.1.opinion fm c = some p → neighbours fm x.1 x.2 c ≠ [] ∧
          p = String.ofList (nt.fmt (.fin (f.meanOf (neighbours fm x.1 x.2 c)))) := by
      intro x hxm c hcl
      obtain ⟨-, -, d2, d3⟩ := c3 (voterOf x) (List.mem_map_of_mem hxm)
      obtain ⟨e1, e2⟩ := d3 c (List.mem_range.2 (by rw [← hlen] at hcl; exact hcl))
      have e1 : (voterOf x).1.opinion fm c = none → ∃ g ∈ fm.data, g.isMissing c = some true := e1
      have e2 : ∀ p, (voterOf x).1.opinion fm c = some p → ∃ S : List Nat, S.Perm (neighbours fm (voterOf x).1 (voterOf x).2 c) ∧ _ := e2
      rw [opinion_voterOf] at e1 e2
      rw [neighbours_voterOf] at e2
      refine ⟨e1, fun p ho => ?_⟩
      obtain ⟨S, g1, g2, g3⟩ := e2 p ho
      have hk : ∀ d ∈ S, f.missing[d]? = some false := fun d hd => d2 d (List.mem_filter.1 (g1.mem_iff.1 hd)).1
      have hkl : ∀ d ∈ S, d < f.missing.length := fun d hd => (List.getElem?_eq_some_iff.1 (hk d hd)).1
      have g3 := g3 (hne x hxm)
      refine ⟨fun h0 => g3 (by rw [h0] at g1; exact List.perm_nil.1 g1), ?_⟩
      have hme := mean_eq f S hkl hcons.lengths (by
        rw [knownOf_all hk]
        exact fun d hd => hfin d (List.mem_range.2 (hkl d hd))) (by rw [knownOf_all hk]; exact g3)
      rw [knownOf_all hk] at hme
      rw [g2]
      show (f.findPredicted nt S).getD "" = _
      unfold NumFeature.findPredicted
      rw [hme, neighbours_mean_perm g1]
      rfl
    have hfit : ∀ x ∈ seen out, (∀ c ∈ x.2, c < fm.caseLabels.length) ∧ x.1.weight = .fin (-1) ∧
        Usable fm (List.range fm.caseLabels.length) (prune x.1.root) := by
      intro x hxm
      have hxm := (hseen out).mem_iff.1 hxm
      obtain ⟨d0, -, d2, -⟩ := c3 (voterOf x) (List.mem_map_of_mem hxm)
      refine ⟨fun c hcm => ?_, d0, ?_⟩
      · rw [← hlen]
        exact (List.getElem?_eq_some_iff.1 (show f.missing[c]? = some false from d2 c hcm)).1
      · exact (c2 { x.1 with root := prune x.1.root } (List.mem_map_of_mem hxm)).2 _ hP.cases
    obtain ⟨fv, v1, v2⟩ := oob_heard nt (seen out) hfit
    have hval : ∀ x ∈ out, ∀ c < fm.caseLabels.length, ∀ p, saysOutside fm x c = some p →
        nt.parse p.toList = some (.fin (f.meanOf (neighbours fm x.1 x.2 c))) := by
      intro x hxm c hcl p hsay
      rw [((hans x hxm c hcl).2 p (says_opinion hsay).2).2, String.toList_ofList]
      exact (hnt _).2
    have hok' : ∀ v ∈ fv, v.case < fm.caseLabels.length ∧ 0 < v.weight ∧ ∀ x, nt.parse v.pred.toList = some x → x = .nan ∨ ∃ y, x = .fin y := by
      intro v hv
      obtain ⟨w1, w2, x, w3, w4⟩ := mem_heard (v1.mem_iff.1 hv)
      refine ⟨w1, by rw [w2]; exact zero_lt_one, fun y hy => ?_⟩
      rw [hval x ((hseen out).mem_iff.1 w3) _ w1 _ w4] at hy
      cases hy
      exact .inr ⟨_, rfl⟩
    obtain ⟨nb, e, hb⟩ := castAll_inv (NumBox.vote fun s => nt.parse s.toList) (NumBoxInv (fun s => nt.parse s.toList) fm.caseLabels.length)
      (fun v => v.case < fm.caseLabels.length ∧ 0 < v.weight ∧ ∀ x, nt.parse v.pred.toList = some x → x = .nan ∨ ∃ y, x = .fin y) _
      (numBox_inv_new _ _) (fun _ _ v hb hv => numBox_vote hb v hv.1 hv.2.2 (.inl hv.2.1)) fv hok'
    have hbb : oobVotes nt fm fm.caseLabels.length (oobBox 0 fm.caseLabels.length) (seen out) = some (.num nb) := by
      rw [v2, oobBox, if_pos rfl, Box.castVotes, e]
      rfl
    have hnums : ∀ c < fm.caseLabels.length, (numVotes (fun s => nt.parse s.toList) fv c).Perm ((meansOutside fm f out c).map fun y => (y, 1)) := by
      intro c hcl
      have h1 : (numVotes (fun s => nt.parse s.toList) fv c).Perm (numVotes (fun s => nt.parse s.toList) (heardVotes fm fm.caseLabels.length (seen out)) c) :=
        v1.filterMap _
      rw [heard_numbers nt fm hcl (seen out) (fun x => f.meanOf (neighbours fm x.1 x.2 c))
        (fun x hxm p hsay => hval x ((hseen out).mem_iff.1 hxm) c hcl p hsay)] at h1
      exact h1.trans ((((hseen out).filter _).map _).map _)
    have hboth : ∀ c < fm.caseLabels.length, nb.tallyNum c = some (.fin (meanOutside fm f out c)) ∧
        nb.tally (fun x => String.ofList (nt.fmt x)) c = some (if meansOutside fm f out c = [] then "NA" else
          String.ofList (nt.fmt (.fin (meanOutside fm f out c)))) := by
      intro c hcl
      obtain ⟨mm, hm⟩ : ∃ mm, nb[c]? = some mm := ⟨_, List.getElem?_eq_getElem (by rw [hb.len]; exact hcl)⟩
      have hperm := hnums c hcl
      have hs' : weightedSum (numVotes (fun s => nt.parse s.toList) fv c) / totalWeight (numVotes (fun s => nt.parse s.toList) fv c) =
          meanOutside fm f out c := by
        unfold meanOutside
        rw [← means_average]
        have q1 : weightedSum (numVotes (fun s => nt.parse s.toList) fv c) = weightedSum ((meansOutside fm f out c).map fun y => (y, 1)) :=
          (hperm.map _).sum_eq
        have q2 : totalWeight (numVotes (fun s => nt.parse s.toList) fv c) = totalWeight ((meansOutside fm f out c).map fun y => (y, 1)) :=
          (hperm.map _).sum_eq
        rw [q1, q2]
      have hz : numVotes (fun s => nt.parse s.toList) fv c = [] ↔ meansOutside fm f out c = [] := by
        rw [← List.length_eq_zero_iff, hperm.length_eq, List.length_map, List.length_eq_zero_iff]
      unfold NumBox.tallyNum NumBox.tally
      rw [hm]
      rcases hb.vals c mm hm with ⟨hnil, rfl⟩ | ⟨hpos, rfl⟩
      · rw [if_pos (hz.1 hnil)]
        simp [RunningMean.new, meanOutside, hz.1 hnil]
      · rw [if_neg (fun h0 => by rw [hz.2 h0] at hpos; simp [totalWeight] at hpos), hs']
        refine ⟨rfl, ?_⟩
        simp only [Option.bind_eq_bind, Option.bind_some]
        rw [if_pos (show (XF.fin 0 : XF K) < .fin _ from hpos)]
    simp only [Option.bind_some, hbb]
    refine ⟨fun h => ?_, fun file bb h => ?_⟩
    · cases hfile : growforestFile nt ord a.progress a.target none (out.map (·.1)) with
      | none => rfl
      | some file => rw [hfile] at h; cases h
    · obtain ⟨file', hfile, h⟩ := Option.bind_eq_some_iff.1 h
      cases h
      refine ⟨hfile, out, hl', fun x hxm => ⟨fun c hcl => ?_, fun c p => says_opinion, fun hnt c hcx =>
        says_all (runCores_new (show (a.numRun nt fm f m.toNat l.toNat s.toNat draws order).nTrees ≤ a.nCores from hnt) hrun x hxm) hcx⟩,
        fun counted shown hshow => ?_⟩
      · obtain ⟨e1, e2⟩ := hans x hxm c hcl
        unfold AnswersBy
        cases ho : x.1.opinion fm c with
        | none => exact e1 ho
        | some p => exact e2 p ho
      · have hshown : ∀ c < fm.caseLabels.length, shown c = some (if meansOutside fm f out c = [] then "NA" else
            String.ofList (nt.fmt (.fin (meanOutside fm f out c)))) := fun c hcl => (hshow c hcl : _ = _).trans (hboth c hcl).2
        have htn : ∀ c < f.missing.length, nb.tallyNum c = some (.fin (meanOutside fm f out c)) := fun c hcl => (hboth c (hlen ▸ hcl)).1
        have hkl : ∀ c ∈ knownCases f.missing, c < f.missing.length := fun c hcm => List.mem_range.1 (List.mem_filter.1 hcm).1
        have hy : ∀ c ∈ knownCases f.missing, f.numData[c]? = some (.fin (f.value c)) := by
          intro c hcm
          obtain ⟨y, hy⟩ := hfin c (List.mem_range.2 (hkl c hcm))
          unfold NumFeature.value
          rw [hy]
        have hne' : knownCases f.missing ≠ [] := List.ne_nil_of_mem (a := i) (List.mem_filter.2
          ⟨List.mem_range.2 (List.getElem?_eq_some_iff.1 hi).1, by simpa using hi⟩)
        have hj : judgedCases f.missing nb.tallyNum = knownCases f.missing := by
          unfold judgedCases
          rw [List.filter_eq_self]
          intro c hcm
          simp [htn c (hkl c hcm)]
        have herr : (Box.num nb).error counted (.num f) =
            some (.fin (meanSquare (knownCases f.missing) f.value (meanOutside fm f out)) /
              .fin (meanSquare (knownCases f.missing) f.value fun _ => meanOver (knownCases f.missing) f.value)) := by
          show nb.tallyError f = _
          rw [(c29_error f nb f.value hy hne').1, c29_squared_error f nb f.value (meanOutside fm f out)
            (fun c hcl => by rw [htn c hcl]; rfl) hy (fun c hcm => .inr (htn c (hkl c hcm))), hj, if_neg hne']
          rfl
        obtain ⟨lines, g1, g2⟩ := oobReport_eq hp hc.names hf hn hP.length (.num nb) counted shown herr
          (fun c hcl => ⟨_, hshown c hcl⟩) (fun c hcl => by
            show ∃ y, f.getStr nt c = some y
            have hm : c < f.missing.length := by rw [hlen]; exact hcl
            obtain ⟨y, hy⟩ := hfin c (List.mem_range.2 hm)
            unfold NumFeature.getStr
            cases hmc : f.missing[c]'hm <;> simp [List.getElem?_eq_getElem hm, hmc, hy])
        exact ⟨lines, g1, g2, hshown⟩

/-! ## Examples -/

/-- The report for the table, if cases are drawn for bags as `bags` says, and Go iterates over votes in the order they were first cast. -/
def exOobRun (a : GrowArgs) (bags : List Nat) : Option (XF ℚ × List (String × String × String)) :=
  (growOobCommand exStrokes id (fun s => s.left) a 30 id exAfmTable (fun _ k => 5 * k + 1) (fun _ k => bags.getD k 0) id id).bind fun x =>
    oobReport exStrokes a.target exAfmTable x.2 (firstTally exStrokes (⟨"", [], .fin 0⟩, x.2)) (firstTally exStrokes (⟨"", [], .fin 0⟩, x.2))

/-- The forest. -/
def exOobFile (a : GrowArgs) (bags : List Nat) : Option Text :=
  (growOobCommand exStrokes id (fun s => s.left) a 30 id exAfmTable (fun _ k => 5 * k + 1) (fun _ k => bags.getD k 0) id id).map (·.1)

/-- The conditions of the theorems are those of `c140_classes_partial` and `c140_numbers_partial`, shown there for this table; `id` leaves the trees in order.
A tree from the bag a, b, a, b says "yes" of the others. A tree for the number from the bag a, b, a, d says 2 of c. -/
example : exOobRun { exGrowArgs with nTrees := 1 } [0, 1, 0, 1] =
      some (.fin 1, [("a", "NA", "yes"), ("b", "NA", "yes"), ("c", "yes", "no"), ("d", "yes", "no"), ("e", "yes", "NA")]) ∧
    exOobFile { exGrowArgs with nTrees := 1 } [0, 1, 0, 1] = some "TREE=0,TARGET=\"C:y\"\nNODE=*,PRED=yes\n".toList ∧
    exOobRun { exGrowNums with nTrees := 1 } [0, 1, 0, 3] =
      some (.fin 5, [("a", "NA", "01"), ("b", "NA", "011"), ("c", "011", "0111"), ("d", "NA", "011"), ("e", "NA", "NA")]) := by
  refine ⟨by decide +kernel, by decide +kernel, by decide +kernel⟩

/-- **C171 is false of the code**: a vote is lost. The first bag is a, c, d, b, the second a, b, a, b, from which a leaf is grown that says "yes", as
the file shows. Neither c nor d is in its bag, but its answer is not counted for them, because nodes of the first tree hang below the leaf. If the second tree is
grown by another worker it is counted. -/
theorem c171_lost : exOobFile exGrowArgs [0, 2, 3, 1, 0, 1, 0, 1] =
      some ("TREE=0,TARGET=\"C:y\"\nNODE=*,SPLITTER=C:k,SPLITTERTYPE=CATEGORICAL,LVALUES=\"u\"\nNODE=*L,PRED=yes\nNODE=*R,PRED=no\n" ++
        "TREE=0,TARGET=\"C:y\"\nNODE=*,PRED=yes\n").toList ∧
    exOobRun exGrowArgs [0, 2, 3, 1, 0, 1, 0, 1] =
      some (.fin 1, [("a", "NA", "yes"), ("b", "NA", "yes"), ("c", "NA", "no"), ("d", "NA", "no"), ("e", "yes", "NA")]) ∧
    ((growOobCommand exStrokes id (fun s => s.left) { exGrowArgs with nCores := 2 } 30 id exAfmTable (fun _ k => 5 * k + 1)
      (fun w k => (if w = 0 then [0, 2, 3, 1] else [0, 1, 0, 1]).getD k 0) (fun _ => 0) id).map fun x =>
        (List.range 5).map (firstTally exStrokes (⟨"", [], .fin 0⟩, x.2))) = some [some "NA", some "NA", some "yes", some "yes", some "yes"] := by
  refine ⟨by decide +kernel, by decide +kernel, by decide +kernel⟩

/-- **C171 is false of the code** for cases in all bags. They are not left out of the error: with `-nobag` every known class is counted as wrongly
predicted, although the trees are right, and every number as predicted to be 0. -/
theorem c171_inside : exOobRun { exGrowArgs with nobag := true } [] =
      some (.fin 1, [("a", "NA", "yes"), ("b", "NA", "yes"), ("c", "NA", "no"), ("d", "NA", "no"), ("e", "yes", "NA")]) ∧
    exOobRun { exGrowNums with nobag := true } [] =
      some (.fin 9, [("a", "NA", "01"), ("b", "NA", "011"), ("c", "NA", "0111"), ("d", "NA", "011"), ("e", "0111d", "NA")]) ∧
    exWhole { exGrowArgs with nobag := true } ⟨false, false, false, false⟩ exAfmTable =
      some (some (.fin 0), [("a", "yes", "yes"), ("b", "yes", "yes"), ("c", "no", "no"), ("d", "no", "no"), ("e", "yes", "NA")]) := by
  refine ⟨by decide +kernel, by decide +kernel, by decide +kernel⟩

end CloudForest
