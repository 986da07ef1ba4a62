import Verif.Lemmas.ApplyWhole
import Verif.Props.CostCommand

/-!
# C167: what applyforest prints and writes about the data it was grown from
-/

set_option linter.unusedSectionVars false

namespace CloudForest
variable {K : Type} [Field K] [LinearOrder K] [IsStrictOrderedRing K]

theorem parsed_classes {nt : NumText K} {text : Text} {fm : FeatureMatrix K} (hp : parseAFM nt text = some fm) {f : CatFeature}
    (hf : .cat f ∈ fm.data) {i : Nat} (hi : f.missing[i]? = some false) : f.Known := by
  have hcons : f.Consistent := (c139_afm nt text fm hp).1.consistent _ hf
  have hz := parsed_zeroFilled hp _ hf
  refine ⟨hcons.lengths.symm, fun c k hk => ?_⟩
  have hcl : c < f.missing.length := by rw [← hcons.lengths]; exact (List.getElem?_eq_some_iff.1 hk).1
  cases hmc : f.missing[c]'hcl with
  | false => exact hcons.valid c k (by rw [List.getElem?_eq_getElem hcl, hmc]) hk
  | true =>
    have h0 := hz.2 c (by rw [List.getElem?_eq_getElem hcl, hmc])
    rw [hk, Option.some.injEq] at h0
    rw [h0]
    obtain ⟨k, s, -, h2, -⟩ := known_className hcons hi
    exact Nat.lt_of_le_of_lt (Nat.zero_le _) h2

/-! ## C167 -/

/-- **C167, classes.** applyforest with the forest that growforest wrote and the table it was grown from does not panic. It writes a
line for each case, in order, with its label, a class that most trees answer or "NA" if none does, and the actual class. The error that it prints is
the mean over the classes of the fraction of cases that are predicted wrongly, by the predictions it counts. These are such as are
written, and are those that are written if for each case of known class one class has more votes than any other.

Missing from the full property: ties, `c167_tie`; classes under a name beginning with N if applyforest is not told, `c167_name`. -/
theorem c167_classes_partial [FloorRing K] {nt : NumText K} (hnt : ∀ x, nt.Faithful x) {ord : Splitter K → List String}
    (hord : ∀ s : Splitter K, (ord s).Perm s.left) {order : List Nat → List Nat} (horder : ∀ bag, (order bag).Perm bag)
    {text : Text} {fm : FeatureMatrix K} (hp : parseAFM nt text = some fm) {a : GrowArgs} (hc : fm.Clean a.target)
    {f : CatFeature} (hf : .cat f ∈ fm.data) (hn : f.name = a.target) (hids : a.target ∉ a.blacklist) {m l s : Int}
    (hm : inferMTry nt a.mTry (allowedFeatures fm a.blacklist a.target a.block a.incl).length = some m)
    (hmle : m ≤ (allowedFeatures fm a.blacklist a.target a.block a.incl).length)
    (hl : inferLeafSize nt a.leafSize false f.cm.nCats (nKnown f.missing) = some l)
    (hs : inferNSamples nt a.nSamples (nKnown f.missing) = some s) (hcores : 1 ≤ a.nCores)
    (hvet : ¬ (a.vet = true ∧ a.evaloob = true)) (draws : Nat) (log : XF K → XF K) (own global : Nat → Rng) (pick : Nat → Nat) 
    {file : Text} (h : growCommand nt log ord a draws order text own global pick = some file) :
    ∃ voters : List (Tree K × List Nat), voters.length = max a.nCores a.nTrees ∧
      (∀ x ∈ voters, x.2 ≠ [] → ∀ c < fm.caseLabels.length, AnswersBy fm f.Plurality x c) ∧
      ∀ (tanh : XF K → XF K) (o : ApplyOptions), o.sum = false →
        (o.cat = true ∨ o.num = false ∧ a.target.toList.head? ≠ some 'N') →
        ∃ forest bb, applyCommand nt o file text = some (forest, bb) ∧ ∀ counted shown : Nat → Option String,
          (∀ c < fm.caseLabels.length, bb.Tallies nt c (counted c)) →
          (∀ c < fm.caseLabels.length, bb.Predicts nt tanh o forest.intercept c (shown c)) →
          ∃ lines, applyWhole nt o file text counted shown = some (some (.fin (f.balancedError counted)), lines) ∧
            ReportsAll nt fm (.cat f) shown lines ∧
            (∀ c < fm.caseLabels.length, ∀ p, shown c = some p ∨ counted c = some p →
              (p = "NA" ∧ ∀ q, votesFor fm voters c q = 0) ∨
                (0 < votesFor fm voters c p ∧ ∀ q, votesFor fm voters c q ≤ votesFor fm voters c p)) ∧
            ((∀ c ∈ knownCases f.missing, ∃ p, SoleWinner fm voters c p) →
              (f.balancedError counted : K) = f.balancedError shown) := by
  obtain ⟨voters, hlen, hans, happ⟩ := (c140_classes_partial hnt hord horder hp hc hf hn hids hm hmle hl hs hcores hvet draws log own global
    pick).2 file h
  refine ⟨voters, hlen, fun x hx => (hans x hx).2.2.2, fun tanh o hsum hcat => ?_⟩
  obtain ⟨forest, bb, ha, ht, hpred⟩ := happ tanh o hsum hcat
  refine ⟨forest, bb, ha, fun counted shown hcount hshow => ?_⟩
  obtain ⟨ti, bl, hP⟩ := prepared hp hc hf hn hids
  have hlen' : f.missing.length = fm.caseLabels.length := hP.length
  have hcons : f.Consistent := (c139_afm nt text fm hp).1.consistent _ hf
  obtain ⟨i0, hi0⟩ := hc.known _ hf hn
  have hi0 : f.missing[i0]? = some false := hi0
  have hil : i0 < fm.caseLabels.length := by rw [← hlen']; exact (List.getElem?_eq_some_iff.1 hi0).1
  obtain ⟨b, rfl⟩ : ∃ b, bb = .cat b := by
    unfold applyCommand at ha
    obtain ⟨fm', -, ha⟩ := Option.bind_eq_some_iff.1 ha
    obtain ⟨r, -, ha⟩ := Option.bind_eq_some_iff.1 ha
    obtain ⟨fo, -, ha⟩ := Option.bind_eq_some_iff.1 ha
    split at ha
    · obtain ⟨b', hb', ha⟩ := Option.bind_eq_some_iff.1 ha
      cases ha
      exact apply_cat hb' hsum (by rw [ht]; exact hcat)
    · cases ha
  have hint : ¬ (o.sum = true ∨ forest.intercept ≠ .fin 0) := by
    intro hbad
    obtain ⟨⟨res, hres⟩, hall⟩ := hpred i0 hil
    obtain ⟨p, rfl, -⟩ := hall res hres
    unfold Box.Predicts at hres
    rw [if_pos hbad] at hres
    cases hres
  have hsame : ∀ c res, (Box.cat b).Predicts nt tanh o forest.intercept c res ↔ (Box.cat b).Tallies nt c res := by
    intro c res
    unfold Box.Predicts
    rw [if_neg hint]
  have hcp : ∀ c (hcl : c < fm.caseLabels.length), _ := fun c hcl => (hpred c hcl).2 _ ((hsame c _).2 (hcount c hcl))
  have hsp : ∀ c (hcl : c < fm.caseLabels.length), _ := fun c hcl => (hpred c hcl).2 _ (hshow c hcl)
  have hK := parsed_classes hp hf hi0
  have herr : (Box.cat b).error counted (.cat f) = some (.fin (f.balancedError counted)) := by
    show catTallyError f counted = _
    rw [c28_error f hK (by
      obtain ⟨k, s, -, h2, -⟩ := known_className hcons hi0
      exact Nat.lt_of_le_of_lt (Nat.zero_le _) h2) (fun k hk h0 => by
        obtain ⟨j, e1, e2⟩ := parsed_occurs hp hf k hk
        have : j ∈ f.classCases k := List.mem_filter.2 ⟨List.mem_range.2 (List.getElem?_eq_some_iff.1 e2).1, by simp [e1, e2]⟩
        rw [h0] at this
        cases this) counted (fun c hcl => by
          obtain ⟨p, e, -⟩ := hcp c (by rw [← hlen', hK.len]; exact hcl)
          rw [e]
          rfl), balancedError_eq hcons]
  obtain ⟨lines, hw, hR⟩ := applyWhole_eq hp hc.names hf ha (ht.trans hn.symm) counted shown herr
    (fun c hcl => by obtain ⟨p, e, -⟩ := hsp c hcl; exact ⟨p, e⟩) (fun c hcl => by
      show ∃ y, f.getStr c = some y
      have hm : c < f.missing.length := by rw [hlen']; exact hcl
      cases hmc : f.missing[c]'hm with
      | true => exact ⟨"NA", by unfold CatFeature.getStr; simp [List.getElem?_eq_getElem hm, hmc]⟩
      | false =>
        obtain ⟨-, s, -, -, -, h4⟩ := known_className hcons (c := c) (by rw [List.getElem?_eq_getElem hm, hmc])
        exact ⟨s, h4⟩)
  refine ⟨lines, hw, hR, ?_, fun hsole => ?_⟩
  · intro c hcl p hpc
    rcases hpc with hpc | hpc
    · obtain ⟨p', e, hh⟩ := hsp c hcl
      rw [e] at hpc
      cases hpc
      exact hh
    · obtain ⟨p', e, hh⟩ := hcp c hcl
      rw [e] at hpc
      cases hpc
      exact hh
  · have hagree : ∀ c ∈ knownCases f.missing, counted c = shown c := by
      intro c hcm
      have hcl : c < fm.caseLabels.length := by
        rw [← hlen']
        exact List.mem_range.1 (List.mem_filter.1 hcm).1
      obtain ⟨p, hsw⟩ := hsole c hcm
      have key : ∀ p', (p' = "NA" ∧ ∀ q, votesFor fm voters c q = 0) ∨
          (0 < votesFor fm voters c p' ∧ ∀ q, votesFor fm voters c q ≤ votesFor fm voters c p') → p' = p := by
        intro p' hh
        by_contra hne
        have h1 := hsw p' hne
        rcases hh with ⟨-, h2⟩ | ⟨-, h2⟩
        · rw [h2 p] at h1
          omega
        · have := h2 p
          omega
      obtain ⟨p1, e1, h1⟩ := hcp c hcl
      obtain ⟨p2, e2, h2⟩ := hsp c hcl
      rw [e1, e2, key p1 h1, key p2 h2]
    unfold CatFeature.balancedError
    congr 2
    refine List.map_congr_left fun s _ => ?_
    congr 3
    refine List.filter_congr fun c hcm => ?_
    rw [hagree c (List.mem_filter.1 hcm).1]

/-- **C167, numbers.** The same for a numerical target: written is the mean of the answers of the trees, and the error printed is
the mean squared difference of it and the target, divided by the variance of the target. A case that no tree answers is written as "NA", and
counts as predicted 0.

Missing from the full property: such cases do count; `-mode`, `c167_mode`. -/
theorem c167_numbers_partial [FloorRing K] {nt : NumText K} (hnt : ∀ x, nt.Faithful x) {ord : Splitter K → List String}
    (hord : ∀ s : Splitter K, (ord s).Perm s.left) {order : List Nat → List Nat} (horder : ∀ bag, (order bag).Perm bag)
    {text : Text} {fm : FeatureMatrix K} (hp : parseAFM nt text = some fm) {a : GrowArgs} (hc : fm.Clean a.target)
    {f : NumFeature K} (hf : .num f ∈ fm.data) (hn : f.name = a.target) (hids : a.target ∉ a.blacklist) (hbal : a.balance = false)
    {m l s : Int}
    (hm : inferMTry nt a.mTry (allowedFeatures fm a.blacklist a.target a.block a.incl).length = some m)
    (hmle : m ≤ (allowedFeatures fm a.blacklist a.target a.block a.incl).length)
    (hl : inferLeafSize nt a.leafSize false 0 (nKnown f.missing) = some l)
    (hs : inferNSamples nt a.nSamples (nKnown f.missing) = some s) (hcores : 1 ≤ a.nCores)
    (hvet : ¬ (a.vet = true ∧ a.evaloob = true)) (draws : Nat) (log : XF K → XF K) (own global : Nat → Rng) (pick : Nat → Nat)
    {file : Text} (h : growCommand nt log ord a draws order text own global pick = some file) :
    ∃ voters : List (Tree K × List Nat), voters.length = max a.nCores a.nTrees ∧
      (∀ x ∈ voters, x.2 ≠ [] → ∀ c < fm.caseLabels.length,
        AnswersBy fm (fun S p => S ≠ [] ∧ p = String.ofList (nt.fmt (.fin (f.meanOf S)))) x c) ∧
      ∀ (tanh : XF K → XF K) (o : ApplyOptions), o.sum = false → o.cat = false → (∀ x ∈ voters, x.2 ≠ []) →
        ∃ forest bb, applyCommand nt o file text = some (forest, bb) ∧ ∀ counted shown : Nat → Option String,
          (∀ c < fm.caseLabels.length, bb.Predicts nt tanh o forest.intercept c (shown c)) →
          ∃ lines, applyWhole nt o file text counted shown =
              some (some (.fin (meanSquare (knownCases f.missing) f.value (meanAnswer fm f voters)) /
                .fin (meanSquare (knownCases f.missing) f.value fun _ => meanOver (knownCases f.missing) f.value)), lines) ∧
            ReportsAll nt fm (.num f) shown lines ∧
            ∀ c < fm.caseLabels.length, shown c = some (if meansFor fm f voters c = [] then "NA" else
              String.ofList (nt.fmt (.fin (meanAnswer fm f voters c)))) := by
  obtain ⟨ti, b, hP⟩ := prepared hp hc hf hn hids
  have hl1 := inferLeafSize_pos hl
  obtain ⟨i, hi⟩ := hc.known _ hf hn
  have hs1 := inferNSamples_pos (nKnown_pos hi) hs
  have hcons : f.Consistent := (c139_afm nt text fm hp).1.consistent _ hf
  have hlen : f.missing.length = fm.caseLabels.length := hP.length
  obtain ⟨hfin, L, good, hr, hok⟩ := num_ready (m := m.toNat) (l := l.toNat) (s := s.toNat) hp hc hf hn hP (by omega) (by omega) horder draws
  have hcmd : growCommand nt log ord a draws order text own global pick =
      ((a.numRun nt fm f m.toNat l.toNat s.toNat draws order).runCores (a.numRun nt fm f m.toNat l.toNat s.toNat draws order).grower
        a.nCores (nKnown f.missing) 0 (candidates fm ti b.marks) own global pick).bind fun out =>
      growforestFile nt ord a.progress a.target none (out.map (·.1)) := by
    simp only [growCommand, hp, hP.chosen, hP.count, hm, hP.target, hl, hs, hbal, Option.bind_eq_bind, Option.bind_some]
    rfl
  have htidy := hc.tidy _ hf
  obtain ⟨h1, h2⟩ := run_read hr hvet rfl hcores hok own global pick hnt
    (fun g hg => by have := hc.tidy g hg; cases g <;> exact this)
    (fun cs => by
      show Plain ((f.findPredicted nt cs).getD "").toList
      cases hfp : f.findPredicted nt cs with
      | none => exact plain_empty
      | some p =>
        unfold NumFeature.findPredicted at hfp
        obtain ⟨m, -, hb⟩ := Option.bind_eq_some_iff.1 hfp
        cases hb
        rw [Option.getD_some, String.toList_ofList]
        exact (hnt m).1) (by
      show Plain a.target.toList
      rw [← hn]
      exact htidy) ord hord a.progress
  rw [hcmd] at h
  obtain ⟨out, forest, c1, hrec, c4, c5, c6, c7, -⟩ := h2 file h
  obtain ⟨c2, c3⟩ := recorded_voters hr rfl hrec
  have hans : ∀ x ∈ out.map voterOf, x.2 ≠ [] → ∀ c < fm.caseLabels.length,
      (x.1.opinion fm c = none → ∃ g ∈ fm.data, g.isMissing c = some true) ∧
      ∀ p, x.1.opinion fm c = some p → neighbours fm x.1 x.2 c ≠ [] ∧
        p = String.ofList (nt.fmt (.fin (f.meanOf (neighbours fm x.1 x.2 c)))) := by
    intro x hx hne c hcl
    obtain ⟨-, -, d2, d3⟩ := c3 x hx
    obtain ⟨e1, e2⟩ := d3 c (List.mem_range.2 (by rw [← hlen] at hcl; exact hcl))
    refine ⟨e1, fun p ho => ?_⟩
    obtain ⟨S, g1, g2, g3⟩ := e2 p ho
    have hk : ∀ d ∈ S, f.missing[d]? = some false := fun d hd => d2 d (List.mem_filter.1 (g1.mem_iff.1 hd)).1
    have hkl : ∀ d ∈ S, d < f.missing.length := fun d hd => (List.getElem?_eq_some_iff.1 (hk d hd)).1
    refine ⟨fun h0 => g3 hne (by rw [show neighbours (a.numRun nt fm f m.toNat l.toNat s.toNat draws order).fm x.1 x.2 c = [] from h0] at g1; exact List.perm_nil.1 g1), ?_⟩
    have hme := mean_eq f S hkl hcons.lengths (by
      rw [knownOf_all hk]
      exact fun d hd => hfin d (List.mem_range.2 (hkl d hd))) (by rw [knownOf_all hk]; exact g3 hne)
    rw [knownOf_all hk] at hme
    rw [g2]
    show (f.findPredicted nt S).getD "" = _
    unfold NumFeature.findPredicted
    rw [hme, neighbours_mean_perm g1]
    rfl
  refine ⟨out.map voterOf, by rw [List.length_map]; exact c1, ?_, ?_⟩
  · intro x hx hne c hcl
    obtain ⟨e1, e2⟩ := hans x hx hne c hcl
    unfold AnswersBy
    cases ho : x.1.opinion fm c with
    | none => exact e1 ho
    | some p => exact e2 p ho
  · intro tanh o hsum hcat hne
    have hw : ∀ x ∈ out.map voterOf, x.1.weight = .fin (-1) := fun x hx => (c3 x hx).1
    have hN : a.target.toList.head? = some 'N' := by
      rw [← hn]
      exact parsed_num_name hp hf
    have hpos : ∀ t ∈ (cleaned a.target out).trees, 0 < t.say := by
      rw [cleaned_voters]
      intro t ht
      obtain ⟨x, hx, rfl⟩ := List.mem_map.1 ht
      rw [say_one (hw x hx)]
      exact zero_lt_one
    have hval : ∀ t ∈ (cleaned a.target out).trees, ∀ i < fm.caseLabels.length, ∀ p x, t.opinion fm i = some p → nt.parse p.toList = some x →
        x = .nan ∨ ∃ y, x = .fin y := by
      rw [cleaned_voters]
      intro t ht c hcl p y ho hy
      obtain ⟨x, hx, rfl⟩ := List.mem_map.1 ht
      have := ((hans x hx (hne x hx) c hcl).2 p ho).2
      rw [this, String.toList_ofList, (hnt _).2] at hy
      cases hy
      exact .inr ⟨_, rfl⟩
    obtain ⟨bb, e1, e2⟩ := c97_mean_partial nt tanh o (cleaned a.target out) fm fm.caseLabels.length 0 hP.cases c2 rfl hsum hcat
      (.inr hN) hpos hval
    obtain ⟨bn, e3, e4⟩ := apply_numbers nt o (cleaned a.target out) fm fm.caseLabels.length hP.cases c2 hsum hcat (.inr hN) hpos hval
    rw [e1] at e3
    cases e3
    have hnums : ∀ c < fm.caseLabels.length, numbersOf nt fm (cleaned a.target out).trees c = (meansFor fm f (out.map voterOf) c).map fun y => (y, 1) := by
      intro c hcl
      rw [cleaned_voters]
      exact numbersOf_means hnt fm f c _ hw fun x hx p ho => ((hans x hx (hne x hx) c hcl).2 p ho).2
    have hcmd' : applyCommand nt o file text = some (forest, .num bn) := by
      have := c7 o
      simp only [applyCommand, hp, c4, Option.bind_eq_bind, Option.bind_some]
      rw [show applyForest nt o forest fm = some (.num bn) from this.trans e1]
      rfl
    refine ⟨forest, .num bn, hcmd', fun counted shown hshow => ?_⟩
    have hshown : ∀ c < fm.caseLabels.length, shown c = some (if meansFor fm f (out.map voterOf) c = [] then "NA" else
        String.ofList (nt.fmt (.fin (meanAnswer fm f (out.map voterOf) c)))) := by
      intro c hcl
      have := (e2 c hcl (shown c)).1 (by have := hshow c hcl; rw [c6] at this; exact this)
      rw [hnums c hcl, means_average] at this
      simp only [if_pos, List.map_eq_nil_iff] at this
      exact this
    have htn : ∀ c < f.missing.length, bn.tallyNum c = some (.fin (meanAnswer fm f (out.map voterOf) c)) := by
      intro c hcl
      rw [hlen] at hcl
      rw [e4 c hcl, hnums c hcl, means_average]
      rfl
    have hkl : ∀ c ∈ knownCases f.missing, c < f.missing.length := fun c hcm => List.mem_range.1 (List.mem_filter.1 hcm).1
    have hy : ∀ c ∈ knownCases f.missing, f.numData[c]? = some (.fin (f.value c)) := by
      intro c hcm
      obtain ⟨y, hy⟩ := hfin c (List.mem_range.2 (hkl c hcm))
      unfold NumFeature.value
      rw [hy]
    have hne' : knownCases f.missing ≠ [] := List.ne_nil_of_mem (a := i) (List.mem_filter.2
      ⟨List.mem_range.2 (List.getElem?_eq_some_iff.1 (show f.missing[i]? = some false from hi)).1, by simpa using (show f.missing[i]? = some false from hi)⟩)
    have hj : judgedCases f.missing bn.tallyNum = knownCases f.missing := by
      unfold judgedCases
      rw [List.filter_eq_self]
      intro c hcm
      simp [htn c (hkl c hcm)]
    have herr : (Box.num bn).error counted (.num f) =
        some (.fin (meanSquare (knownCases f.missing) f.value (meanAnswer fm f (out.map voterOf))) /
          .fin (meanSquare (knownCases f.missing) f.value fun _ => meanOver (knownCases f.missing) f.value)) := by
      show bn.tallyError f = _
      rw [(c29_error f bn f.value hy hne').1, c29_squared_error f bn f.value (meanAnswer fm f (out.map voterOf))
        (fun c hcl => by rw [htn c hcl]; rfl) hy (fun c hcm => .inr (htn c (hkl c hcm))), hj, if_neg hne']
      rfl
    obtain ⟨lines, g1, g2⟩ := applyWhole_eq hp hc.names hf hcmd' (c5.trans hn.symm) counted shown herr
      (fun c hcl => ⟨_, hshown c hcl⟩) (fun c hcl => by
        show ∃ y, f.getStr nt c = some y
        have hm : c < f.missing.length := by rw [hlen]; exact hcl
        obtain ⟨y, hy⟩ := hfin c (List.mem_range.2 hm)
        unfold NumFeature.getStr
        cases hmc : f.missing[c]'hm <;> simp [List.getElem?_eq_getElem hm, hmc, hy])
    exact ⟨lines, g1, g2, hshown⟩

/-! ## Examples -/

/-- What is printed and written for a table if Go iterates over votes in the order they were first cast. -/
def exWhole (a : GrowArgs) (o : ApplyOptions) (text : Text) : Option (Option (XF ℚ) × List (String × String × String)) :=
  (growCommand exStrokes id (fun s => s.left) a 20 id text (fun _ k => 5 * k + 1) (fun _ k => 3 * k + 1) id).bind fun file =>
    (applyCommand exStrokes o file text).bind fun x => applyWhole exStrokes o file text (firstTally exStrokes x) (firstTally exStrokes x)

/-- The conditions of `c167_classes_partial` are those of `c140_classes_partial`, shown there for this table. All predictions are right, and the
error is 0; from a single leaf one class is predicted, and the error is a half. For the number as target the
predictions are 3/2 and 5/2, the actual values 1, 2, 3 and 2; the error is 1/4 divided by 1/2. -/
example : exWhole exGrowArgs ⟨false, false, false, false⟩ exAfmTable =
      some (some (.fin 0), [("a", "yes", "yes"), ("b", "yes", "yes"), ("c", "no", "no"), ("d", "no", "no"), ("e", "yes", "NA")]) ∧
    exWhole exStump ⟨false, false, false, false⟩ exAfmTable =
      some (some (.fin (1 / 2)), [("a", "yes", "yes"), ("b", "yes", "yes"), ("c", "yes", "no"), ("d", "yes", "no"), ("e", "yes", "NA")]) ∧
    exWhole exGrowNums ⟨false, false, false, false⟩ exAfmTable =
      some (some (.fin (1 / 2)), [("a", "0111d", "01"), ("b", "0111d", "011"), ("c", "011111d", "0111"), ("d", "011111d", "011"),
        ("e", "0111d", "NA")]) := by
  refine ⟨by decide +kernel, by decide +kernel, by decide +kernel⟩

/-- A check that `Tally` can return a result. -/
def tallyCheck (bb : Box ℚ) (i : Nat) (res : Option String) : Bool :=
  match bb with
  | .cat bb => (bb.box[i]?).any fun m => m.permutations'.any fun es => decide (bb.tallyIn es = res)
  | _ => false

theorem tallyCheck_ok {bb : Box ℚ} {i : Nat} {res : Option String} (h : tallyCheck bb i res = true) (nt : NumText ℚ) : bb.Tallies nt i res := by
  unfold tallyCheck at h
  cases bb with
  | sum _ => cases h
  | num _ => cases h
  | cat bb =>
    obtain ⟨m, h1, h2⟩ := (Option.any_eq_true _ _).1 h
    obtain ⟨es, h3, h4⟩ := List.any_eq_true.1 h2
    exact ⟨m, es, h1, List.mem_permutations'.1 h3, (of_decide_eq_true h4).symm⟩

/-- Two trees of a single leaf each, on bags. -/
def exTwoStumps : GrowArgs := { target := "C:y", nTrees := 2, leafSize := ['4'] }

/-- What is counted: the actual classes. -/
def exCounted (c : Nat) : Option String := some (if c < 2 then "yes" else "no")

/-- **C167 is false of the code** for ties. growforest grows two trees that answer differently. applyforest can print the error 0, and write "no" for
all cases in the same run, because `Tally` iterates over a map each time it is asked. -/
theorem c167_tie : ∃ file forest bb, growCommand exStrokes id (fun s => s.left) exTwoStumps 20 id exAfmTable (fun _ k => 2 * k * k + k + 3)
      (fun _ k => 2 * k * k + k + 3) id = some file ∧
    applyCommand exStrokes ⟨false, false, false, false⟩ file exAfmTable = some (forest, bb) ∧
    (∀ c < 5, bb.Tallies exStrokes c (exCounted c)) ∧
    (∀ c < 5, bb.Predicts exStrokes id ⟨false, false, false, false⟩ forest.intercept c (some "no")) ∧
    applyWhole exStrokes ⟨false, false, false, false⟩ file exAfmTable exCounted (fun _ => some "no") =
      some (some (.fin 0), [("a", "no", "yes"), ("b", "no", "yes"), ("c", "no", "no"), ("d", "no", "no"), ("e", "no", "NA")]) := by
  have h : (growCommand exStrokes id (fun s => s.left) exTwoStumps 20 id exAfmTable (fun _ k => 2 * k * k + k + 3)
      (fun _ k => 2 * k * k + k + 3) id).any (fun file =>
        (applyCommand exStrokes ⟨false, false, false, false⟩ file exAfmTable).any (fun x =>
          decide (x.1.intercept = .fin 0) && (List.range 5).all (fun c => tallyCheck x.2 c (exCounted c) && tallyCheck x.2 c (some "no"))) &&
        decide (applyWhole exStrokes ⟨false, false, false, false⟩ file exAfmTable exCounted (fun _ => some "no") =
          some (some (.fin 0), [("a", "no", "yes"), ("b", "no", "yes"), ("c", "no", "no"), ("d", "no", "no"), ("e", "no", "NA")]))) = true := by
    decide +kernel
  obtain ⟨file, h1, h2⟩ := (Option.any_eq_true _ _).1 h
  rw [Bool.and_eq_true, decide_eq_true_eq] at h2
  obtain ⟨⟨forest, bb⟩, h3, h4⟩ := (Option.any_eq_true _ _).1 h2.1
  rw [Bool.and_eq_true, decide_eq_true_eq] at h4
  have h5 : ∀ c < 5, tallyCheck bb c (exCounted c) = true ∧ tallyCheck bb c (some "no") = true := fun c hc => by
    have := List.all_eq_true.1 h4.2 c (List.mem_range.2 hc)
    rwa [Bool.and_eq_true] at this
  refine ⟨file, forest, bb, h1, h3, fun c hc => tallyCheck_ok (h5 c hc).1 _, fun c hc => ?_, h2.2⟩
  unfold Box.Predicts
  rw [if_neg (by
    intro hbad
    rcases hbad with hbad | hbad
    · cases hbad
    · exact hbad h4.1)]
  exact tallyCheck_ok (h5 c hc).2 _

/-- **C167 is false of the code** for classes under a name that begins with N: applyforest panics, because it counts numbers and
compares them with classes. So it does for classes with `-mean`. -/
theorem c167_name : exWhole { target := "Near", nTrees := 2 } ⟨false, false, false, false⟩
      ".\tN:x\tNear\na\t01\tyes\nb\t01\tyes\nc\t0111\tno\nd\t0111\tno\n".toList = none ∧
    exWhole exGrowArgs ⟨true, false, false, false⟩ exAfmTable = none ∧
    (exWhole { target := "Near", nTrees := 2 } ⟨false, false, false, true⟩
      ".\tN:x\tNear\na\t01\tyes\nb\t01\tyes\nc\t0111\tno\nd\t0111\tno\n".toList).isSome = true := by
  decide +kernel

/-- **C167 is false of the code** for numbers with `-mode`, as an ordinal target would need it: applyforest panics. -/
theorem c167_mode : exWhole exGrowNums ⟨false, false, false, true⟩ exAfmTable = none ∧
    (exWhole exGrowNums ⟨false, false, false, false⟩ exAfmTable).isSome = true := by
  decide +kernel

end CloudForest
