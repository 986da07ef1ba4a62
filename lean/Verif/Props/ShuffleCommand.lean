import Verif.Lemmas.ShuffleCommand
import Verif.Props.ImputeCommand

/-!
C170: -permute and -shuffleRE from the data file to predictions.
-/

set_option linter.unusedSectionVars false

namespace CloudForest
variable {K : Type} [Field K] [LinearOrder K] [IsStrictOrderedRing K]

/-! ## Proof -/

theorem moved_target_num {nt : NumText K} {text : Text} {fm moved : FeatureMatrix K} (hp : parseAFM nt text = some fm)
    (h : List.Forall₂ Rearranged fm.data moved.data) {f0 : NumFeature K} (hf : .num f0 ∈ fm.data) :
    ∃ f : NumFeature K, .num f ∈ moved.data ∧ f.missing.Perm f0.missing ∧ f.name = f0.name := by
  obtain ⟨g, hg, hr⟩ := forall₂_left h hf
  have hm := hr.marks ((c139_afm nt text fm hp).1.consistent _ hf)
  cases g with
  | cat g => exact hr.elim
  | num g => exact ⟨g, hg, hm.1, hm.2⟩

theorem moved_target_cat {nt : NumText K} {text : Text} {fm moved : FeatureMatrix K} (hp : parseAFM nt text = some fm)
    (h : List.Forall₂ Rearranged fm.data moved.data) {f0 : CatFeature} (hf : .cat f0 ∈ fm.data) :
    ∃ f : CatFeature, .cat f ∈ moved.data ∧ f.missing.Perm f0.missing ∧ f.name = f0.name ∧ f.cm = f0.cm := by
  obtain ⟨g, hg, hr⟩ := forall₂_left h hf
  have hm := hr.marks ((c139_afm nt text fm hp).1.consistent _ hf)
  cases g with
  | num g => exact hr.elim
  | cat g => exact ⟨g, hg, hm.1, hm.2.2, hm.2.1⟩

/-! ## C170 -/

/-- **C170, classes.** growforest with `-permute` or `-shuffleRE` reads a table, moves the values of the target or of the other features whose
names match from case to case, and grows the forest from the table that results; the values of other features stay. Each tree answers a case of a text that applyforest
reads with a most frequent class among the cases of its bag that end in the same leaf, where both the leaf and the classes of those cases are by the values as they
were moved; a case with the values of a case after moving in all features that may be split on is answered like it. The class written for a case is one most
trees say, or "NA" if none says anything. -/
theorem c170_classes [FloorRing K] {nt : NumText K} (hnt : ∀ x, nt.Faithful x) {ord : Splitter K → List String}
    (hord : ∀ s : Splitter K, (ord s).Perm s.left) {order : List Nat → List Nat} (horder : ∀ bag, (order bag).Perm bag)
    {text : Text} {fm : FeatureMatrix K} (hp : parseAFM nt text = some fm) {a : GrowArgs} (hc : fm.Clean a.target)
    {f0 : CatFeature} (hf0 : .cat f0 ∈ fm.data) (hn0 : f0.name = a.target) (hids : a.target ∉ a.blacklist) {m l s : Int}
    (hm : inferMTry nt a.mTry (allowedFeatures fm a.blacklist a.target a.block a.incl).length = some m)
    (hmle : m ≤ (allowedFeatures fm a.blacklist a.target a.block a.incl).length)
    (hl : inferLeafSize nt a.leafSize false f0.cm.nCats (nKnown f0.missing) = some l)
    (hs : inferNSamples nt a.nSamples (nKnown f0.missing) = some s) (hcores : 1 ≤ a.nCores)
    (hvet : ¬ (a.vet = true ∧ a.evaloob = true)) (permute : Bool) (re : Option (String → Bool)) (draws : Nat) (log : XF K → XF K) (shuf : Rng) (own global : Nat → Rng) (pick : Nat → Nat) {file : Text}
    (hfile : growShuffledCommand nt log ord a permute re draws order text shuf own global pick = some file) :
    ∃ (moved : FeatureMatrix K) (f : CatFeature), fm.Moved (ToMove a.target permute re) moved ∧ .cat f ∈ moved.data ∧ f.name = a.target ∧
    ∃ voters : List (Tree K × List Nat), voters.length = max a.nCores a.nTrees ∧
      (∀ x ∈ voters, (∀ c ∈ x.2, f.missing[c]? = some false) ∧ x.2.length ≤ s ∧ (a.nobag = false → x.2.length = s ∧ x.2 ≠ [])) ∧
      ∀ (text2 : Text) (fm2 : FeatureMatrix K), parseAFM nt text2 = some fm2 → fm2.data ≠ [] →
        (∀ x ∈ voters, x.2 ≠ [] → ∀ c < fm2.caseLabels.length, AnswersIn moved fm2 f.Plurality x c) ∧
        ((fm2.data.map Feature.name).Nodup → ∀ x ∈ voters, ∀ d < fm.caseLabels.length, ∀ c,
          Alike (allowedFeatures moved a.blacklist a.target a.block a.incl) fm2 d c → x.1.named.opinion fm2 c = x.1.opinion moved d) ∧
        ∀ (tanh : XF K → XF K) (o : ApplyOptions), o.sum = false →
          (o.cat = true ∨ o.num = false ∧ a.target.toList.head? ≠ some 'N') →
          ∃ forest bb, applyCommand nt o file text2 = some (forest, bb) ∧ forest.target = a.target ∧
            ∀ c < fm2.caseLabels.length, (∃ res, bb.Predicts nt tanh o forest.intercept c res) ∧
              ∀ res, bb.Predicts nt tanh o forest.intercept c res → ∃ p, res = some p ∧
                ((p = "NA" ∧ ∀ q, votesIn fm2 voters c q = 0) ∨
                  (0 < votesIn fm2 voters c p ∧ ∀ q, votesIn fm2 voters c q ≤ votesIn fm2 voters c p)) := by
  obtain ⟨ti, b, hP0⟩ := prepared hp hc hf0 hn0 hids
  obtain ⟨moved, rng', hprep, hmv, hsn, hR, hI, hcf, hzf, hocc, hre⟩ := moved_table hp hc hP0.target hn0 permute re shuf
  obtain ⟨f, hf, hff, hn, hcm⟩ := moved_target_cat hp hre hf0
  have hn := hn.trans hn0
  rw [← hcm] at hl
  have hkn : nKnown f.missing = nKnown f0.missing := hff.countP_eq _
  obtain ⟨ti', b', hP⟩ := prepared_of hR hI hcf hf hn hids
  have hch := hsn.choose a.blacklist a.target a.block a.incl
  rw [hP.chosen, hP0.chosen, Option.some.injEq, Prod.mk.injEq] at hch
  obtain ⟨rfl, rfl⟩ := hch
  rw [← hkn] at hl hs
  rw [← hsn.allowed] at hm hmle
  have hl1 := inferLeafSize_pos hl
  obtain ⟨i, hi⟩ := hcf.known _ hf hn
  have hs1 := inferNSamples_pos (nKnown_pos hi) hs
  have hcons : f.Consistent := hR.consistent _ hf
  have hlen : f.missing.length = moved.caseLabels.length := hP.length
  obtain ⟨how, hhow, hnob, hpl, L, good, hr, hok⟩ := class_ready_zero (m := m.toNat) (l := l.toNat) (s := s.toNat) hR hzf hcf hf hn (hocc f hf) hP (by omega) (by omega)
    horder draws log
  have hcmd : growShuffledCommand nt log ord a permute re draws order text shuf own global pick =
      ((a.classRun log moved f how m.toNat l.toNat s.toNat draws order).runCores (a.classRun log moved f how m.toNat l.toNat s.toNat draws order).grower
        a.nCores (nKnown f.missing) f.cm.nCats (candidates moved ti' b'.marks) own global pick).bind fun out =>
      growforestFile nt ord a.progress a.target none (out.map (·.1)) := by
    have hco : (b'.nFeatures fm).toNat = (allowedFeatures moved a.blacklist a.target a.block a.incl).length := by
      rw [← hP.count]
      unfold Blacklist.nFeatures
      rw [hsn.length]
    simp only [growShuffledCommand, hp, hP0.chosen, hco, hm, hprep, hP.target, hl, hs, hhow, Option.bind_eq_bind, Option.bind_some]
  have htidy := hcf.tidy _ hf
  rw [hcmd] at hfile
  obtain ⟨out, forest, c1, hrec, c4, c5, c6, -, c7⟩ := (run_read hr hvet rfl hcores hok own global pick hnt
    (fun g hg => by have := hcf.tidy g hg; cases g <;> exact this)
    (fun cs => by
      show Plain ((f.findPredicted cs).getD "").toList
      cases hfp : f.findPredicted cs with
      | none => exact plain_empty
      | some p =>
        unfold CatFeature.findPredicted at hfp
        obtain ⟨m, -, hb⟩ := Option.bind_eq_some_iff.1 hfp
        exact (htidy.2 p (List.mem_of_getElem? hb)).1) (by
      show Plain a.target.toList
      rw [← hn]
      exact htidy.1) ord hord a.progress).2 file hfile
  obtain ⟨c3, c8⟩ := recorded_read_other hr rfl hrec
  refine ⟨moved, f, hmv, hf, hn, out.map voterOf, by rw [List.length_map]; exact c1, fun x hx => ?_, fun text2 fm2 hp2 h0 => ?_⟩
  · obtain ⟨-, -, -, -, d1, d2⟩ := c3 x hx
    have d1a : x.2.length ≤ s.toNat := d1.1
    refine ⟨d2, by omega, fun hnb => ?_⟩
    have : x.2.length = s.toNat := d1.2 (hnob.trans hnb)
    exact ⟨by omega, List.ne_nil_of_length_pos (by omega)⟩
  · obtain ⟨hR2, hI2⟩ := c139_afm nt text2 fm2 hp2
    obtain ⟨e1, e3⟩ := c8 fm2 hR2 hI2 h0
    have e2 := c7 fm2
    refine ⟨fun x hx hne c hcl => ?_, fun hnd x hx d hdl c ha => ?_, fun tanh o hsum hcat => ?_⟩
    · obtain ⟨g1, g2⟩ := e3 x hx c hcl
      obtain ⟨-, -, -, -, -, d2⟩ := c3 x hx
      unfold AnswersIn
      cases ho : x.1.named.opinion fm2 c with
      | none => exact g1 ho
      | some p =>
        obtain ⟨S, k1, k2, k3⟩ := g2 p ho
        obtain ⟨p', k4, k5⟩ := plurality_of hcons (S := S) (fun d hd => d2 d (List.mem_filter.1 (k1.mem_iff.1 hd)).1) (k3 hne)
        have : p = p' := by rw [k2]; show (f.findPredicted S).getD "" = p'; rw [k4]; rfl
        rw [this]
        exact Plurality.perm k1 k5
    · obtain ⟨-, d1, d2, d3, -⟩ := c3 x hx
      exact alike_opinion hP rfl (by show List.range f.missing.length = _; rw [hlen]) hI hI2 hnd d1 d2 d3 (by rw [hmv.labels]; exact hdl) ha
    · obtain ⟨bb, g1, g2⟩ := c97_classes nt tanh o (cleaned a.target out).named fm2 fm2.caseLabels.length (parsed_cases hp2 h0) e1 rfl
        hsum hcat
      refine ⟨forest, bb, ?_, c5, ?_⟩
      · have := e2 o
        simp only [applyCommand, hp2, c4, Option.bind_eq_bind, Option.bind_some]
        rw [show applyForest nt o forest fm2 = some bb from this.trans g1]
        rfl
      · rw [c6]
        intro c hcl
        obtain ⟨k1, k2⟩ := g2 c hcl
        refine ⟨k1, fun res hres => ?_⟩
        obtain ⟨p, hp', k3⟩ := k2 res hres
        have hw : ∀ q, weightOf fm2 (cleaned a.target out).named.trees c q = (votesIn fm2 (out.map voterOf) c q : K) := by
          intro q
          rw [named_voters]
          exact weightOf_in fm2 c q _ fun x hx => (c3 x hx).1
        refine ⟨p, hp', ?_⟩
        simp only [hw] at k3
        rcases k3 with ⟨k4, k5⟩ | ⟨k4, k5⟩
        · exact .inl ⟨k4, fun q => by have := k5 q; exact_mod_cast Nat.le_zero.1 (by exact_mod_cast this)⟩
        · exact .inr ⟨by exact_mod_cast k4, fun q => by exact_mod_cast k5 q⟩

/-- **C170, numbers.** The same for a numerical target. -/
theorem c170_numbers [FloorRing K] {nt : NumText K} (hnt : ∀ x, nt.Faithful x) {ord : Splitter K → List String}
    (hord : ∀ s : Splitter K, (ord s).Perm s.left) {order : List Nat → List Nat} (horder : ∀ bag, (order bag).Perm bag)
    {text : Text} {fm : FeatureMatrix K} (hp : parseAFM nt text = some fm) {a : GrowArgs} (hc : fm.Clean a.target)
    {f0 : NumFeature K} (hf0 : .num f0 ∈ fm.data) (hn0 : f0.name = a.target) (hids : a.target ∉ a.blacklist) (hbal : a.balance = false)
    {m l s : Int}
    (hm : inferMTry nt a.mTry (allowedFeatures fm a.blacklist a.target a.block a.incl).length = some m)
    (hmle : m ≤ (allowedFeatures fm a.blacklist a.target a.block a.incl).length)
    (hl : inferLeafSize nt a.leafSize false 0 (nKnown f0.missing) = some l)
    (hs : inferNSamples nt a.nSamples (nKnown f0.missing) = some s) (hcores : 1 ≤ a.nCores)
    (hvet : ¬ (a.vet = true ∧ a.evaloob = true)) (permute : Bool) (re : Option (String → Bool)) (draws : Nat) (log : XF K → XF K) (shuf : Rng) (own global : Nat → Rng) (pick : Nat → Nat) {file : Text}
    (hfile : growShuffledCommand nt log ord a permute re draws order text shuf own global pick = some file) :
    ∃ (moved : FeatureMatrix K) (f : NumFeature K), fm.Moved (ToMove a.target permute re) moved ∧ .num f ∈ moved.data ∧ f.name = a.target ∧
    ∃ voters : List (Tree K × List Nat), voters.length = max a.nCores a.nTrees ∧
      (∀ x ∈ voters, (∀ c ∈ x.2, f.missing[c]? = some false) ∧ x.2.length ≤ s ∧ (a.nobag = false → x.2.length = s ∧ x.2 ≠ [])) ∧
      ∀ (text2 : Text) (fm2 : FeatureMatrix K), parseAFM nt text2 = some fm2 → fm2.data ≠ [] →
        (∀ x ∈ voters, x.2 ≠ [] → ∀ c < fm2.caseLabels.length,
          AnswersIn moved fm2 (fun S p => S ≠ [] ∧ p = String.ofList (nt.fmt (.fin (f.meanOf S)))) x c) ∧
        ((fm2.data.map Feature.name).Nodup → ∀ x ∈ voters, ∀ d < fm.caseLabels.length, ∀ c,
          Alike (allowedFeatures moved a.blacklist a.target a.block a.incl) fm2 d c → x.1.named.opinion fm2 c = x.1.opinion moved d) ∧
        ∀ (tanh : XF K → XF K) (o : ApplyOptions), o.sum = false → o.cat = false →
          ∃ forest bb, applyCommand nt o file text2 = some (forest, bb) ∧ forest.target = a.target ∧
            ∀ c < fm2.caseLabels.length, ∀ res, bb.Predicts nt tanh o forest.intercept c res ↔
              res = some (if meansIn moved fm2 f voters c = [] then "NA" else
                String.ofList (nt.fmt (.fin ((meansIn moved fm2 f voters c).sum / (meansIn moved fm2 f voters c).length)))) := by
  obtain ⟨ti, b, hP0⟩ := prepared hp hc hf0 hn0 hids
  obtain ⟨moved, rng', hprep, hmv, hsn, hR, hI, hcf, hzf, hocc, hre⟩ := moved_table hp hc hP0.target hn0 permute re shuf
  obtain ⟨f, hf, hff, hn⟩ := moved_target_num hp hre hf0
  have hn := hn.trans hn0
  have hkn : nKnown f.missing = nKnown f0.missing := hff.countP_eq _
  obtain ⟨ti', b', hP⟩ := prepared_of hR hI hcf hf hn hids
  have hch := hsn.choose a.blacklist a.target a.block a.incl
  rw [hP.chosen, hP0.chosen, Option.some.injEq, Prod.mk.injEq] at hch
  obtain ⟨rfl, rfl⟩ := hch
  rw [← hkn] at hl hs
  rw [← hsn.allowed] at hm hmle
  have hl1 := inferLeafSize_pos hl
  obtain ⟨i, hi⟩ := hcf.known _ hf hn
  have hs1 := inferNSamples_pos (nKnown_pos hi) hs
  have hcons : f.Consistent := hR.consistent _ hf
  have hlen : f.missing.length = moved.caseLabels.length := hP.length
  obtain ⟨hfin, L, good, hr, hok⟩ := num_ready_zero (m := m.toNat) (l := l.toNat) (s := s.toNat) hR hzf hcf hf hn hP (by omega) (by omega) horder draws
  have hcmd : growShuffledCommand nt log ord a permute re draws order text shuf own global pick =
      ((a.numRun nt moved f m.toNat l.toNat s.toNat draws order).runCores (a.numRun nt moved f m.toNat l.toNat s.toNat draws order).grower
        a.nCores (nKnown f.missing) 0 (candidates moved ti' b'.marks) own global pick).bind fun out =>
      growforestFile nt ord a.progress a.target none (out.map (·.1)) := by
    have hco : (b'.nFeatures fm).toNat = (allowedFeatures moved a.blacklist a.target a.block a.incl).length := by
      rw [← hP.count]
      unfold Blacklist.nFeatures
      rw [hsn.length]
    simp only [growShuffledCommand, hp, hP0.chosen, hco, hm, hprep, hP.target, hl, hs, hbal, Option.bind_eq_bind, Option.bind_some]
    rfl
  have htidy := hcf.tidy _ hf
  rw [hcmd] at hfile
  obtain ⟨out, forest, c1, hrec, c4, c5, c6, -, c7⟩ := (run_read hr hvet rfl hcores hok own global pick hnt
    (fun g hg => by have := hcf.tidy g hg; cases g <;> exact this)
    (fun cs => by
      show Plain ((f.findPredicted nt cs).getD "").toList
      cases hfp : f.findPredicted nt cs with
      | none => exact plain_empty
      | some p =>
        unfold NumFeature.findPredicted at hfp
        obtain ⟨m, -, hb⟩ := Option.bind_eq_some_iff.1 hfp
        cases hb
        rw [Option.getD_some, String.toList_ofList]
        exact (hnt m).1) (by
      show Plain a.target.toList
      rw [← hn]
      exact htidy) ord hord a.progress).2 file hfile
  obtain ⟨c3, c8⟩ := recorded_read_other hr rfl hrec
  refine ⟨moved, f, hmv, hf, hn, out.map voterOf, by rw [List.length_map]; exact c1, fun x hx => ?_, fun text2 fm2 hp2 h0 => ?_⟩
  · obtain ⟨-, -, -, -, d1, d2⟩ := c3 x hx
    have d1a : x.2.length ≤ s.toNat := d1.1
    refine ⟨d2, by omega, fun hnb => ?_⟩
    have : x.2.length = s.toNat := d1.2 (by
      show (if a.nobag then Bagging.nobag else .plain).isNobag = false
      rw [hnb]
      rfl)
    exact ⟨by omega, List.ne_nil_of_length_pos (by omega)⟩
  · obtain ⟨hR2, hI2⟩ := c139_afm nt text2 fm2 hp2
    obtain ⟨e1, e3⟩ := c8 fm2 hR2 hI2 h0
    have e2 := c7 fm2
    have hans : ∀ x ∈ out.map voterOf, x.2 ≠ [] → ∀ c < fm2.caseLabels.length,
        (x.1.named.opinion fm2 c = none → ∃ g ∈ fm2.data, g.isMissing c = some true) ∧
        ∀ p, x.1.named.opinion fm2 c = some p → neighboursIn moved fm2 x.1 x.2 c ≠ [] ∧
          p = String.ofList (nt.fmt (.fin (f.meanOf (neighboursIn moved fm2 x.1 x.2 c)))) := by
      intro x hx hne c hcl
      obtain ⟨-, -, -, -, -, d2⟩ := c3 x hx
      obtain ⟨g1, g2⟩ := e3 x hx c hcl
      refine ⟨g1, fun p ho => ?_⟩
      obtain ⟨S, k1, k2, k3⟩ := g2 p ho
      have hk : ∀ d ∈ S, f.missing[d]? = some false := fun d hd => d2 d (List.mem_filter.1 (k1.mem_iff.1 hd)).1
      have hkl : ∀ d ∈ S, d < f.missing.length := fun d hd => (List.getElem?_eq_some_iff.1 (hk d hd)).1
      have k1 : S.Perm (neighboursIn moved fm2 x.1 x.2 c) := k1
      refine ⟨fun h0 => k3 hne (by rw [h0] at k1; exact List.perm_nil.1 k1), ?_⟩
      have hme := mean_eq f S hkl hcons.lengths (by
        rw [knownOf_all hk]
        exact fun d hd => hfin d (List.mem_range.2 (hkl d hd))) (by rw [knownOf_all hk]; exact k3 hne)
      rw [knownOf_all hk] at hme
      rw [k2]
      show (f.findPredicted nt S).getD "" = _
      unfold NumFeature.findPredicted
      rw [hme, neighbours_mean_perm k1]
      rfl
    have hsays : ∀ x ∈ out.map voterOf, ∀ c < fm2.caseLabels.length, ∀ p, x.1.named.opinion fm2 c = some p →
        p = String.ofList (nt.fmt (if x.2 = [] then .nan else .fin (f.meanOf (neighboursIn moved fm2 x.1 x.2 c)))) := by
      intro x hx c hcl p ho
      by_cases hne : x.2 = []
      · obtain ⟨S, k1, k2, -⟩ := (e3 x hx c hcl).2 p ho
        unfold neighboursIn at k1
        rw [hne, List.filter_nil] at k1
        rw [if_pos hne, k2, List.perm_nil.1 k1]
        show (f.findPredicted nt []).getD "" = _
        have hm0 : f.mean [] = some .nan := by
          show some (XF.fin 0 / XF.ofNat 0) = _
          rw [show (XF.ofNat 0 : XF K) = .fin 0 by simp [XF.ofNat], XF.zero_div_zero]
        unfold NumFeature.findPredicted
        rw [hm0]
        rfl
      · rw [if_neg hne]
        exact ((hans x hx hne c hcl).2 p ho).2
    refine ⟨fun x hx hne c hcl => ?_, fun hnd x hx d hdl c ha => ?_, fun tanh o hsum hcat => ?_⟩
    · obtain ⟨g1, g2⟩ := hans x hx hne c hcl
      unfold AnswersIn
      cases ho : x.1.named.opinion fm2 c with
      | none => exact g1 ho
      | some p => exact g2 p ho
    · obtain ⟨-, d1, d2, d3, -⟩ := c3 x hx
      exact alike_opinion hP rfl (by show List.range f.missing.length = _; rw [hlen]) hI hI2 hnd d1 d2 d3 (by rw [hmv.labels]; exact hdl) ha
    · have hw : ∀ x ∈ out.map voterOf, x.1.weight = .fin (-1) := fun x hx => (c3 x hx).1
      have hN : a.target.toList.head? = some 'N' := by
        rw [← hn0]
        exact parsed_num_name hp hf0
      obtain ⟨bb, g1, g2⟩ := c97_mean_partial nt tanh o (cleaned a.target out).named fm2 fm2.caseLabels.length 0 (parsed_cases hp2 h0) e1
        rfl hsum hcat (.inr hN) (by
          rw [named_voters]
          intro t ht
          obtain ⟨x, hx, rfl⟩ := List.mem_map.1 ht
          rw [say_one (t := x.1.named) (hw x hx)]
          exact zero_lt_one) (by
          rw [named_voters]
          intro t ht c hcl p y ho hy
          obtain ⟨x, hx, rfl⟩ := List.mem_map.1 ht
          have := hsays x hx c hcl p ho
          rw [this, String.toList_ofList, (hnt _).2] at hy
          cases hy
          by_cases hne : x.2 = []
          · exact .inl (if_pos hne)
          · exact .inr ⟨_, if_neg hne⟩)
      refine ⟨forest, bb, ?_, c5, ?_⟩
      · have := e2 o
        simp only [applyCommand, hp2, c4, Option.bind_eq_bind, Option.bind_some]
        rw [show applyForest nt o forest fm2 = some bb from this.trans g1]
        rfl
      · rw [c6]
        intro c hcl res
        have := g2 c hcl res
        rw [named_voters, numbersOf_in hnt moved fm2 f c _ hw fun x hx p ho => hsays x hx c hcl p ho,
          means_average] at this
        simp only [if_pos, List.map_eq_nil_iff] at this
        exact this

/-- **C170, the table that was read.** If no feature that may be split on is to be moved, as with `-permute` alone, each case of the table that was read meets the
condition `Alike` of the theorems above with itself: it is answered by the moved targets of its neighbours. -/
theorem c170_same {fm moved : FeatureMatrix K} {permute : Bool} {re : Option (String → Bool)} {ids : List String} {target : String}
    {block incl : Option (String → Bool)} (h : fm.Moved (ToMove target permute re) moved)
    (hno : ∀ p n, re = some p → Allowed ids target block incl n → p n = false) (d : Nat) :
    Alike (allowedFeatures moved ids target block incl) fm d d := by
  intro f hf
  obtain ⟨hf, hal⟩ := List.mem_filter.1 hf
  have hal : Allowed ids target block incl f.name := of_decide_eq_true hal
  obtain ⟨g, hg, hR, hk⟩ := forall₂_right h.features hf
  have hn : f.name = g.name := by
    cases f <;> cases g <;> first | exact hR.elim | exact hR.1
  have : f = g := hk (by
    rintro (⟨h1, -⟩ | ⟨-, p, h1, h2⟩)
    · exact hal.1 (hn.trans h1)
    · rw [← hn, hno p f.name h1 hal] at h2
      cases h2)
  subst this
  refine ⟨f, hg, rfl, ?_⟩
  cases f <;> exact ⟨rfl, fun _ => rfl⟩

/-! ## Examples -/

/-- Predictions of the first `n` cases of a text by a forest grown from it with values moved. -/
def exMoved (a : GrowArgs) (permute : Bool) (re : Option (String → Bool)) (shuf : Rng) (text : Text) (n : Nat) : Option (List (Option String)) :=
  (growShuffledCommand exStrokes id (fun s => s.left) a permute re 20 id text shuf (fun _ k => 5 * k + 1) (fun _ k => 3 * k + 1) id).bind fun file =>
    (applyCommand exStrokes ⟨false, false, false, false⟩ file text).map fun x => (List.range n).map (firstTally exStrokes x)

/-- The values of the first four cases after values are moved, by case. -/
def exMovedTable (targeti : Nat) (permute : Bool) (re : Option (String → Bool)) (shuf : Rng) (text : Text) : Option (List (List (Option String))) :=
  (parseAFM exStrokes text).bind fun fm => (prepare exStrokes fm targeti false permute re shuf).map fun y =>
    (List.range 4).map fun c => y.1.data.map fun f => f.getStr exStrokes c

/-- Two classes told apart by a number, and another number, which is missing once. -/
def exMoving : Text := ".\tN:x\tC:y\tN:z\na\t01\tyes\t01\nb\t01\tyes\t011\nc\t0111\tno\t0111\nd\t0111\tno\tNA\n".toList

/-- Two trees of all cases and one feature. -/
def exMovingArgs : GrowArgs := { exGrowAll with blacklist := ["N:z"] }

/-- The conditions hold for this table, for the class as target and for the number. -/
example : ∃ fm f g, parseAFM exStrokes exMoving = some fm ∧ fm.Clean "C:y" ∧ fm.Clean "N:x" ∧
    .cat f ∈ fm.data ∧ f.name = "C:y" ∧ .num g ∈ fm.data ∧ g.name = "N:x" ∧
    inferMTry exStrokes exMovingArgs.mTry (allowedFeatures fm ["N:z"] "C:y" none none).length = some 1 ∧
    (allowedFeatures fm ["N:z"] "C:y" none none).length = 1 ∧ (allowedFeatures fm ["N:z"] "N:x" none none).length = 1 ∧
    inferLeafSize exStrokes exMovingArgs.leafSize false f.cm.nCats (nKnown f.missing) = some 1 ∧
    inferNSamples exStrokes exMovingArgs.nSamples (nKnown f.missing) = some 4 ∧
    inferLeafSize exStrokes exMovingArgs.leafSize false 0 (nKnown g.missing) = some 4 := by
  have h : (parseAFM exStrokes exMoving).any (fun fm => cleanCheck fm "C:y" && cleanCheck fm "N:x" && (match fm.data with
      | [.num g, .cat f, .num _] => decide (f.name = "C:y" ∧ g.name = "N:x" ∧ f.cm.nCats = 2 ∧ nKnown f.missing = 4 ∧ nKnown g.missing = 4)
      | _ => false) && decide ((allowedFeatures fm ["N:z"] "C:y" none none).length = 1 ∧ (allowedFeatures fm ["N:z"] "N:x" none none).length = 1)) = true := by
    decide +kernel
  obtain ⟨fm, h1, h2⟩ := (Option.any_eq_true _ _).1 h
  simp only [Bool.and_eq_true, decide_eq_true_eq] at h2
  obtain ⟨⟨⟨c1, c2⟩, c4⟩, c5, c6⟩ := h2
  split at c4
  · rename_i g f z hd
    obtain ⟨d1, d2, d3, d4, d5⟩ := of_decide_eq_true c4
    refine ⟨fm, f, g, h1, cleanCheck_ok c1, cleanCheck_ok c2, by rw [hd]; simp, d1, by rw [hd]; simp, d2, ?_, c5, c6, ?_, ?_, ?_⟩
    · rw [c5]
      decide +kernel
    · rw [d3, d4]
      decide +kernel
    · rw [d4]
      decide +kernel
    · rw [d5]
      decide +kernel
  · cases c4

/-- With random numbers that leave all in place the classes are learned; with others `-permute` exchanges the classes of all cases, and the other class is
predicted of each. -/
theorem c170_exchanged :
    exMoved exMovingArgs true none (fun _ => 0) exMoving 4 = some [some "yes", some "yes", some "no", some "no"] ∧
    exMovedTable 1 true none (fun k => 7 * k + 3) exMoving = some [[some "01", some "no", some "01"], [some "01", some "no", some "011"],
      [some "0111", some "yes", some "0111"], [some "0111", some "yes", some "NA"]] ∧
    exMoved exMovingArgs true none (fun k => 7 * k + 3) exMoving 4 = some [some "no", some "no", some "yes", some "yes"] := by
  decide +kernel

/-- That no feature that may be split on is moved is needed for `c170_same`: with `-shuffleRE` growforest sees the small numbers with the class "no", and applyforest, which does not
move them, answers "no" for cases that growforest saw with the class "yes". -/
theorem c170_unlike :
    exMovedTable 1 false (some fun n => n == "N:x") (fun k => 7 * k + 3) exMoving = some [[some "0111", some "yes", some "01"], [some "0111", some "yes", some "011"],
      [some "01", some "no", some "0111"], [some "01", some "no", some "NA"]] ∧
    exMoved exMovingArgs false (some fun n => n == "N:x") (fun k => 7 * k + 3) exMoving 4 = some [some "no", some "no", some "yes", some "yes"] := by
  decide +kernel

end CloudForest
