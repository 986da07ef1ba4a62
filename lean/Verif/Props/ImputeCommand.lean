import Verif.Lemmas.ImputeCommand

/-!
C169: -impute from the data file to predictions.
-/

set_option linter.unusedSectionVars false

namespace CloudForest
variable {K : Type} [Field K] [LinearOrder K] [IsStrictOrderedRing K]

/-! ## Proof -/

theorem forall₂_left {α β : Type} {R : α → β → Prop} {l : List α} {l' : List β} (h : List.Forall₂ R l l') {x : α} (hx : x ∈ l) :
    ∃ y ∈ l', R x y := forall₂_right h.flip hx

theorem filled_target_num {fm filled : FeatureMatrix K} (h : fm.Filled filled) {f0 : NumFeature K} (hf : .num f0 ∈ fm.data) :
    ∃ f : NumFeature K, .num f ∈ filled.data ∧ f.missing = List.replicate f0.missing.length false ∧ f.name = f0.name ∧ True := by
  obtain ⟨g, hg, hR⟩ := forall₂_left h.features hf
  cases g with
  | cat g => exact hR.elim
  | num g => exact ⟨g, hg, hR.2.1, hR.1, trivial⟩

theorem filled_target_cat {fm filled : FeatureMatrix K} (h : List.Forall₂ FillSide fm.data filled.data) {f0 : CatFeature}
    (hf : .cat f0 ∈ fm.data) :
    ∃ f : CatFeature, .cat f ∈ filled.data ∧ f.missing = List.replicate f0.missing.length false ∧ f.name = f0.name ∧ f.cm = f0.cm := by
  obtain ⟨g, hg, hR⟩ := forall₂_left h hf
  cases g with
  | num g => exact hR.1.elim
  | cat g => exact ⟨g, hg, hR.1.2.1, hR.1.1, hR.2.2.2.2.2.1⟩

/-! ## C169 -/

/-- **C169, classes**, what holds. growforest -impute reads a table in which each feature is known for some case. It grows the forest from the table with
missing values filled in: by the mean of a number, by a most frequent class. No tree lacks an answer for a case of that table, and it is the
class most frequent among the neighbours in the bag. applyforest reads the file and a text, which may be the same. It does not fill in missing values: a tree
may have no answer for a case of which a value is missing. Otherwise it answers by the neighbours in the table that was filled in, so that a
case without missing values is answered as it was when the forest was grown.

Missing from the full property: cases with missing values are not predicted as if they were filled in, `c169_refused`, and cases of unknown target
take part, `c169_target`. -/
theorem c169_classes_partial [FloorRing K] {nt : NumText K} (hnt : ∀ x, nt.Faithful x) {ord : Splitter K → List String}
    (hord : ∀ s : Splitter K, (ord s).Perm s.left) {order : List Nat → List Nat} (horder : ∀ bag, (order bag).Perm bag)
    {text : Text} {fm : FeatureMatrix K} (hp : parseAFM nt text = some fm) {a : GrowArgs} (hc : fm.Clean a.target)
    (hk : ∀ f ∈ fm.data, ∃ i, f.isMissing i = some false) {f0 : CatFeature} (hf0 : .cat f0 ∈ fm.data) (hn0 : f0.name = a.target) (hids : a.target ∉ a.blacklist) {m l s : Int}
    (hm : inferMTry nt a.mTry (allowedFeatures fm a.blacklist a.target a.block a.incl).length = some m)
    (hmle : m ≤ (allowedFeatures fm a.blacklist a.target a.block a.incl).length)
    (hl : inferLeafSize nt a.leafSize false f0.cm.nCats f0.missing.length = some l)
    (hs : inferNSamples nt a.nSamples f0.missing.length = some s) (hcores : 1 ≤ a.nCores)
    (hvet : ¬ (a.vet = true ∧ a.evaloob = true)) (draws : Nat) (log : XF K → XF K) (own global : Nat → Rng) (pick : Nat → Nat) {file : Text}
    (hfile : growImputedCommand nt log ord a draws order text own global pick = some file) :
    ∃ (filled : FeatureMatrix K) (f : CatFeature), fm.Filled filled ∧ .cat f ∈ filled.data ∧ f.name = a.target ∧
    ∃ voters : List (Tree K × List Nat), voters.length = max a.nCores a.nTrees ∧
      (∀ x ∈ voters, (∀ c ∈ x.2, c < fm.caseLabels.length) ∧ x.2.length ≤ s ∧ (a.nobag = false → x.2.length = s ∧ x.2 ≠ []) ∧
        (x.2 ≠ [] → ∀ c < fm.caseLabels.length, ∃ p, x.1.opinion filled c = some p ∧ f.Plurality (neighbours filled x.1 x.2 c) p)) ∧
      ∀ (text2 : Text) (fm2 : FeatureMatrix K), parseAFM nt text2 = some fm2 → fm2.data ≠ [] →
        (∀ x ∈ voters, x.2 ≠ [] → ∀ c < fm2.caseLabels.length, AnswersIn filled fm2 f.Plurality x c) ∧
        ((fm2.data.map Feature.name).Nodup → ∀ x ∈ voters, ∀ d < fm.caseLabels.length, ∀ c,
          Alike (allowedFeatures filled a.blacklist a.target a.block a.incl) fm2 d c → x.1.named.opinion fm2 c = x.1.opinion filled d) ∧
        ∀ (tanh : XF K → XF K) (o : ApplyOptions), o.sum = false →
          (o.cat = true ∨ o.num = false ∧ a.target.toList.head? ≠ some 'N') →
          ∃ forest bb, applyCommand nt o file text2 = some (forest, bb) ∧ forest.target = a.target ∧
            ∀ c < fm2.caseLabels.length, (∃ res, bb.Predicts nt tanh o forest.intercept c res) ∧
              ∀ res, bb.Predicts nt tanh o forest.intercept c res → ∃ p, res = some p ∧
                ((p = "NA" ∧ ∀ q, votesIn fm2 voters c q = 0) ∨
                  (0 < votesIn fm2 voters c p ∧ ∀ q, votesIn fm2 voters c q ≤ votesIn fm2 voters c p)) := by
  obtain ⟨filled, himp, hfill, hsn, hR, hI, hcf, hfull, hocc, hside⟩ := filled_table hp hc hk
  obtain ⟨f, hf, hff, hn, hcm⟩ := filled_target_cat hside hf0
  have hn := hn.trans hn0
  rw [← hcm] at hl
  have hkn : nKnown f.missing = f0.missing.length := by
    rw [hff, nKnown, List.countP_replicate]
    rfl
  obtain ⟨ti, b, hP⟩ := prepared_of hR hI hcf hf hn hids
  rw [← hkn] at hl hs
  rw [← hsn.allowed] at hm hmle
  have hl1 := inferLeafSize_pos hl
  obtain ⟨i, hi⟩ := hcf.known _ hf hn
  have hs1 := inferNSamples_pos (nKnown_pos hi) hs
  have hcons : f.Consistent := hR.consistent _ hf
  have hlen : f.missing.length = filled.caseLabels.length := hP.length
  obtain ⟨how, hhow, hnob, hpl, L, good, hr, hok⟩ := class_ready_full (m := m.toNat) (l := l.toNat) (s := s.toNat) hR hfull hcf hf hn (hocc f hf) hP (by omega) (by omega)
    horder draws log
  have hcmd : growImputedCommand nt log ord a draws order text own global pick =
      ((a.classRun log filled f how m.toNat l.toNat s.toNat draws order).runCores (a.classRun log filled f how m.toNat l.toNat s.toNat draws order).grower
        a.nCores (nKnown f.missing) f.cm.nCats (candidates filled ti b.marks) own global pick).bind fun out =>
      growforestFile nt ord a.progress a.target none (out.map (·.1)) := by
    have hch : chooseFeatures fm a.blacklist a.target a.block a.incl = some (ti, b) := by rw [← hsn.choose]; exact hP.chosen
    have hco : (b.nFeatures fm).toNat = (allowedFeatures filled a.blacklist a.target a.block a.incl).length := by
      rw [← hP.count]
      unfold Blacklist.nFeatures
      rw [hsn.length]
    simp only [growImputedCommand, hp, hch, hco, hm, himp, hP.target, hl, hs, hhow, Option.bind_eq_bind, Option.bind_some]
  have htidy := hcf.tidy _ hf
  rw [hcmd] at hfile
  obtain ⟨out, forest, c1, hrec, c4, c5, c6, -, c7⟩ := (run_read hr hvet rfl hcores hok own global pick hnt
    (fun g hg => by have := hcf.tidy g hg; cases g <;> exact this)
    (fun cs => by
      show Plain ((f.findPredicted cs).getD "").toList
      cases hfp : f.findPredicted cs with
      | none => exact plain_empty
      | some p =>
        unfold CatFeature.findPredicted at hfp
        obtain ⟨m, -, hb⟩ := Option.bind_eq_some_iff.1 hfp
        exact (htidy.2 p (List.mem_of_getElem? hb)).1) (by
      show Plain a.target.toList
      rw [← hn]
      exact htidy.1) ord hord a.progress).2 file hfile
  obtain ⟨c3, c8⟩ := recorded_read_other hr rfl hrec
  obtain ⟨-, c9⟩ := recorded_voters hr rfl hrec
  refine ⟨filled, f, hfill, hf, hn, out.map voterOf, by rw [List.length_map]; exact c1, fun x hx => ?_, fun text2 fm2 hp2 h0 => ?_⟩
  · obtain ⟨-, -, -, -, d1, d2⟩ := c3 x hx
    have d1a : x.2.length ≤ s.toNat := d1.1
    refine ⟨fun c hcm => by rw [← hfill.labels, ← hlen]; exact (List.getElem?_eq_some_iff.1 (d2 c hcm)).1, by omega, fun hnb => ?_, fun hne c hcl => ?_⟩
    · have : x.2.length = s.toNat := d1.2 (hnob.trans hnb)
      exact ⟨by omega, List.ne_nil_of_length_pos (by omega)⟩
    · obtain ⟨-, -, d4, d5⟩ := c9 x hx
      obtain ⟨e1, e2⟩ := d5 c (List.mem_range.2 (by rw [← hfill.labels, ← hlen] at hcl; exact hcl))
      cases ho : x.1.opinion filled c with
      | none =>
        obtain ⟨g, hg, hgm⟩ := e1 ho
        exact absurd hgm (hfull g hg c)
      | some p =>
        obtain ⟨S, g1, g2, g3⟩ := e2 p ho
        have hk : ∀ d ∈ S, f.missing[d]? = some false := fun d hd => d2 d (List.mem_filter.1 (g1.mem_iff.1 hd)).1
        obtain ⟨p', g4, g5⟩ := plurality_of hcons (S := S) hk (g3 hne)
        have : p = p' := by rw [g2]; show (f.findPredicted S).getD "" = p'; rw [g4]; rfl
        exact ⟨p, rfl, by rw [this]; exact Plurality.perm g1 g5⟩
  · obtain ⟨hR2, hI2⟩ := c139_afm nt text2 fm2 hp2
    obtain ⟨e1, e3⟩ := c8 fm2 hR2 hI2 h0
    have e2 := c7 fm2
    refine ⟨fun x hx hne c hcl => ?_, fun hnd x hx d hdl c ha => ?_, fun tanh o hsum hcat => ?_⟩
    · obtain ⟨g1, g2⟩ := e3 x hx c hcl
      obtain ⟨-, -, -, -, -, d2⟩ := c3 x hx
      unfold AnswersIn
      cases ho : x.1.named.opinion fm2 c with
      | none => exact g1 ho
      | some p =>
        obtain ⟨S, k1, k2, k3⟩ := g2 p ho
        obtain ⟨p', k4, k5⟩ := plurality_of hcons (S := S) (fun d hd => d2 d (List.mem_filter.1 (k1.mem_iff.1 hd)).1) (k3 hne)
        have : p = p' := by rw [k2]; show (f.findPredicted S).getD "" = p'; rw [k4]; rfl
        rw [this]
        exact Plurality.perm k1 k5
    · obtain ⟨-, d1, d2, d3, -⟩ := c3 x hx
      exact alike_opinion hP rfl (by show List.range f.missing.length = _; rw [hlen]) hI hI2 hnd d1 d2 d3 (by rw [hfill.labels]; exact hdl) ha
    · obtain ⟨bb, g1, g2⟩ := c97_classes nt tanh o (cleaned a.target out).named fm2 fm2.caseLabels.length (parsed_cases hp2 h0) e1 rfl
        hsum hcat
      refine ⟨forest, bb, ?_, c5, ?_⟩
      · have := e2 o
        simp only [applyCommand, hp2, c4, Option.bind_eq_bind, Option.bind_some]
        rw [show applyForest nt o forest fm2 = some bb from this.trans g1]
        rfl
      · rw [c6]
        intro c hcl
        obtain ⟨k1, k2⟩ := g2 c hcl
        refine ⟨k1, fun res hres => ?_⟩
        obtain ⟨p, hp', k3⟩ := k2 res hres
        have hw : ∀ q, weightOf fm2 (cleaned a.target out).named.trees c q = (votesIn fm2 (out.map voterOf) c q : K) := by
          intro q
          rw [named_voters]
          exact weightOf_in fm2 c q _ fun x hx => (c3 x hx).1
        refine ⟨p, hp', ?_⟩
        simp only [hw] at k3
        rcases k3 with ⟨k4, k5⟩ | ⟨k4, k5⟩
        · exact .inl ⟨k4, fun q => by have := k5 q; exact_mod_cast Nat.le_zero.1 (by exact_mod_cast this)⟩
        · exact .inr ⟨by exact_mod_cast k4, fun q => by exact_mod_cast k5 q⟩

/-- **C169, numbers.** The same for a numerical target. -/
theorem c169_numbers_partial [FloorRing K] {nt : NumText K} (hnt : ∀ x, nt.Faithful x) {ord : Splitter K → List String}
    (hord : ∀ s : Splitter K, (ord s).Perm s.left) {order : List Nat → List Nat} (horder : ∀ bag, (order bag).Perm bag)
    {text : Text} {fm : FeatureMatrix K} (hp : parseAFM nt text = some fm) {a : GrowArgs} (hc : fm.Clean a.target)
    (hk : ∀ f ∈ fm.data, ∃ i, f.isMissing i = some false) {f0 : NumFeature K} (hf0 : .num f0 ∈ fm.data) (hn0 : f0.name = a.target) (hids : a.target ∉ a.blacklist) (hbal : a.balance = false)
    {m l s : Int}
    (hm : inferMTry nt a.mTry (allowedFeatures fm a.blacklist a.target a.block a.incl).length = some m)
    (hmle : m ≤ (allowedFeatures fm a.blacklist a.target a.block a.incl).length)
    (hl : inferLeafSize nt a.leafSize false 0 f0.missing.length = some l)
    (hs : inferNSamples nt a.nSamples f0.missing.length = some s) (hcores : 1 ≤ a.nCores)
    (hvet : ¬ (a.vet = true ∧ a.evaloob = true)) (draws : Nat) (log : XF K → XF K) (own global : Nat → Rng) (pick : Nat → Nat) {file : Text}
    (hfile : growImputedCommand nt log ord a draws order text own global pick = some file) :
    ∃ (filled : FeatureMatrix K) (f : NumFeature K), fm.Filled filled ∧ .num f ∈ filled.data ∧ f.name = a.target ∧
    ∃ voters : List (Tree K × List Nat), voters.length = max a.nCores a.nTrees ∧
      (∀ x ∈ voters, (∀ c ∈ x.2, c < fm.caseLabels.length) ∧ x.2.length ≤ s ∧ (a.nobag = false → x.2.length = s ∧ x.2 ≠ []) ∧
        (x.2 ≠ [] → ∀ c < fm.caseLabels.length, ∃ p, x.1.opinion filled c = some p ∧ neighbours filled x.1 x.2 c ≠ [] ∧
          p = String.ofList (nt.fmt (.fin (f.meanOf (neighbours filled x.1 x.2 c)))))) ∧
      ∀ (text2 : Text) (fm2 : FeatureMatrix K), parseAFM nt text2 = some fm2 → fm2.data ≠ [] →
        (∀ x ∈ voters, x.2 ≠ [] → ∀ c < fm2.caseLabels.length,
          AnswersIn filled fm2 (fun S p => S ≠ [] ∧ p = String.ofList (nt.fmt (.fin (f.meanOf S)))) x c) ∧
        ((fm2.data.map Feature.name).Nodup → ∀ x ∈ voters, ∀ d < fm.caseLabels.length, ∀ c,
          Alike (allowedFeatures filled a.blacklist a.target a.block a.incl) fm2 d c → x.1.named.opinion fm2 c = x.1.opinion filled d) ∧
        ∀ (tanh : XF K → XF K) (o : ApplyOptions), o.sum = false → o.cat = false →
          ∃ forest bb, applyCommand nt o file text2 = some (forest, bb) ∧ forest.target = a.target ∧
            ∀ c < fm2.caseLabels.length, ∀ res, bb.Predicts nt tanh o forest.intercept c res ↔
              res = some (if meansIn filled fm2 f voters c = [] then "NA" else
                String.ofList (nt.fmt (.fin ((meansIn filled fm2 f voters c).sum / (meansIn filled fm2 f voters c).length)))) := by
  obtain ⟨filled, himp, hfill, hsn, hR, hI, hcf, hfull, hocc, hside⟩ := filled_table hp hc hk
  obtain ⟨f, hf, hff, hn, -⟩ := filled_target_num hfill hf0
  have hn := hn.trans hn0
  have hkn : nKnown f.missing = f0.missing.length := by
    rw [hff, nKnown, List.countP_replicate]
    rfl
  obtain ⟨ti, b, hP⟩ := prepared_of hR hI hcf hf hn hids
  rw [← hkn] at hl hs
  rw [← hsn.allowed] at hm hmle
  have hl1 := inferLeafSize_pos hl
  obtain ⟨i, hi⟩ := hcf.known _ hf hn
  have hs1 := inferNSamples_pos (nKnown_pos hi) hs
  have hcons : f.Consistent := hR.consistent _ hf
  have hlen : f.missing.length = filled.caseLabels.length := hP.length
  obtain ⟨hfin, L, good, hr, hok⟩ := num_ready_full (nt := nt) (m := m.toNat) (l := l.toNat) (s := s.toNat) hR hfull hcf hf hn hP (by omega) (by omega) horder draws
  have hcmd : growImputedCommand nt log ord a draws order text own global pick =
      ((a.numRun nt filled f m.toNat l.toNat s.toNat draws order).runCores (a.numRun nt filled f m.toNat l.toNat s.toNat draws order).grower
        a.nCores (nKnown f.missing) 0 (candidates filled ti b.marks) own global pick).bind fun out =>
      growforestFile nt ord a.progress a.target none (out.map (·.1)) := by
    have hch : chooseFeatures fm a.blacklist a.target a.block a.incl = some (ti, b) := by rw [← hsn.choose]; exact hP.chosen
    have hco : (b.nFeatures fm).toNat = (allowedFeatures filled a.blacklist a.target a.block a.incl).length := by
      rw [← hP.count]
      unfold Blacklist.nFeatures
      rw [hsn.length]
    simp only [growImputedCommand, hp, hch, hco, hm, himp, hP.target, hl, hs, hbal, Option.bind_eq_bind, Option.bind_some]
    rfl
  have htidy := hcf.tidy _ hf
  rw [hcmd] at hfile
  obtain ⟨out, forest, c1, hrec, c4, c5, c6, -, c7⟩ := (run_read hr hvet rfl hcores hok own global pick hnt
    (fun g hg => by have := hcf.tidy g hg; cases g <;> exact this)
    (fun cs => by
      show Plain ((f.findPredicted nt cs).getD "").toList
      cases hfp : f.findPredicted nt cs with
      | none => exact plain_empty
      | some p =>
        unfold NumFeature.findPredicted at hfp
        obtain ⟨m, -, hb⟩ := Option.bind_eq_some_iff.1 hfp
        cases hb
        rw [Option.getD_some, String.toList_ofList]
        exact (hnt m).1) (by
      show Plain a.target.toList
      rw [← hn]
      exact htidy) ord hord a.progress).2 file hfile
  obtain ⟨c3, c8⟩ := recorded_read_other hr rfl hrec
  obtain ⟨-, c9⟩ := recorded_voters hr rfl hrec
  refine ⟨filled, f, hfill, hf, hn, out.map voterOf, by rw [List.length_map]; exact c1, fun x hx => ?_, fun text2 fm2 hp2 h0 => ?_⟩
  · obtain ⟨-, -, -, -, d1, d2⟩ := c3 x hx
    have d1a : x.2.length ≤ s.toNat := d1.1
    refine ⟨fun c hcm => by rw [← hfill.labels, ← hlen]; exact (List.getElem?_eq_some_iff.1 (d2 c hcm)).1, by omega, fun hnb => ?_, fun hne c hcl => ?_⟩
    · have : x.2.length = s.toNat := d1.2 (by
        show (if a.nobag then Bagging.nobag else .plain).isNobag = false
        rw [hnb]
        rfl)
      exact ⟨by omega, List.ne_nil_of_length_pos (by omega)⟩
    · obtain ⟨-, -, d4, d5⟩ := c9 x hx
      obtain ⟨e1, e2⟩ := d5 c (List.mem_range.2 (by rw [← hfill.labels, ← hlen] at hcl; exact hcl))
      cases ho : x.1.opinion filled c with
      | none =>
        obtain ⟨g, hg, hgm⟩ := e1 ho
        exact absurd hgm (hfull g hg c)
      | some p =>
        obtain ⟨S, g1, g2, g3⟩ := e2 p ho
        have hk : ∀ d ∈ S, f.missing[d]? = some false := fun d hd => d2 d (List.mem_filter.1 (g1.mem_iff.1 hd)).1
        have hkl : ∀ d ∈ S, d < f.missing.length := fun d hd => (List.getElem?_eq_some_iff.1 (hk d hd)).1
        have hme := mean_eq f S hkl hcons.lengths (by
          rw [knownOf_all hk]
          exact fun d hd => hfin d (List.mem_range.2 (hkl d hd))) (by rw [knownOf_all hk]; exact g3 hne)
        rw [knownOf_all hk] at hme
        have g1 : S.Perm (neighbours filled x.1 x.2 c) := g1
        refine ⟨p, rfl, fun h0 => g3 hne (by rw [h0] at g1; exact List.perm_nil.1 g1), ?_⟩
        rw [g2]
        show (f.findPredicted nt S).getD "" = _
        unfold NumFeature.findPredicted
        rw [hme, neighbours_mean_perm g1]
        rfl
  · obtain ⟨hR2, hI2⟩ := c139_afm nt text2 fm2 hp2
    obtain ⟨e1, e3⟩ := c8 fm2 hR2 hI2 h0
    have e2 := c7 fm2
    have hans : ∀ x ∈ out.map voterOf, x.2 ≠ [] → ∀ c < fm2.caseLabels.length,
        (x.1.named.opinion fm2 c = none → ∃ g ∈ fm2.data, g.isMissing c = some true) ∧
        ∀ p, x.1.named.opinion fm2 c = some p → neighboursIn filled fm2 x.1 x.2 c ≠ [] ∧
          p = String.ofList (nt.fmt (.fin (f.meanOf (neighboursIn filled fm2 x.1 x.2 c)))) := by
      intro x hx hne c hcl
      obtain ⟨-, -, -, -, -, d2⟩ := c3 x hx
      obtain ⟨g1, g2⟩ := e3 x hx c hcl
      refine ⟨g1, fun p ho => ?_⟩
      obtain ⟨S, k1, k2, k3⟩ := g2 p ho
      have hk : ∀ d ∈ S, f.missing[d]? = some false := fun d hd => d2 d (List.mem_filter.1 (k1.mem_iff.1 hd)).1
      have hkl : ∀ d ∈ S, d < f.missing.length := fun d hd => (List.getElem?_eq_some_iff.1 (hk d hd)).1
      have k1 : S.Perm (neighboursIn filled fm2 x.1 x.2 c) := k1
      refine ⟨fun h0 => k3 hne (by rw [h0] at k1; exact List.perm_nil.1 k1), ?_⟩
      have hme := mean_eq f S hkl hcons.lengths (by
        rw [knownOf_all hk]
        exact fun d hd => hfin d (List.mem_range.2 (hkl d hd))) (by rw [knownOf_all hk]; exact k3 hne)
      rw [knownOf_all hk] at hme
      rw [k2]
      show (f.findPredicted nt S).getD "" = _
      unfold NumFeature.findPredicted
      rw [hme, neighbours_mean_perm k1]
      rfl
    have hsays : ∀ x ∈ out.map voterOf, ∀ c < fm2.caseLabels.length, ∀ p, x.1.named.opinion fm2 c = some p →
        p = String.ofList (nt.fmt (if x.2 = [] then .nan else .fin (f.meanOf (neighboursIn filled fm2 x.1 x.2 c)))) := by
      intro x hx c hcl p ho
      by_cases hne : x.2 = []
      · obtain ⟨S, k1, k2, -⟩ := (e3 x hx c hcl).2 p ho
        unfold neighboursIn at k1
        rw [hne, List.filter_nil] at k1
        rw [if_pos hne, k2, List.perm_nil.1 k1]
        show (f.findPredicted nt []).getD "" = _
        have hm0 : f.mean [] = some .nan := by
          show some (XF.fin 0 / XF.ofNat 0) = _
          rw [show (XF.ofNat 0 : XF K) = .fin 0 by simp [XF.ofNat], XF.zero_div_zero]
        unfold NumFeature.findPredicted
        rw [hm0]
        rfl
      · rw [if_neg hne]
        exact ((hans x hx hne c hcl).2 p ho).2
    refine ⟨fun x hx hne c hcl => ?_, fun hnd x hx d hdl c ha => ?_, fun tanh o hsum hcat => ?_⟩
    · obtain ⟨g1, g2⟩ := hans x hx hne c hcl
      unfold AnswersIn
      cases ho : x.1.named.opinion fm2 c with
      | none => exact g1 ho
      | some p => exact g2 p ho
    · obtain ⟨-, d1, d2, d3, -⟩ := c3 x hx
      exact alike_opinion hP rfl (by show List.range f.missing.length = _; rw [hlen]) hI hI2 hnd d1 d2 d3 (by rw [hfill.labels]; exact hdl) ha
    · have hw : ∀ x ∈ out.map voterOf, x.1.weight = .fin (-1) := fun x hx => (c3 x hx).1
      have hN : a.target.toList.head? = some 'N' := by
        rw [← hn0]
        exact parsed_num_name hp hf0
      obtain ⟨bb, g1, g2⟩ := c97_mean_partial nt tanh o (cleaned a.target out).named fm2 fm2.caseLabels.length 0 (parsed_cases hp2 h0) e1
        rfl hsum hcat (.inr hN) (by
          rw [named_voters]
          intro t ht
          obtain ⟨x, hx, rfl⟩ := List.mem_map.1 ht
          rw [say_one (t := x.1.named) (hw x hx)]
          exact zero_lt_one) (by
          rw [named_voters]
          intro t ht c hcl p y ho hy
          obtain ⟨x, hx, rfl⟩ := List.mem_map.1 ht
          have := hsays x hx c hcl p ho
          rw [this, String.toList_ofList, (hnt _).2] at hy
          cases hy
          by_cases hne : x.2 = []
          · exact .inl (if_pos hne)
          · exact .inr ⟨_, if_neg hne⟩)
      refine ⟨forest, bb, ?_, c5, ?_⟩
      · have := e2 o
        simp only [applyCommand, hp2, c4, Option.bind_eq_bind, Option.bind_some]
        rw [show applyForest nt o forest fm2 = some bb from this.trans g1]
        rfl
      · rw [c6]
        intro c hcl res
        have := g2 c hcl res
        rw [named_voters, numbersOf_in hnt filled fm2 f c _ hw fun x hx p ho => hsays x hx c hcl p ho,
          means_average] at this
        simp only [if_pos, List.map_eq_nil_iff] at this
        exact this

/-- **C169, complete cases.** A case without missing values is unchanged by filling in, so that it meets the condition `Alike` of the theorems above for the table that
was read. -/
theorem c169_complete {fm filled : FeatureMatrix K} (h : fm.Filled filled) {d : Nat} (hd : ∀ g ∈ fm.data, g.isMissing d = some false)
    (ids : List String) (target : String) (block incl : Option (String → Bool)) :
    Alike (allowedFeatures filled ids target block incl) fm d d := by
  intro f hf
  obtain ⟨g, hg, hR⟩ := forall₂_right h.features (List.mem_filter.1 hf).1
  have hm := hd g hg
  refine ⟨g, hg, ?_⟩
  cases f with
  | num f =>
    cases g with
    | cat g => exact hR.elim
    | num g =>
      have hm : g.missing[d]? = some false := hm
      refine ⟨hR.1.symm, ?_, fun _ => hR.2.2.1 d hm⟩
      rw [hR.2.1, hm, List.getElem?_replicate, if_pos (List.getElem?_eq_some_iff.1 hm).1]
  | cat f =>
    cases g with
    | num g => exact hR.elim
    | cat g =>
      have hm : g.missing[d]? = some false := hm
      refine ⟨hR.1.symm, ?_, fun _ => hR.2.2.1 d hm⟩
      rw [hR.2.1, hm, List.getElem?_replicate, if_pos (List.getElem?_eq_some_iff.1 hm).1]

/-! ## Examples -/

/-- Predictions of the first `n` cases of the second text by a forest grown from the first with `-impute`. -/
def exImputed (a : GrowArgs) (text text2 : Text) (n : Nat) : Option (List (Option String)) :=
  (growImputedCommand exStrokes id (fun s => s.left) a 20 id text (fun _ k => 5 * k + 1) (fun _ k => 3 * k + 1) id).bind fun file =>
    (applyCommand exStrokes ⟨false, false, false, false⟩ file text2).map fun x => (List.range n).map (firstTally exStrokes x)

/-- The same without `-impute`. -/
def exNotImputed (a : GrowArgs) (text text2 : Text) (n : Nat) : Option (List (Option String)) :=
  (growCommand exStrokes id (fun s => s.left) a 20 id text (fun _ k => 5 * k + 1) (fun _ k => 3 * k + 1) id).bind fun file =>
    (applyCommand exStrokes ⟨false, false, false, false⟩ file text2).map fun x => (List.range n).map (firstTally exStrokes x)

/-- Two trees, each of all cases. -/
def exGrowAll : GrowArgs := { target := "C:y", nTrees := 2, nobag := true }

/-- A number that is missing in the last case. -/
def exGap : Text := ".\tN:x\tC:y\na\t01\tyes\nb\t01\tyes\nc\t0111\tno\nd\t0111\tno\ne\tNA\tno\n".toList

/-- The same table with the mean of 1, 1, 3 and 3 instead. -/
def exGapFilled : Text := ".\tN:x\tC:y\na\t01\tyes\nb\t01\tyes\nc\t0111\tno\nd\t0111\tno\ne\t011\tno\n".toList

/-- The conditions hold for this table, for the class as target and for the number. -/
example : ∃ fm f g, parseAFM exStrokes exGap = some fm ∧ fm.Clean "C:y" ∧ fm.Clean "N:x" ∧
    (∀ f ∈ fm.data, ∃ i, f.isMissing i = some false) ∧ .cat f ∈ fm.data ∧ f.name = "C:y" ∧ .num g ∈ fm.data ∧ g.name = "N:x" ∧
    inferMTry exStrokes exGrowAll.mTry (allowedFeatures fm [] "C:y" none none).length = some 1 ∧ (allowedFeatures fm [] "C:y" none none).length = 1 ∧
    inferLeafSize exStrokes exGrowAll.leafSize false f.cm.nCats f.missing.length = some 1 ∧ inferNSamples exStrokes exGrowAll.nSamples f.missing.length = some 5 ∧
    inferLeafSize exStrokes exGrowNums.leafSize false 0 g.missing.length = some 1 ∧ (allowedFeatures fm [] "N:x" none none).length = 1 ∧
    (fm.imputeMissing exStrokes).isSome = true := by
  have h : (parseAFM exStrokes exGap).any (fun fm => cleanCheck fm "C:y" && cleanCheck fm "N:x" &&
      (fm.data.all fun f => f.isMissing 0 == some false) && (match fm.data with
      | [.num g, .cat f] => decide (f.name = "C:y" ∧ g.name = "N:x" ∧ f.cm.nCats = 2 ∧ f.missing.length = 5 ∧ g.missing.length = 5)
      | _ => false) && decide ((allowedFeatures fm [] "C:y" none none).length = 1 ∧ (allowedFeatures fm [] "N:x" none none).length = 1 ∧
        (fm.imputeMissing exStrokes).isSome = true)) = true := by
    decide +kernel
  obtain ⟨fm, h1, h2⟩ := (Option.any_eq_true _ _).1 h
  simp only [Bool.and_eq_true, decide_eq_true_eq] at h2
  obtain ⟨⟨⟨⟨c1, c2⟩, c3⟩, c4⟩, c5, c6, c7⟩ := h2
  split at c4
  · rename_i g f hd
    obtain ⟨d1, d2, d3, d4, d5⟩ := of_decide_eq_true c4
    refine ⟨fm, f, g, h1, cleanCheck_ok c1, cleanCheck_ok c2, fun f hf => ⟨0, ?_⟩, by rw [hd]; simp, d1, by rw [hd]; simp, d2, ?_, c5, ?_, ?_, ?_, c6, c7⟩
    · have := List.all_eq_true.1 c3 f hf
      simpa using this
    · rw [c5]
      decide +kernel
    · rw [d3, d4]
      decide +kernel
    · rw [d4]
      decide +kernel
    · rw [d5]
      decide +kernel
  · cases c4

/-- **C169 is false of the code**: the case with a missing value, with which the forest was grown, is not predicted. It is if the mean stands in the
text. -/
theorem c169_refused :
    exImputed exGrowAll exGap exGap 5 = some [some "yes", some "yes", some "no", some "no", some "NA"] ∧
    exImputed exGrowAll exGap exGapFilled 5 = some [some "yes", some "yes", some "no", some "no", some "no"] := by
  decide +kernel

/-- Two classes, told apart by a number, and three cases of unknown class. -/
def exUntold : Text :=
  ".\tN:x\tC:y\na\t01\tyes\nb\t01\tyes\nh\t01\tyes\nc\t0111\tno\nd\t0111\tno\ne\t0111\tNA\nf\t0111\tNA\ng\t0111\tNA\n".toList

/-- **C169 is false of the code**: cases of unknown class count with the most frequent class. Here no known case contradicts that large numbers are of the class "no",
but with `-impute` all are predicted as "yes". -/
theorem c169_target :
    exImputed exGrowAll exUntold exUntold 8 = some (List.replicate 8 (some "yes")) ∧
    exNotImputed exGrowAll exUntold exUntold 8 = some (List.replicate 3 (some "yes") ++ List.replicate 5 (some "no")) := by
  decide +kernel

/-- A number that is missing in all cases. -/
def exNever : Text := ".\tN:x\tN:k\tC:y\na\t01\tNA\tyes\nb\t01\tNA\tyes\nc\t0111\tNA\tno\nd\t0111\tNA\tno\ne\t0111\tNA\tno\n".toList

/-- That each feature is known for some case is needed: a number that is never known is filled in with the mean of no numbers, which is not a number, and
is split on. Then no case can be predicted; without `-impute` all are. -/
theorem c169_never :
    exImputed exGrowAll exNever exNever 5 = some (List.replicate 5 (some "NA")) ∧
    exNotImputed exGrowAll exNever exNever 5 = some [some "yes", some "yes", some "no", some "no", some "no"] := by
  decide +kernel

end CloudForest
