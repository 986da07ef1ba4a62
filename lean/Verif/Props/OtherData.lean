import Verif.Lemmas.OtherData
import Verif.Lemmas.Stats

/-!
# C144: predicting other data
# C145: a regression forest does not extrapolate

growforest reads a text and writes a forest, applyforest reads the forest and another text.
-/

set_option linter.unusedSectionVars false

namespace CloudForest
variable {K : Type} [Field K] [LinearOrder K] [IsStrictOrderedRing K]

/-! ## Proof -/

theorem named_voters (target : String) (out : List (Tree K × List Nat)) :
    (cleaned target out).named.trees = (out.map voterOf).map fun x => x.1.named := by
  show (cleaned target out).trees.map _ = _
  rw [cleaned_voters, List.map_map]
  rfl

theorem weightOf_in (fm2 : FeatureMatrix K) (c : Nat) (p : String) (voters : List (Tree K × List Nat))
    (h : ∀ x ∈ voters, x.1.weight = .fin (-1)) : weightOf fm2 (voters.map fun x => x.1.named) c p = (votesIn fm2 voters c p : K) := by
  have := weightOf_votes fm2 c p (voters.map fun x => (x.1.named, x.2)) (by
    intro y hy
    obtain ⟨x, hx, rfl⟩ := List.mem_map.1 hy
    exact h x hx)
  rw [List.map_map] at this
  rw [show (voters.map fun x => x.1.named) = voters.map ((fun x => x.1) ∘ fun x => (x.1.named, x.2)) from rfl, this]
  unfold votesFor votesIn
  rw [List.filter_map, List.length_map]
  rfl

theorem numbersOf_in {nt : NumText K} (hnt : ∀ x, nt.Faithful x) (fm fm2 : FeatureMatrix K) (f : NumFeature K) (c : Nat) :
    ∀ (voters : List (Tree K × List Nat)), (∀ x ∈ voters, x.1.weight = .fin (-1)) →
      (∀ x ∈ voters, ∀ p, x.1.named.opinion fm2 c = some p →
        p = String.ofList (nt.fmt (if x.2 = [] then .nan else .fin (f.meanOf (neighboursIn fm fm2 x.1 x.2 c))))) →
      numbersOf nt fm2 (voters.map fun x => x.1.named) c = (meansIn fm fm2 f voters c).map fun y => (y, 1) := by
  intro voters
  induction voters with
  | nil => intro _ _; rfl
  | cons x voters ih =>
    intro hw ho
    have ih := ih (fun y hy => hw y (List.mem_cons_of_mem _ hy)) (fun y hy => ho y (List.mem_cons_of_mem _ hy))
    unfold numbersOf meansIn at ih ⊢
    rw [List.map_cons, List.filterMap_cons, List.filter_cons]
    cases hop : x.1.named.opinion fm2 c with
    | none => simpa using ih
    | some p =>
      have hpe := ho x List.mem_cons_self p hop
      have : nt.parse p.toList = some (if x.2 = [] then .nan else .fin (f.meanOf (neighboursIn fm fm2 x.1 x.2 c))) := by
        rw [hpe, String.toList_ofList]
        exact (hnt _).2
      cases hx : x.2 with
      | nil =>
        rw [hx, if_pos rfl] at this
        simpa [this] using ih
      | cons d ds =>
        rw [if_neg (by rw [hx]; simp), hx] at this
        simp only [Option.bind_some, this, Option.isSome_some, if_true, List.map_cons, List.isEmpty_cons, Bool.not_false, Bool.and_self]
        rw [ih, say_one (t := x.1.named) (hw x List.mem_cons_self), hx]

/-- A case with the values of a case of the training data is answered like it. -/
theorem alike_opinion {fm fm2 : FeatureMatrix K} {a : GrowArgs} {F : Feature K} {ti : Nat} {b : Blacklist}
    (hP : Prepared fm a F ti b) {τ : Type} {r : RunSetup K τ} (hrf : r.fm = fm) (hra : r.all = List.range fm.caseLabels.length)
    {L : TargetLaws r.T r.all} (hI : fm.Indexed) (hI2 : fm2.Indexed) (hnd : (fm2.data.map Feature.name).Nodup) {t : Tree K}
    {bag : List Nat} (hg : r.Grown L (candidates fm ti b.marks) bag t.root) (hd : CodesDecoded fm t.root)
    (hu : Usable fm r.all t.root) {d c : Nat} (hdl : d < fm.caseLabels.length)
    (ha : Alike (allowedFeatures fm a.blacklist a.target a.block a.incl) fm2 d c) :
    t.named.opinion fm2 c = t.opinion fm d := by
  obtain ⟨st, st', -, h2, -, h4⟩ := hg
  subst hrf
  have hnames := (c93_splits r.fm hI hP.matrix.named a.blacklist a.target a.block a.incl ti b hP.chosen r.T r.C r.o r.findPredicted
    r.maxDepth r.splitmissing _ .fresh (by simp [Node.fresh, Node.splitNames]) st h2 bag t.root st' h4).1
  have hres : ∀ s ∈ t.root.splitNames, ∃ f ∈ r.fm.data, f.name = s :=
    (grow_names (P := fun _ => True) (R := fun s => ∃ f ∈ r.fm.data, f.name = s) (g := r.freeGrower) (fm := r.fm)
      (fun _ _ _ _ _ _ _ => ⟨trivial, fun _ f hf => ⟨f, List.mem_of_getElem? hf, rfl⟩⟩) _ .fresh st bag 0 0 t.root st' trivial
      (by simp [Node.fresh, Node.splitNames]) h4).2
  unfold Tree.opinion
  rw [show t.named.root = t.root.stripCodes from rfl, landing_same (cases := r.all) (by rw [hra]; exact List.mem_range.2 hdl) hu hd]
  intro s hs
  obtain ⟨f, hf, hfn⟩ := hres s hs
  have hall : f ∈ allowedFeatures r.fm a.blacklist a.target a.block a.incl :=
    List.mem_filter.2 ⟨hf, by rw [hfn]; exact decide_eq_true (hnames s hs)⟩
  obtain ⟨g, hg, hgn, hsv⟩ := ha f hall
  obtain ⟨i, hi⟩ := List.mem_iff_getElem?.1 hf
  obtain ⟨j, hj⟩ := hI2.complete g hg
  obtain ⟨g', hg', hgn'⟩ := hI2.sound _ _ hj
  have hgg : g' = g := List.inj_on_of_nodup_map hnd (List.mem_of_getElem? hg') hg hgn'
  subst hgg
  refine ⟨f, g', ?_, ?_, hsv⟩
  · rw [← hfn, hP.matrix.named i f hi]
    exact hi
  · rw [← hfn, ← hgn, hj]
    exact hg'

theorem parsed_cases {nt : NumText K} {text : Text} {fm : FeatureMatrix K} (hp : parseAFM nt text = some fm) (h0 : fm.data ≠ []) :
    fm.allCases = some (List.range fm.caseLabels.length) := by
  obtain ⟨hR, -⟩ := c139_afm nt text fm hp
  unfold FeatureMatrix.allCases
  cases hd : fm.data with
  | nil => exact absurd hd h0
  | cons g gs =>
    rw [← hR.lengths g (by rw [hd]; exact List.mem_cons_self)]
    rfl

/-! ## C144 -/

/-- **C144, classes.** A forest grown for classes, written, read and applied to another text. Each tree answers a case of the
other text with a most frequent class among the cases of its bag that end in the same leaf, where features are found by name and
values compared as they are written; a case with the values of a training case in all features that may be split on is answered
like it. The class written for a case is one most trees say, or "NA" if none says anything.

Missing from the full property: other texts that lack a feature, `c144_absent`. -/
theorem c144_classes_partial [FloorRing K] {nt : NumText K} (hnt : ∀ x, nt.Faithful x) {ord : Splitter K → List String}
    (hord : ∀ s : Splitter K, (ord s).Perm s.left) {order : List Nat → List Nat} (horder : ∀ bag, (order bag).Perm bag)
    {text : Text} {fm : FeatureMatrix K} (hp : parseAFM nt text = some fm) {a : GrowArgs} (hc : fm.Clean a.target)
    {f : CatFeature} (hf : .cat f ∈ fm.data) (hn : f.name = a.target) (hids : a.target ∉ a.blacklist) {m l s : Int}
    (hm : inferMTry nt a.mTry (allowedFeatures fm a.blacklist a.target a.block a.incl).length = some m)
    (hmle : m ≤ (allowedFeatures fm a.blacklist a.target a.block a.incl).length)
    (hl : inferLeafSize nt a.leafSize false f.cm.nCats (nKnown f.missing) = some l)
    (hs : inferNSamples nt a.nSamples (nKnown f.missing) = some s) (hcores : 1 ≤ a.nCores)
    (hvet : ¬ (a.vet = true ∧ a.evaloob = true)) (draws : Nat) (log : XF K → XF K) (own global : Nat → Rng) (pick : Nat → Nat) {file : Text}
    (hfile : growCommand nt log ord a draws order text own global pick = some file) :
    ∃ voters : List (Tree K × List Nat), voters.length = max a.nCores a.nTrees ∧
      (∀ x ∈ voters, (∀ c ∈ x.2, f.missing[c]? = some false) ∧ x.2.length ≤ s ∧ (a.nobag = false → x.2.length = s ∧ x.2 ≠ [])) ∧
      ∀ (text2 : Text) (fm2 : FeatureMatrix K), parseAFM nt text2 = some fm2 → fm2.data ≠ [] →
        (∀ x ∈ voters, x.2 ≠ [] → ∀ c < fm2.caseLabels.length, AnswersIn fm fm2 f.Plurality x c) ∧
        ((fm2.data.map Feature.name).Nodup → ∀ x ∈ voters, ∀ d < fm.caseLabels.length, ∀ c,
          Alike (allowedFeatures fm a.blacklist a.target a.block a.incl) fm2 d c → x.1.named.opinion fm2 c = x.1.opinion fm d) ∧
        ∀ (tanh : XF K → XF K) (o : ApplyOptions), o.sum = false →
          (o.cat = true ∨ o.num = false ∧ a.target.toList.head? ≠ some 'N') →
          ∃ forest bb, applyCommand nt o file text2 = some (forest, bb) ∧ forest.target = a.target ∧
            ∀ c < fm2.caseLabels.length, (∃ res, bb.Predicts nt tanh o forest.intercept c res) ∧
              ∀ res, bb.Predicts nt tanh o forest.intercept c res → ∃ p, res = some p ∧
                ((p = "NA" ∧ ∀ q, votesIn fm2 voters c q = 0) ∨
                  (0 < votesIn fm2 voters c p ∧ ∀ q, votesIn fm2 voters c q ≤ votesIn fm2 voters c p)) := by
  obtain ⟨ti, b, hP⟩ := prepared hp hc hf hn hids
  have hl1 := inferLeafSize_pos hl
  obtain ⟨i, hi⟩ := hc.known _ hf hn
  have hs1 := inferNSamples_pos (nKnown_pos hi) hs
  have hcons : f.Consistent := (c139_afm nt text fm hp).1.consistent _ hf
  have hI := (c139_afm nt text fm hp).2
  have hlen : f.missing.length = fm.caseLabels.length := hP.length
  obtain ⟨how, hhow, hnob, hpl, L, good, hr, hok⟩ := class_ready (m := m.toNat) (l := l.toNat) (s := s.toNat) hp hc hf hn hP (by omega) (by omega)
    horder draws log
  have hcmd : growCommand nt log ord a draws order text own global pick =
      ((a.classRun log fm f how m.toNat l.toNat s.toNat draws order).runCores (a.classRun log fm f how m.toNat l.toNat s.toNat draws order).grower
        a.nCores (nKnown f.missing) f.cm.nCats (candidates fm ti b.marks) own global pick).bind fun out =>
      growforestFile nt ord a.progress a.target none (out.map (·.1)) := by
    simp only [growCommand, hp, hP.chosen, hP.count, hm, hP.target, hl, hs, hhow, Option.bind_eq_bind, Option.bind_some]
  have htidy := hc.tidy _ hf
  rw [hcmd] at hfile
  obtain ⟨out, forest, c1, hrec, c4, c5, c6, -, c7⟩ := (run_read hr hvet rfl hcores hok own global pick hnt
    (fun g hg => by have := hc.tidy g hg; cases g <;> exact this)
    (fun cs => by
      show Plain ((f.findPredicted cs).getD "").toList
      cases hfp : f.findPredicted cs with
      | none => exact plain_empty
      | some p =>
        unfold CatFeature.findPredicted at hfp
        obtain ⟨m, -, hb⟩ := Option.bind_eq_some_iff.1 hfp
        exact (htidy.2 p (List.mem_of_getElem? hb)).1) (by
      show Plain a.target.toList
      rw [← hn]
      exact htidy.1) ord hord a.progress).2 file hfile
  obtain ⟨c3, c8⟩ := recorded_read_other hr rfl hrec
  refine ⟨out.map voterOf, by rw [List.length_map]; exact c1, fun x hx => ?_, fun text2 fm2 hp2 h0 => ?_⟩
  · obtain ⟨-, -, -, -, d1, d2⟩ := c3 x hx
    have d1a : x.2.length ≤ s.toNat := d1.1
    refine ⟨d2, by omega, fun hnb => ?_⟩
    have : x.2.length = s.toNat := d1.2 (hnob.trans hnb)
    exact ⟨by omega, List.ne_nil_of_length_pos (by omega)⟩
  · obtain ⟨hR2, hI2⟩ := c139_afm nt text2 fm2 hp2
    obtain ⟨e1, e3⟩ := c8 fm2 hR2 hI2 h0
    have e2 := c7 fm2
    refine ⟨fun x hx hne c hcl => ?_, fun hnd x hx d hdl c ha => ?_, fun tanh o hsum hcat => ?_⟩
    · obtain ⟨g1, g2⟩ := e3 x hx c hcl
      obtain ⟨-, -, -, -, -, d2⟩ := c3 x hx
      unfold AnswersIn
      cases ho : x.1.named.opinion fm2 c with
      | none => exact g1 ho
      | some p =>
        obtain ⟨S, k1, k2, k3⟩ := g2 p ho
        obtain ⟨p', k4, k5⟩ := plurality_of hcons (S := S) (fun d hd => d2 d (List.mem_filter.1 (k1.mem_iff.1 hd)).1) (k3 hne)
        have : p = p' := by rw [k2]; show (f.findPredicted S).getD "" = p'; rw [k4]; rfl
        rw [this]
        exact Plurality.perm k1 k5
    · obtain ⟨-, d1, d2, d3, -⟩ := c3 x hx
      exact alike_opinion hP rfl (by show List.range f.missing.length = _; rw [hlen]) hI hI2 hnd d1 d2 d3 hdl ha
    · obtain ⟨bb, g1, g2⟩ := c97_classes nt tanh o (cleaned a.target out).named fm2 fm2.caseLabels.length (parsed_cases hp2 h0) e1 rfl
        hsum hcat
      refine ⟨forest, bb, ?_, c5, ?_⟩
      · have := e2 o
        simp only [applyCommand, hp2, c4, Option.bind_eq_bind, Option.bind_some]
        rw [show applyForest nt o forest fm2 = some bb from this.trans g1]
        rfl
      · rw [c6]
        intro c hcl
        obtain ⟨k1, k2⟩ := g2 c hcl
        refine ⟨k1, fun res hres => ?_⟩
        obtain ⟨p, hp', k3⟩ := k2 res hres
        have hw : ∀ q, weightOf fm2 (cleaned a.target out).named.trees c q = (votesIn fm2 (out.map voterOf) c q : K) := by
          intro q
          rw [named_voters]
          exact weightOf_in fm2 c q _ fun x hx => (c3 x hx).1
        refine ⟨p, hp', ?_⟩
        simp only [hw] at k3
        rcases k3 with ⟨k4, k5⟩ | ⟨k4, k5⟩
        · exact .inl ⟨k4, fun q => by have := k5 q; exact_mod_cast Nat.le_zero.1 (by exact_mod_cast this)⟩
        · exact .inr ⟨by exact_mod_cast k4, fun q => by exact_mod_cast k5 q⟩

/-- **C144, numbers.** The same for a numerical target: a tree answers with the mean of the values of the neighbours, what is
predicted is the mean of these answers. Trees with an empty bag, which `-nobag` may give, do not count. -/
theorem c144_numbers_partial [FloorRing K] {nt : NumText K} (hnt : ∀ x, nt.Faithful x) {ord : Splitter K → List String}
    (hord : ∀ s : Splitter K, (ord s).Perm s.left) {order : List Nat → List Nat} (horder : ∀ bag, (order bag).Perm bag)
    {text : Text} {fm : FeatureMatrix K} (hp : parseAFM nt text = some fm) {a : GrowArgs} (hc : fm.Clean a.target)
    {f : NumFeature K} (hf : .num f ∈ fm.data) (hn : f.name = a.target) (hids : a.target ∉ a.blacklist) (hbal : a.balance = false)
    {m l s : Int}
    (hm : inferMTry nt a.mTry (allowedFeatures fm a.blacklist a.target a.block a.incl).length = some m)
    (hmle : m ≤ (allowedFeatures fm a.blacklist a.target a.block a.incl).length)
    (hl : inferLeafSize nt a.leafSize false 0 (nKnown f.missing) = some l)
    (hs : inferNSamples nt a.nSamples (nKnown f.missing) = some s) (hcores : 1 ≤ a.nCores)
    (hvet : ¬ (a.vet = true ∧ a.evaloob = true)) (draws : Nat) (log : XF K → XF K) (own global : Nat → Rng) (pick : Nat → Nat) {file : Text}
    (hfile : growCommand nt log ord a draws order text own global pick = some file) :
    ∃ voters : List (Tree K × List Nat), voters.length = max a.nCores a.nTrees ∧
      (∀ x ∈ voters, (∀ c ∈ x.2, f.missing[c]? = some false) ∧ x.2.length ≤ s ∧ (a.nobag = false → x.2.length = s ∧ x.2 ≠ [])) ∧
      ∀ (text2 : Text) (fm2 : FeatureMatrix K), parseAFM nt text2 = some fm2 → fm2.data ≠ [] →
        (∀ x ∈ voters, x.2 ≠ [] → ∀ c < fm2.caseLabels.length,
          AnswersIn fm fm2 (fun S p => S ≠ [] ∧ p = String.ofList (nt.fmt (.fin (f.meanOf S)))) x c) ∧
        ((fm2.data.map Feature.name).Nodup → ∀ x ∈ voters, ∀ d < fm.caseLabels.length, ∀ c,
          Alike (allowedFeatures fm a.blacklist a.target a.block a.incl) fm2 d c → x.1.named.opinion fm2 c = x.1.opinion fm d) ∧
        ∀ (tanh : XF K → XF K) (o : ApplyOptions), o.sum = false → o.cat = false →
          ∃ forest bb, applyCommand nt o file text2 = some (forest, bb) ∧ forest.target = a.target ∧
            ∀ c < fm2.caseLabels.length, ∀ res, bb.Predicts nt tanh o forest.intercept c res ↔
              res = some (if meansIn fm fm2 f voters c = [] then "NA" else
                String.ofList (nt.fmt (.fin ((meansIn fm fm2 f voters c).sum / (meansIn fm fm2 f voters c).length)))) := by
  obtain ⟨ti, b, hP⟩ := prepared hp hc hf hn hids
  have hl1 := inferLeafSize_pos hl
  obtain ⟨i, hi⟩ := hc.known _ hf hn
  have hs1 := inferNSamples_pos (nKnown_pos hi) hs
  have hcons : f.Consistent := (c139_afm nt text fm hp).1.consistent _ hf
  have hI := (c139_afm nt text fm hp).2
  have hlen : f.missing.length = fm.caseLabels.length := hP.length
  obtain ⟨hfin, L, good, hr, hok⟩ := num_ready (m := m.toNat) (l := l.toNat) (s := s.toNat) hp hc hf hn hP (by omega) (by omega) horder draws
  have hcmd : growCommand nt log ord a draws order text own global pick =
      ((a.numRun nt fm f m.toNat l.toNat s.toNat draws order).runCores (a.numRun nt fm f m.toNat l.toNat s.toNat draws order).grower
        a.nCores (nKnown f.missing) 0 (candidates fm ti b.marks) own global pick).bind fun out =>
      growforestFile nt ord a.progress a.target none (out.map (·.1)) := by
    simp only [growCommand, hp, hP.chosen, hP.count, hm, hP.target, hl, hs, hbal, Option.bind_eq_bind, Option.bind_some]
    rfl
  have htidy := hc.tidy _ hf
  rw [hcmd] at hfile
  obtain ⟨out, forest, c1, hrec, c4, c5, c6, -, c7⟩ := (run_read hr hvet rfl hcores hok own global pick hnt
    (fun g hg => by have := hc.tidy g hg; cases g <;> exact this)
    (fun cs => by
      show Plain ((f.findPredicted nt cs).getD "").toList
      cases hfp : f.findPredicted nt cs with
      | none => exact plain_empty
      | some p =>
        unfold NumFeature.findPredicted at hfp
        obtain ⟨m, -, hb⟩ := Option.bind_eq_some_iff.1 hfp
        cases hb
        rw [Option.getD_some, String.toList_ofList]
        exact (hnt m).1) (by
      show Plain a.target.toList
      rw [← hn]
      exact htidy) ord hord a.progress).2 file hfile
  obtain ⟨c3, c8⟩ := recorded_read_other hr rfl hrec
  refine ⟨out.map voterOf, by rw [List.length_map]; exact c1, fun x hx => ?_, fun text2 fm2 hp2 h0 => ?_⟩
  · obtain ⟨-, -, -, -, d1, d2⟩ := c3 x hx
    have d1a : x.2.length ≤ s.toNat := d1.1
    refine ⟨d2, by omega, fun hnb => ?_⟩
    have : x.2.length = s.toNat := d1.2 (by
      show (if a.nobag then Bagging.nobag else .plain).isNobag = false
      rw [hnb]
      rfl)
    exact ⟨by omega, List.ne_nil_of_length_pos (by omega)⟩
  · obtain ⟨hR2, hI2⟩ := c139_afm nt text2 fm2 hp2
    obtain ⟨e1, e3⟩ := c8 fm2 hR2 hI2 h0
    have e2 := c7 fm2
    have hans : ∀ x ∈ out.map voterOf, x.2 ≠ [] → ∀ c < fm2.caseLabels.length,
        (x.1.named.opinion fm2 c = none → ∃ g ∈ fm2.data, g.isMissing c = some true) ∧
        ∀ p, x.1.named.opinion fm2 c = some p → neighboursIn fm fm2 x.1 x.2 c ≠ [] ∧
          p = String.ofList (nt.fmt (.fin (f.meanOf (neighboursIn fm fm2 x.1 x.2 c)))) := by
      intro x hx hne c hcl
      obtain ⟨-, -, -, -, -, d2⟩ := c3 x hx
      obtain ⟨g1, g2⟩ := e3 x hx c hcl
      refine ⟨g1, fun p ho => ?_⟩
      obtain ⟨S, k1, k2, k3⟩ := g2 p ho
      have hk : ∀ d ∈ S, f.missing[d]? = some false := fun d hd => d2 d (List.mem_filter.1 (k1.mem_iff.1 hd)).1
      have hkl : ∀ d ∈ S, d < f.missing.length := fun d hd => (List.getElem?_eq_some_iff.1 (hk d hd)).1
      have k1 : S.Perm (neighboursIn fm fm2 x.1 x.2 c) := k1
      refine ⟨fun h0 => k3 hne (by rw [h0] at k1; exact List.perm_nil.1 k1), ?_⟩
      have hme := mean_eq f S hkl hcons.lengths (by
        rw [knownOf_all hk]
        exact fun d hd => hfin d (List.mem_range.2 (hkl d hd))) (by rw [knownOf_all hk]; exact k3 hne)
      rw [knownOf_all hk] at hme
      rw [k2]
      show (f.findPredicted nt S).getD "" = _
      unfold NumFeature.findPredicted
      rw [hme, neighbours_mean_perm k1]
      rfl
    have hsays : ∀ x ∈ out.map voterOf, ∀ c < fm2.caseLabels.length, ∀ p, x.1.named.opinion fm2 c = some p →
        p = String.ofList (nt.fmt (if x.2 = [] then .nan else .fin (f.meanOf (neighboursIn fm fm2 x.1 x.2 c)))) := by
      intro x hx c hcl p ho
      by_cases hne : x.2 = []
      · obtain ⟨S, k1, k2, -⟩ := (e3 x hx c hcl).2 p ho
        unfold neighboursIn at k1
        rw [hne, List.filter_nil] at k1
        rw [if_pos hne, k2, List.perm_nil.1 k1]
        show (f.findPredicted nt []).getD "" = _
        have hm0 : f.mean [] = some .nan := by
          show some (XF.fin 0 / XF.ofNat 0) = _
          rw [show (XF.ofNat 0 : XF K) = .fin 0 by simp [XF.ofNat], XF.zero_div_zero]
        unfold NumFeature.findPredicted
        rw [hm0]
        rfl
      · rw [if_neg hne]
        exact ((hans x hx hne c hcl).2 p ho).2
    refine ⟨fun x hx hne c hcl => ?_, fun hnd x hx d hdl c ha => ?_, fun tanh o hsum hcat => ?_⟩
    · obtain ⟨g1, g2⟩ := hans x hx hne c hcl
      unfold AnswersIn
      cases ho : x.1.named.opinion fm2 c with
      | none => exact g1 ho
      | some p => exact g2 p ho
    · obtain ⟨-, d1, d2, d3, -⟩ := c3 x hx
      exact alike_opinion hP rfl (by show List.range f.missing.length = _; rw [hlen]) hI hI2 hnd d1 d2 d3 hdl ha
    · have hw : ∀ x ∈ out.map voterOf, x.1.weight = .fin (-1) := fun x hx => (c3 x hx).1
      have hN : a.target.toList.head? = some 'N' := by
        rw [← hn]
        exact parsed_num_name hp hf
      obtain ⟨bb, g1, g2⟩ := c97_mean_partial nt tanh o (cleaned a.target out).named fm2 fm2.caseLabels.length 0 (parsed_cases hp2 h0) e1
        rfl hsum hcat (.inr hN) (by
          rw [named_voters]
          intro t ht
          obtain ⟨x, hx, rfl⟩ := List.mem_map.1 ht
          rw [say_one (t := x.1.named) (hw x hx)]
          exact zero_lt_one) (by
          rw [named_voters]
          intro t ht c hcl p y ho hy
          obtain ⟨x, hx, rfl⟩ := List.mem_map.1 ht
          have := hsays x hx c hcl p ho
          rw [this, String.toList_ofList, (hnt _).2] at hy
          cases hy
          by_cases hne : x.2 = []
          · exact .inl (if_pos hne)
          · exact .inr ⟨_, if_neg hne⟩)
      refine ⟨forest, bb, ?_, c5, ?_⟩
      · have := e2 o
        simp only [applyCommand, hp2, c4, Option.bind_eq_bind, Option.bind_some]
        rw [show applyForest nt o forest fm2 = some bb from this.trans g1]
        rfl
      · rw [c6]
        intro c hcl res
        have := g2 c hcl res
        rw [named_voters, numbersOf_in hnt fm fm2 f c _ hw fun x hx p ho => hsays x hx c hcl p ho,
          means_average] at this
        simp only [if_pos, List.map_eq_nil_iff] at this
        exact this

/-! ## C145 -/

theorem mean_between {l : List K} (hne : l ≠ []) {lo hi : K} (h : ∀ y ∈ l, lo ≤ y ∧ y ≤ hi) :
    lo ≤ l.sum / l.length ∧ l.sum / l.length ≤ hi := by
  have hpos : (0 : K) < l.length := by exact_mod_cast List.length_pos_iff.2 hne
  rw [le_div_iff₀ hpos, div_le_iff₀ hpos]
  clear hne hpos
  induction l with
  | nil => simp
  | cons y l ih =>
    obtain ⟨h1, h2⟩ := h y List.mem_cons_self
    obtain ⟨h3, h4⟩ := ih fun z hz => h z (List.mem_cons_of_mem _ hz)
    rw [List.sum_cons, List.length_cons, Nat.cast_add, Nat.cast_one]
    constructor
    · linarith
    · linarith

/-- **C145.** A forest grown for a number, without boosting, does not extrapolate. If all known values of the target are between
`lo` and `hi`, each prediction for a case of whatever text is a number between them, or "NA". -/
theorem c145_range [FloorRing K] {nt : NumText K} (hnt : ∀ x, nt.Faithful x) {ord : Splitter K → List String}
    (hord : ∀ s : Splitter K, (ord s).Perm s.left) {order : List Nat → List Nat} (horder : ∀ bag, (order bag).Perm bag)
    {text : Text} {fm : FeatureMatrix K} (hp : parseAFM nt text = some fm) {a : GrowArgs} (hc : fm.Clean a.target)
    {f : NumFeature K} (hf : .num f ∈ fm.data) (hn : f.name = a.target) (hids : a.target ∉ a.blacklist) (hbal : a.balance = false)
    {m l s : Int}
    (hm : inferMTry nt a.mTry (allowedFeatures fm a.blacklist a.target a.block a.incl).length = some m)
    (hmle : m ≤ (allowedFeatures fm a.blacklist a.target a.block a.incl).length)
    (hl : inferLeafSize nt a.leafSize false 0 (nKnown f.missing) = some l)
    (hs : inferNSamples nt a.nSamples (nKnown f.missing) = some s) (hcores : 1 ≤ a.nCores)
    (hvet : ¬ (a.vet = true ∧ a.evaloob = true)) (draws : Nat) (log : XF K → XF K) (own global : Nat → Rng) (pick : Nat → Nat) {file : Text}
    (hfile : growCommand nt log ord a draws order text own global pick = some file) {lo hi : K}
    (hb : ∀ (i : Nat) y, f.missing[i]? = some false → f.numData[i]? = some (.fin y) → lo ≤ y ∧ y ≤ hi) (tanh : XF K → XF K)
    {o : ApplyOptions} (hsum : o.sum = false) (hcat : o.cat = false) {text2 : Text} {fm2 : FeatureMatrix K}
    (hp2 : parseAFM nt text2 = some fm2) (h0 : fm2.data ≠ []) :
    ∃ forest bb, applyCommand nt o file text2 = some (forest, bb) ∧ ∀ c < fm2.caseLabels.length, ∃ w,
      (∀ res, bb.Predicts nt tanh o forest.intercept c res ↔ res = some w) ∧
      (w = "NA" ∨ ∃ y, w = String.ofList (nt.fmt (.fin y)) ∧ lo ≤ y ∧ y ≤ hi) := by
  obtain ⟨voters, -, h1, h2⟩ := c144_numbers_partial hnt hord horder hp hc hf hn hids hbal hm hmle hl hs hcores hvet draws log own global pick hfile
  obtain ⟨h3, -, h4⟩ := h2 text2 fm2 hp2 h0
  obtain ⟨forest, bb, e1, -, e2⟩ := h4 tanh o hsum hcat
  refine ⟨forest, bb, e1, fun c hcl => ⟨_, e2 c hcl, ?_⟩⟩
  split_ifs with hms
  · exact .inl rfl
  · refine .inr ⟨_, rfl, mean_between hms fun y hy => ?_⟩
    obtain ⟨x, hx, rfl⟩ := List.mem_map.1 hy
    obtain ⟨hx, ho⟩ := List.mem_filter.1 hx
    simp only [Bool.and_eq_true, Bool.not_eq_true', List.isEmpty_eq_false_iff] at ho
    obtain ⟨hne, ho⟩ := ho
    obtain ⟨p, hop⟩ := Option.isSome_iff_exists.1 ho
    have := h3 x hx hne c hcl
    unfold AnswersIn at this
    rw [hop] at this
    have hnn := this.1
    unfold NumFeature.meanOf
    rw [← List.length_map (f := f.value) (as := neighboursIn fm fm2 x.1 x.2 c)]
    refine mean_between (by simpa using hnn) fun z hz => ?_
    obtain ⟨d, hd, rfl⟩ := List.mem_map.1 hz
    have hk := (h1 x hx).1 d (List.mem_filter.1 hd).1
    have hdl : d < f.numData.length := by
      rw [(c139_afm nt text fm hp).1.consistent _ hf |>.lengths]
      exact (List.getElem?_eq_some_iff.1 hk).1
    obtain ⟨y, hy⟩ := hc.finite f hf d _ hk (List.getElem?_eq_getElem hdl)
    have hy : f.numData[d]? = some (.fin y) := by rw [List.getElem?_eq_getElem hdl, hy]
    have hv : f.value d = y := by simp [NumFeature.value, hy]
    rw [hv]
    exact hb d y hk hy

/-! ## Examples -/

instance [DecidableEq K] (f : Feature K) (d : Nat) (g : Feature K) (c : Nat) : Decidable (SameValue f d g c) :=
  match f, g with
  | .num f, .num g => inferInstanceAs (Decidable (f.missing[d]? = g.missing[c]? ∧ (f.missing[d]? = some false → f.numData[d]? = g.numData[c]?)))
  | .cat f, .cat g => inferInstanceAs (Decidable (f.missing[d]? = g.missing[c]? ∧ (f.missing[d]? = some false → f.getStr d = g.getStr c)))
  | .num _, .cat _ => inferInstanceAs (Decidable False)
  | .cat _, .num _ => inferInstanceAs (Decidable False)

instance [DecidableEq K] (fs : List (Feature K)) (fm2 : FeatureMatrix K) (d c : Nat) : Decidable (Alike fs fm2 d c) :=
  inferInstanceAs (Decidable (∀ f ∈ fs, ∃ g ∈ fm2.data, g.name = f.name ∧ SameValue f d g c))

/-- Three further cases, features in another order and one that the trees do not know. The first is like case `a` of
`exAfmTable`, the second has a value `w` that does not occur there. -/
def exNewTable : Text := ".\tC:k\tN:z\tN:x\np\tu\t01\t01\nq\tw\t01\t0111\nr\tv\t01\tNA\n".toList

/-- The conditions of `c144_classes_partial` on the first text are those of `c140_classes_partial`; the other one is parsed, has
distinct names, and its first case is like case `a`, which is of class "yes". -/
example : ∃ fm fm2, parseAFM exStrokes exAfmTable = some fm ∧ parseAFM exStrokes exNewTable = some fm2 ∧ fm2.data ≠ [] ∧
    (fm2.data.map Feature.name).Nodup ∧ fm2.caseLabels.length = 3 ∧
    Alike (allowedFeatures fm exGrowArgs.blacklist exGrowArgs.target exGrowArgs.block exGrowArgs.incl) fm2 0 0 := by
  have h : (parseAFM exStrokes exAfmTable).any (fun fm => (parseAFM exStrokes exNewTable).any fun fm2 =>
      decide (fm2.data.length ≠ 0 ∧ (fm2.data.map Feature.name).Nodup ∧ fm2.caseLabels.length = 3 ∧
        Alike (allowedFeatures fm [] "C:y" none none) fm2 0 0)) = true := by
    decide +kernel
  obtain ⟨fm, h1, h2⟩ := (Option.any_eq_true _ _).1 h
  obtain ⟨fm2, h3, h4⟩ := (Option.any_eq_true _ _).1 h2
  obtain ⟨h5, h6, h7, h8⟩ := of_decide_eq_true h4
  exact ⟨fm, fm2, h1, h3, fun h => h5 (by rw [h]; rfl), h6, h7, h8⟩

example : ((growCommand exStrokes id (fun s => s.left) exGrowArgs 20 id exAfmTable (fun _ k => 5 * k + 1) (fun _ k => 3 * k + 1) id).bind fun file =>
      (applyCommand exStrokes ⟨false, false, false, false⟩ file exNewTable).map fun x => (List.range 3).map (firstTally exStrokes x)) =
      some [some "yes", some "no", some "no"] := by
  decide +kernel

/-- For the number as target the known values are between 1 and 3, and so are the predictions 2, 5/2 and 5/2. One of the trees
splits on the class, which the new table does not have. -/
example : (∃ fm f, parseAFM exStrokes exAfmTable = some fm ∧ .num f ∈ fm.data ∧ f.name = exGrowNums.target ∧
      ∀ (i : Nat) y, f.missing[i]? = some false → f.numData[i]? = some (.fin y) → 1 ≤ y ∧ y ≤ 3) ∧
    ((growCommand exStrokes id (fun s => s.left) exGrowNums 20 id exAfmTable (fun _ k => 5 * k + 1) (fun _ k => 3 * k + 1) id).bind fun file =>
      (applyCommand exStrokes ⟨false, false, false, false⟩ file exNewTable).map fun x => (List.range 3).map (firstTally exStrokes x)) =
      some [some "011", some "011111d", some "011111d"] := by
  refine ⟨?_, by decide +kernel⟩
  have h : (parseAFM exStrokes exAfmTable).any (fun fm => match fm.data with
      | [.num g, _, _] => decide (g.name = "N:x" ∧ g.missing = [false, false, false, false, true] ∧
          g.numData.take 4 = [.fin 1, .fin 2, .fin 3, .fin 2])
      | _ => false) = true := by
    decide +kernel
  obtain ⟨fm, h1, h2⟩ := (Option.any_eq_true _ _).1 h
  split at h2
  · rename_i g f1 f2 hd
    obtain ⟨h3, h4, h5⟩ := of_decide_eq_true h2
    refine ⟨fm, g, h1, by rw [hd]; simp, h3, fun i y hm hy => ?_⟩
    have hi : i < 4 := by
      by_contra hc
      rw [h4] at hm
      rcases Nat.lt_or_ge i 5 with h | h
      · obtain rfl : i = 4 := by omega
        simp at hm
      · rw [List.getElem?_eq_none (by simpa using h)] at hm
        cases hm
    have hy : (g.numData.take 4)[i]? = some (.fin y) := by rw [List.getElem?_take, if_pos hi]; exact hy
    rw [h5] at hy
    have : i = 0 ∨ i = 1 ∨ i = 2 ∨ i = 3 := by omega
    rcases this with rfl | rfl | rfl | rfl <;>
    · simp only [List.getElem?_cons_zero, List.getElem?_cons_succ, Option.some.injEq, XF.fin.injEq] at hy
      subst hy
      norm_num
  · cases h2

/-- A table of one feature and the class that goes with it. -/
def exOneFeature : Text := ".\tN:x\tC:y\na\t01\tyes\nb\t01\tyes\nc\t0111\tno\nd\t0111\tno\n".toList

/-- **C144 is false of the code** for tables without a feature of the forest. The value should count as missing; instead the
first column is taken for it. So the prediction for one case depends on the order of the columns, none of which the forest
knows. -/
theorem c144_absent :
    ∃ file, growCommand exStrokes id (fun s => s.left) exGrowArgs 20 id exOneFeature (fun _ k => 5 * k + 1) (fun _ k => 3 * k + 1) id = some file ∧
      (applyCommand exStrokes ⟨false, false, false, false⟩ file ".\tN:z\tN:w\np\t01\t0111\n".toList).map
        (fun x => (x.1.trees.map fun t => t.root.splitNames, firstTally exStrokes x 0)) = some ([["N:x"], ["N:x"]], some "yes") ∧
      (applyCommand exStrokes ⟨false, false, false, false⟩ file ".\tN:w\tN:z\np\t0111\t01\n".toList).map
        (firstTally exStrokes · 0) = some (some "no") := by
  have h : (growCommand exStrokes id (fun s => s.left) exGrowArgs 20 id exOneFeature (fun _ k => 5 * k + 1) (fun _ k => 3 * k + 1) id).any (fun file =>
      decide ((applyCommand exStrokes ⟨false, false, false, false⟩ file ".\tN:z\tN:w\np\t01\t0111\n".toList).map
        (fun x => (x.1.trees.map fun t => t.root.splitNames, firstTally exStrokes x 0)) = some ([["N:x"], ["N:x"]], some "yes") ∧
      (applyCommand exStrokes ⟨false, false, false, false⟩ file ".\tN:w\tN:z\np\t0111\t01\n".toList).map
        (firstTally exStrokes · 0) = some (some "no"))) = true := by
    decide +kernel
  obtain ⟨file, h1, h2⟩ := (Option.any_eq_true _ _).1 h
  exact ⟨file, h1, of_decide_eq_true h2⟩

end CloudForest
