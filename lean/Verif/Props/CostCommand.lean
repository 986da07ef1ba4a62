import Verif.Lemmas.CostCommand

/-!
# C166: costs and weights of classes, from a data file to predictions

growforest with `-cost`, `-rfweights` or `-NP` reads a text and writes a forest, applyforest reads both and predicts.
-/

set_option linter.unusedSectionVars false

namespace CloudForest
variable {K : Type} [Field K] [LinearOrder K] [IsStrictOrderedRing K]

/-! ## Proof -/

theorem weighed_ready [FloorRing K] {nt : NumText K} {text : Text} {fm : FeatureMatrix K} (hp : parseAFM nt text = some fm) {a : GrowArgs}
    (hc : fm.Clean a.target) {f : CatFeature} (hf : .cat f ∈ fm.data) (hn : f.name = a.target) {ti : Nat} {b : Blacklist}
    (hP : Prepared fm a (.cat f) ti b) {m l s : Nat} (hm : m ≤ (allowedFeatures fm a.blacklist a.target a.block a.incl).length)
    (hl : 1 ≤ l) {order : List Nat → List Nat} (horder : ∀ bag, (order bag).Perm bag) (draws : Nat) (log : XF K → XF K)
    (imp : Nat → List Int → XF K) (predict : List Nat → Option Nat) :
    ∃ how, a.bagging f = some how ∧ how.isNobag = a.nobag ∧ (how = .plain → a.nobag = false ∧ a.balance = false) ∧
    ∃ (L : TargetLaws (a.weighedRun log fm f how m l s draws order imp predict).T (a.weighedRun log fm f how m l s draws order imp predict).all)
      (good : CatFeature → Prop),
      (a.weighedRun log fm f how m l s draws order imp predict).Ok L good (candidates fm ti b.marks) ∧ L.Ok (newAllocs f.cm.nCats) := by
  obtain ⟨i, hi⟩ := hc.known _ hf hn
  have hi : f.missing[i]? = some false := hi
  have hcons : f.Consistent := (c139_afm nt text fm hp).1.consistent _ hf
  have hz := parsed_zeroFilled hp _ hf
  have hlen : f.missing.length = fm.caseLabels.length := hP.length
  have hil := (List.getElem?_eq_some_iff.1 hi).1
  have hin : f.InRange f.cm.nCats (List.range f.missing.length) := by
    intro c hcm
    have hcl : c < f.missing.length := List.mem_range.1 hcm
    have hd : f.catData[c]? = some (f.catData[c]'(by rw [hcons.lengths]; exact hcl)) := List.getElem?_eq_getElem _
    refine ⟨_, hd, ?_⟩
    cases hmc : f.missing[c]'hcl with
    | false => exact hcons.valid c _ (by rw [List.getElem?_eq_getElem hcl, hmc]) hd
    | true =>
      have h0 := hz.2 c (by rw [List.getElem?_eq_getElem hcl, hmc])
      rw [hd, Option.some.injEq] at h0
      rw [h0]
      have hdi : f.catData[i]? = some (f.catData[i]'(by rw [hcons.lengths]; exact hil)) := List.getElem?_eq_getElem _
      exact Nat.lt_of_le_of_lt (Nat.zero_le _) (hcons.valid i _ hi hdi)
  obtain ⟨how, hb1, hb2, hb3, hb4⟩ := bagging_ok hp hf hi hin hcons a
  have hC := catContrast_ok (K := K) f f.cm.nCats _ hin hcons.lengths.symm imp
  refine ⟨how, hb1, hb3, hb4, countLaws f imp f.cm.nCats _ hin,
    fun g => g.InRange f.cm.nCats (List.range f.missing.length) ∧ g.missing.length = g.catData.length ∧ g.catData.length = f.catData.length,
    ⟨?_, ?_, ?_, hb2, horder⟩, ?_⟩
  · show fm.allCases = some (List.range f.missing.length)
    rw [hlen]
    exact hP.cases
  · show MatrixOk fm (List.range f.missing.length)
    rw [hlen]
    exact hP.matrix
  · exact
    { feats := fun g hg => by
        show FeatOk g (List.range f.missing.length)
        rw [hlen]
        exact hP.feats g hg
      total3 := fun _ => countLaws_total3 _ _ _ _ hin
      contrast := fun _ => hC
      start := hC.start
      leafSize := hl
      exist := hP.exist
      mTry := by rw [hP.cans]; exact hm
      oobs := by simp }
  · refine ⟨?_, ?_, ?_⟩ <;> simp [newAllocs]

/-! ## C166 -/

/-- **C166.** growforest grows a forest from the text of a table with `-cost`, `-rfweights` or `-NP`, applyforest reads the file and predicts the
classes of the same table. Nothing on this way panics; growforest can only go on drawing. A tree answers with a class of the
target by which misclassification of the cases of its bag in the same leaf costs least, where a class that is not listed costs nothing, and
a case of the class that `-NP` constrains costs the inverse of the constraint; it refuses to answer only if a value is missing.
What is predicted is a class that most trees answer, or "NA" if none does: the costs have no part in the vote.

Missing from the full property: negative costs, a constrained class that is not in the data, and classes under a name beginning with N if
applyforest is not told, `c140_name`. -/
theorem c166_classes_partial [FloorRing K] {nt : NumText K} (hnt : ∀ x, nt.Faithful x) {ord : Splitter K → List String}
    (hord : ∀ s : Splitter K, (ord s).Perm s.left) {order : List Nat → List Nat} (horder : ∀ bag, (order bag).Perm bag)
    {text : Text} {fm : FeatureMatrix K} (hp : parseAFM nt text = some fm) {a : GrowArgs} (hc : fm.Clean a.target)
    {f : CatFeature} (hf : .cat f ∈ fm.data) (hn : f.name = a.target) (hids : a.target ∉ a.blacklist) {m l s : Int}
    (hm : inferMTry nt a.mTry (allowedFeatures fm a.blacklist a.target a.block a.incl).length = some m)
    (hmle : m ≤ (allowedFeatures fm a.blacklist a.target a.block a.incl).length)
    (hl : inferLeafSize nt a.leafSize false f.cm.nCats (nKnown f.missing) = some l)
    (hs : inferNSamples nt a.nSamples (nKnown f.missing) = some s) (hcores : 1 ≤ a.nCores)
    (hvet : ¬ (a.vet = true ∧ a.evaloob = true)) {w : Weighing K}
    {cost : String → K} (hw : w.Asks f cost) (draws : Nat) (log : XF K → XF K) (own global : Nat → Rng) (pick : Nat → Nat) :
    (growWeighedCommand nt log ord a w draws order text own global pick = none →
      (a.nobag = false ∧ a.balance = false) ∧ ∃ rng, bagLoop (f.missing[·]?) f.missing.length s.toNat draws [] rng = none) ∧
    ∀ file, growWeighedCommand nt log ord a w draws order text own global pick = some file →
      ∃ voters : List (Tree K × List Nat), voters.length = max a.nCores a.nTrees ∧
        (∀ x ∈ voters, (∀ c ∈ x.2, f.missing[c]? = some false) ∧ x.2.length ≤ s ∧ (a.nobag = false → x.2.length = s ∧ x.2 ≠ []) ∧
          (x.2 ≠ [] → ∀ c < fm.caseLabels.length, AnswersBy fm (f.Cheapest cost) x c)) ∧
        ∀ (tanh : XF K → XF K) (o : ApplyOptions), o.sum = false →
          (o.cat = true ∨ o.num = false ∧ a.target.toList.head? ≠ some 'N') →
          ∃ forest bb, applyCommand nt o file text = some (forest, bb) ∧ forest.target = a.target ∧
            ∀ c < fm.caseLabels.length, (∃ res, bb.Predicts nt tanh o forest.intercept c res) ∧
              ∀ res, bb.Predicts nt tanh o forest.intercept c res → ∃ p, res = some p ∧
                ((p = "NA" ∧ ∀ q, votesFor fm voters c q = 0) ∨
                  (0 < votesFor fm voters c p ∧ ∀ q, votesFor fm voters c q ≤ votesFor fm voters c p)) := by
  obtain ⟨ti, b, hP⟩ := prepared hp hc hf hn hids
  have hl1 := inferLeafSize_pos hl
  obtain ⟨i, hi⟩ := hc.known _ hf hn
  have hs1 := inferNSamples_pos (nKnown_pos hi) hs
  have hcons : f.Consistent := (c139_afm nt text fm hp).1.consistent _ hf
  have hlen : f.missing.length = fm.caseLabels.length := hP.length
  obtain ⟨imp, predict, hparts, hpred⟩ := weighed_predicts hcons hw
  obtain ⟨how, hhow, hnob, hpl, L, good, hr, hok⟩ := weighed_ready (m := m.toNat) (l := l.toNat) (s := s.toNat) hp hc hf hn hP (by omega) (by omega)
    horder draws log imp predict
  have hcmd : growWeighedCommand nt log ord a w draws order text own global pick =
      ((a.weighedRun log fm f how m.toNat l.toNat s.toNat draws order imp predict).runCores (a.weighedRun log fm f how m.toNat l.toNat s.toNat draws order imp predict).grower
        a.nCores (nKnown f.missing) f.cm.nCats (candidates fm ti b.marks) own global pick).bind fun out =>
      growforestFile nt ord a.progress a.target none (out.map (·.1)) := by
    simp only [growWeighedCommand, hp, hP.chosen, hP.count, hm, hP.target, hl, hs, hhow, hparts, Option.bind_eq_bind, Option.bind_some]
  have htidy := hc.tidy _ hf
  obtain ⟨h1, h2⟩ := run_read hr hvet rfl hcores hok own global pick hnt
    (fun g hg => by have := hc.tidy g hg; cases g <;> exact this)
    (fun cs => by
      show Plain (((predict cs).bind (f.cm.back[·]?)).getD "").toList
      cases hfp : (predict cs).bind (f.cm.back[·]?) with
      | none => exact plain_empty
      | some p =>
        obtain ⟨m, -, hb⟩ := Option.bind_eq_some_iff.1 hfp
        exact (htidy.2 p (List.mem_of_getElem? hb)).1) (by
      show Plain a.target.toList
      rw [← hn]
      exact htidy.1) ord hord a.progress
  rw [hcmd]
  refine ⟨fun h => ?_, fun file h => ?_⟩
  · obtain ⟨rng, hh, he⟩ := h1 h
    exact ⟨hpl hh, rng, he⟩
  · obtain ⟨out, forest, c1, hrec, c4, c5, c6, c7, -⟩ := h2 file h
    obtain ⟨c2, c3⟩ := recorded_voters hr rfl hrec
    refine ⟨out.map voterOf, by rw [List.length_map]; exact c1, ?_, ?_⟩
    · intro x hx
      obtain ⟨-, d1, d2, d3⟩ := c3 x hx
      have d1a : x.2.length ≤ s.toNat := d1.1
      refine ⟨d2, by omega, fun hnb => ?_, fun hne c hcl => ?_⟩
      · have : x.2.length = s.toNat := d1.2 (hnob.trans hnb)
        exact ⟨by omega, List.ne_nil_of_length_pos (by omega)⟩
      · obtain ⟨e1, e2⟩ := d3 c (List.mem_range.2 (by rw [← hlen] at hcl; exact hcl))
        unfold AnswersBy
        cases ho : x.1.opinion fm c with
        | none => exact e1 ho
        | some p =>
          obtain ⟨S, g1, g2, g3⟩ := e2 p ho
          obtain ⟨n, p', g4, g4', g5⟩ := hpred S (fun d hd => by
            have := g1.mem_iff.1 hd
            exact d2 d (List.mem_filter.1 this).1) (g3 hne)
          have : p = p' := by rw [g2]; show ((predict S).bind (f.cm.back[·]?)).getD "" = p'; rw [g4, Option.bind_some, g4']; rfl
          rw [this]
          exact Cheapest.perm g1 g5
    · intro tanh o hsum hcat
      obtain ⟨bb, e1, e2⟩ := c97_classes nt tanh o (cleaned a.target out) fm fm.caseLabels.length hP.cases c2 rfl hsum hcat
      refine ⟨forest, bb, ?_, c5, ?_⟩
      · have := c7 o
        simp only [applyCommand, hp, c4, Option.bind_eq_bind, Option.bind_some]
        rw [show applyForest nt o forest fm = some bb from this.trans e1]
        rfl
      · rw [c6]
        intro c hcl
        obtain ⟨g1, g2⟩ := e2 c hcl
        refine ⟨g1, fun res hres => ?_⟩
        obtain ⟨p, hp', g3⟩ := g2 res hres
        have hwt : ∀ q, weightOf fm (cleaned a.target out).trees c q = (votesFor fm (out.map voterOf) c q : K) := by
          intro q
          rw [cleaned_voters]
          exact weightOf_votes fm c q _ fun x hx => (c3 x hx).1
        refine ⟨p, hp', ?_⟩
        simp only [hwt] at g3
        rcases g3 with ⟨g4, g5⟩ | ⟨g4, g5⟩
        · exact .inl ⟨g4, fun q => by have := g5 q; exact_mod_cast Nat.le_zero.1 (by exact_mod_cast this)⟩
        · exact .inr ⟨by exact_mod_cast g4, fun q => by exact_mod_cast g5 q⟩

/-- To misclassify a case of class "no" costs 3, for one of class "yes" it costs 1. -/
def exNameCosts : String → Option ℚ := fun s => if s = "no" then some 3 else if s = "yes" then some 1 else none

/-- One tree that is a single leaf, on all cases. -/
def exStump : GrowArgs := { target := "C:y", nTrees := 1, leafSize := ['4'], nobag := true }

/-- What is predicted for the table with the options. -/
def exWeighed (a : GrowArgs) (w : Weighing ℚ) : Option (List (Option String)) :=
  (growWeighedCommand exStrokes id (fun s => s.left) a w 20 id exAfmTable (fun _ k => 5 * k + 1) (fun _ k => 3 * k + 1) id).bind fun file =>
    (applyCommand exStrokes ⟨false, false, false, false⟩ file exAfmTable).map fun x => (List.range 5).map (firstTally exStrokes x)

/-- The conditions of `c166_classes_partial` hold for the table with each of the options. A single leaf holds two cases of each class: by costs, by
weights and by the constraint it answers "no", where without them it answers "yes". Trees that separate the classes are right. -/
example : (∀ x, exStrokes.Faithful x) ∧ (∃ fm f m l s, parseAFM exStrokes exAfmTable = some fm ∧ fm.Clean exStump.target ∧ .cat f ∈ fm.data ∧
      f.name = exStump.target ∧ exStump.target ∉ exStump.blacklist ∧
      inferMTry exStrokes exStump.mTry (allowedFeatures fm exStump.blacklist exStump.target exStump.block exStump.incl).length =
        some m ∧ m ≤ (allowedFeatures fm exStump.blacklist exStump.target exStump.block exStump.incl).length ∧
      inferLeafSize exStrokes exStump.leafSize false f.cm.nCats (nKnown f.missing) = some l ∧
      inferNSamples exStrokes exStump.nSamples (nKnown f.missing) = some s ∧
      Weighing.Asks f (.cost fun s => (exNameCosts s).map .fin) (fun s => (exNameCosts s).getD 0) ∧
      Weighing.Asks f (.weights fun s => (exNameCosts s).map .fin) (fun s => (exNameCosts s).getD 0) ∧
      Weighing.Asks f (.np "no" (.fin (1 / 10)) (.fin 100)) (fun s => if s = "no" then 1 / (1 / 10 : ℚ) else 1)) ∧
    exWeighed exStump (.cost fun s => (exNameCosts s).map .fin) = some (List.replicate 5 (some "no")) ∧
    exWeighed exStump (.weights fun s => (exNameCosts s).map .fin) = some (List.replicate 5 (some "no")) ∧
    exWeighed exStump (.np "no" (.fin (1 / 10)) (.fin 100)) = some (List.replicate 5 (some "no")) ∧
    ((growCommand exStrokes id (fun s => s.left) exStump 20 id exAfmTable (fun _ k => 5 * k + 1) (fun _ k => 3 * k + 1) id).bind fun file =>
      (applyCommand exStrokes ⟨false, false, false, false⟩ file exAfmTable).map fun x => (List.range 5).map (firstTally exStrokes x)) =
        some (List.replicate 5 (some "yes")) ∧
    exWeighed exGrowArgs (.weights fun s => (exNameCosts s).map .fin) = some [some "yes", some "yes", some "no", some "no", some "yes"] := by
  refine ⟨exStrokes_faithful, ?_, by decide +kernel, by decide +kernel, by decide +kernel, by decide +kernel, by decide +kernel⟩
  have hcl : (parseAFM exStrokes exAfmTable).any (fun fm => fm.data.any fun g => match g with
      | .cat f => decide (f.name = "C:y" ∧ "no" ∈ f.cm.back)
      | .num _ => false) = true := by decide +kernel
  have hg : ∀ s x, exNameCosts s = some x → 0 ≤ x := by
    intro s x h
    unfold exNameCosts at h
    split at h
    · cases h; decide
    · split at h
      · cases h; decide
      · cases h
  obtain ⟨fm, f, g, h1, h2, -, h3, h4, h5, h6, -, -, -, h7, -⟩ := exAfmTable_ok
  have hno : "no" ∈ f.cm.back := by
    obtain ⟨fm', k1, k2⟩ := (Option.any_eq_true _ _).1 hcl
    rw [h1] at k1
    obtain rfl := Option.some.inj k1
    obtain ⟨g', k3, k4⟩ := List.any_eq_true.1 k2
    cases g' with
    | num _ => cases k4
    | cat f' =>
      obtain ⟨k5, k6⟩ := of_decide_eq_true k4
      have : (Feature.cat f' : Feature ℚ) = .cat f := List.inj_on_of_nodup_map h2.names k3 h3 (by show f'.name = f.name; rw [h4, k5])
      cases this
      exact k6
  refine ⟨fm, f, 2, 4, 4, h1, h2, h3, h4, by decide, ?_, ?_, ?_, ?_, .cost _ hg, .weights _ hg, .np "no" (1 / 10) _ hno (by norm_num)⟩
  · show inferMTry exStrokes ['0'] (allowedFeatures fm [] "C:y" none none).length = some 2
    rw [h7]
    decide +kernel
  · show (2 : Int) ≤ (allowedFeatures fm [] "C:y" none none).length
    rw [h7]
    decide
  · rw [h5, h6]
    decide +kernel
  · rw [h6]
    decide +kernel

end CloudForest
