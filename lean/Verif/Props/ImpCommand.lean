import Verif.Lemmas.ImpCommand
import Verif.Props.Ace
import Verif.Props.Commands

/-!
# C173: the importance file of a run

growforest reads a table, and writes a forest and, with `-importance`, a file with a line per feature.
-/

set_option linter.unusedSectionVars false

namespace CloudForest
variable {K : Type} [Field K] [LinearOrder K] [IsStrictOrderedRing K] {τ : Type}

/-! ## Proof -/

theorem Apart.ties {fm : FeatureMatrix K} (h : fm.Apart) {target : String} (hc : fm.Clean target) {n : Nat} (hl : ∀ f ∈ fm.data, f.Even) :
    ∀ f ∈ fm.data, f.NoNearTies (f.knowns (List.range n)) := by
  intro f hf
  cases f with
  | cat f => trivial
  | num f =>
    have hval : ∀ c ∈ (Feature.num f).knowns (List.range n), f.missing[c]? = some false ∧ f.numData[c]? = some (.fin (f.value c)) := by
      intro c hcm
      obtain ⟨-, hk⟩ := List.mem_filter.1 hcm
      have hk : f.missing[c]? = some false := by simpa [Feature.isMissing] using hk
      have hev : f.numData.length = f.missing.length := hl _ hf
      have hlt : c < f.numData.length := by rw [hev]; exact (List.getElem?_eq_some_iff.1 hk).1
      obtain ⟨y, hy⟩ := hc.finite f hf c _ hk (List.getElem?_eq_getElem hlt)
      refine ⟨hk, ?_⟩
      unfold NumFeature.value
      rw [List.getElem?_eq_getElem hlt, hy]
    intro c hcm d hdm hlt
    obtain ⟨c1, c2⟩ := hval c hcm
    obtain ⟨d1, d2⟩ := hval d hdm
    exact h f hf c d _ _ c1 d1 c2 d2 hlt

theorem recorded_grownOn {r : RunSetup K τ} {L : TargetLaws r.T r.all} {cans : List Nat} {x : Tree K × List Nat} (h : r.Recorded L cans x) :
    GrownOn r cans x := by
  obtain ⟨-, -, h1, h2, st, st', -, h4, -, h6⟩ := h
  exact ⟨h1, h2, st, st', h4, h6⟩

theorem class_measured {nt : NumText K} [FloorRing K] {text : Text} {fm : FeatureMatrix K} (hp : parseAFM nt text = some fm) {a : GrowArgs}
    (hc : fm.Clean a.target) {f : CatFeature} (hf : .cat f ∈ fm.data) (hn : f.name = a.target) {ti : Nat} {b : Blacklist}
    (hP : Prepared fm a (.cat f) ti b) {m l s : Nat} (hm : m ≤ (allowedFeatures fm a.blacklist a.target a.block a.incl).length)
    (hl : 1 ≤ l) {order : List Nat → List Nat} (horder : ∀ bag, (order bag).Perm bag) (draws : Nat) (log : XF K → XF K)
    (hent : a.entropy = false) (hvet : a.vet = false) (heval : a.evaloob = false) {how : Bagging} (hhow : a.bagging f = some how) :
    ∃ L : TargetLaws (a.classRun log fm f how m l s draws order).T (a.classRun log fm f how m l s draws order).all,
      (a.classRun log fm f how m l s draws order).Ok L (fun _ => True) (candidates fm ti b.marks) ∧ L.Ok (newAllocs f.cm.nCats) ∧
        L.Weighted (f.gini K f.cm.nCats) := by
  obtain ⟨i, hi⟩ := hc.known _ hf hn
  have hi : f.missing[i]? = some false := hi
  have hcons : f.Consistent := (c139_afm nt text fm hp).1.consistent _ hf
  have hlen : f.missing.length = fm.caseLabels.length := hP.length
  have hin := parsed_inRange hp hf hi
  obtain ⟨how', hb1, hb2, -, -⟩ := bagging_ok hp hf hi hin hcons a
  rw [hhow] at hb1
  cases hb1
  refine ⟨countLaws f (if a.entropy then entropyFromCounts log else giniFromCounts) f.cm.nCats _ hin, ⟨?_, ?_, ?_, hb2, horder⟩, ?_,
    countLaws_weighted (K := K) f (by simp [hent]) f.cm.nCats _ hin⟩
  · show fm.allCases = some (List.range f.missing.length)
    rw [hlen]
    exact hP.cases
  · show MatrixOk fm (List.range f.missing.length)
    rw [hlen]
    exact hP.matrix
  · exact
    { feats := fun g hg => by
        show FeatOk g (List.range f.missing.length)
        rw [hlen]
        exact hP.feats g hg
      total3 := fun _ => countLaws_total3 _ _ _ _ hin
      contrast := fun h => by rw [show (a.classRun log fm f how m l s draws order).o.vet = a.vet from rfl, hvet] at h; cases h
      start := trivial
      leafSize := hl
      exist := hP.exist
      mTry := by rw [hP.cans]; exact hm
      oobs := by simp }
  · refine ⟨?_, ?_, ?_⟩ <;> simp [newAllocs]

theorem num_measured {nt : NumText K} [FloorRing K] {text : Text} {fm : FeatureMatrix K} (hp : parseAFM nt text = some fm) {a : GrowArgs}
    (hc : fm.Clean a.target) {f : NumFeature K} (hf : .num f ∈ fm.data) (hn : f.name = a.target) {ti : Nat} {b : Blacklist}
    (hP : Prepared fm a (.num f) ti b) {m l s : Nat} (hm : m ≤ (allowedFeatures fm a.blacklist a.target a.block a.incl).length)
    (hl : 1 ≤ l) {order : List Nat → List Nat} (horder : ∀ bag, (order bag).Perm bag) (draws : Nat)
    (hl1 : a.l1 = false) (hvet : a.vet = false) (heval : a.evaloob = false) :
    ∃ L : TargetLaws (a.numRun nt fm f m l s draws order).T (a.numRun nt fm f m l s draws order).all,
      (a.numRun nt fm f m l s draws order).Ok L (fun _ => True) (candidates fm ti b.marks) ∧ L.Ok (newAllocs 0) ∧ L.Weighted f.sse := by
  obtain ⟨hfin, L0, good0, hr0, -⟩ := num_ready (s := s) hp hc hf hn hP hm hl horder draws
  obtain ⟨i, hi⟩ := hc.known _ hf hn
  have hi : f.missing[i]? = some false := hi
  have hlen : f.missing.length = fm.caseLabels.length := hP.length
  obtain ⟨L, hw, hLok⟩ := numTarget_weighted f _ hfin a.l1 hl1
  refine ⟨L, ⟨hr0.cases, hr0.matrix, ?_, hr0.fit, horder⟩, hLok _, hw⟩
  exact
    { feats := hr0.setting.feats
      total3 := fun h => by rw [show (a.numRun nt fm f m l s draws order).o.evaloob = a.evaloob from rfl, heval] at h; cases h
      contrast := fun h => by rw [show (a.numRun nt fm f m l s draws order).o.vet = a.vet from rfl, hvet] at h; cases h
      start := trivial
      leafSize := hl
      exist := hP.exist
      mTry := by rw [hP.cans]; exact hm
      oobs := by simp }

theorem importance_of_run {r : RunSetup K τ} {L : TargetLaws r.T r.all} {good : τ → Prop} {cans : List Nat} (hr : r.Ok L good cans)
    {imp : List Nat → K} (hw : L.Weighted imp) (ho : r.o.evaloob = false) (hv : r.o.vet = false)
    (hties : ∀ f ∈ r.fm.data, f.NoNearTies (f.knowns r.all)) (hn : 1 ≤ r.nTrees) {nCats : Nat} (hok : L.Ok (newAllocs nCats))
    (own global : Rng) (write : List (Tree K) → Option Text) :
    let cmd := (r.notedRun (nKnown r.missing) nCats cans own global).bind fun res => (write (res.1.map (·.1))).bind fun file =>
      (importanceFile r.fm r.nTrees res.2).bind fun lines => some (file, lines)
    cmd.map (·.1) = (r.run r.grower (nKnown r.missing) nCats cans own global).bind (fun out => write (out.map (·.1))) ∧
    ∀ file lines, cmd = some (file, lines) → ∃ forest : List (Tree K × List Nat), write (forest.map (·.1)) = some file ∧ forest.length = r.nTrees ∧
      (∀ x ∈ forest, GrownOn r cans x) ∧ lines.map (·.1) = r.fm.data.map Feature.name ∧
      ∀ (i : Nat) (ln : String × ImpLine K), lines[i]? = some ln → ImportanceOf r.fm imp forest i ln.2 := by
  intro cmd
  have hfree : r.run r.grower (nKnown r.missing) nCats cans own global = r.run r.freeGrower (nKnown r.missing) nCats cans own global := by
    have := (runCores_ok hr (nCores := 1) hok (fun _ => own) (fun _ => global) (fun _ => 0)).2.2 (by simp [ho])
    rw [runCores_one, runCores_one] at this
    rw [nKnown_eq]
    exact this
  have hforget := (notedRun_forget r (nKnown r.missing) nCats cans own global).1
  rw [hfree, ← hforget]
  cases hrun : r.notedRun (nKnown r.missing) nCats cans own global with
  | none =>
    refine ⟨by simp only [cmd, hrun]; rfl, fun file lines h => ?_⟩
    simp only [cmd, hrun] at h
    cases h
  | some res =>
    obtain ⟨out, sc⟩ := res
    obtain ⟨k1, k2, lines, k3, k4, k5⟩ := notedRun_lines hr hw ho hv hties hn hok hrun
    have hcmd : cmd = (write (out.map (·.1))).bind fun file => some (file, lines) := by
      simp only [cmd, hrun, Option.bind_some, k3]
    rw [hcmd]
    cases hwr : write (out.map (·.1)) with
    | none => exact ⟨by simp [hwr], fun file lines h => by cases h⟩
    | some file =>
      refine ⟨by simp [hwr], fun file' lines' h => ?_⟩
      cases h
      exact ⟨out, hwr, k1, fun x hx => recorded_grownOn (k2 x hx), k4, k5⟩

/-! ## C173 -/

/-- **C173, classes.** growforest with `-importance` on a clean table with classes as target and one worker. The forest written is the one that is written
without `-importance`, and there is an importance file whenever there is a forest. Its lines are those of the features of the table, in their order. The trees written
were grown from bags of cases with known class, `nSamples` or, without bagging, at most as many, and the line of a feature says what `ImportanceOf` demands for
these trees and bags and the decrease of Gini impurity.

Missing from the full property: splits at the root are not counted among the trees and depths (`c173_root`); near ties of numbers, entropy, `-vet`,
`-evaloob` and several workers. -/
theorem c173_classes_partial [FloorRing K] {nt : NumText K} {ord : Splitter K → List String} {order : List Nat → List Nat}
    (horder : ∀ bag, (order bag).Perm bag) {text : Text} {fm : FeatureMatrix K} (hp : parseAFM nt text = some fm) {a : GrowArgs}
    (hc : fm.Clean a.target) (hap : fm.Apart) {f : CatFeature} (hf : .cat f ∈ fm.data) (hn : f.name = a.target) (hids : a.target ∉ a.blacklist)
    {m l s : Int} (hm : inferMTry nt a.mTry (allowedFeatures fm a.blacklist a.target a.block a.incl).length = some m)
    (hmle : m ≤ (allowedFeatures fm a.blacklist a.target a.block a.incl).length)
    (hl : inferLeafSize nt a.leafSize false f.cm.nCats (nKnown f.missing) = some l) (hs : inferNSamples nt a.nSamples (nKnown f.missing) = some s)
    (hcores : a.nCores = 1) (hent : a.entropy = false) (hvet : a.vet = false) (heval : a.evaloob = false) (htrees : 1 ≤ a.nTrees) (draws : Nat)
    (log : XF K → XF K) (own global : Nat → Rng) (pick : Nat → Nat) :
    (importanceCommand nt log ord a draws order text (own 0) (global 0)).map (·.1) = growCommand nt log ord a draws order text own global pick ∧
    ∀ file lines, importanceCommand nt log ord a draws order text (own 0) (global 0) = some (file, lines) →
      ∃ (how : Bagging) (cans : List Nat) (forest : List (Tree K × List Nat)), a.bagging f = some how ∧
        (∀ i, i ∈ cans ↔ ∃ g, fm.data[i]? = some g ∧ Allowed a.blacklist a.target a.block a.incl g.name) ∧
        growforestFile nt ord a.progress a.target none (forest.map (·.1)) = some file ∧ forest.length = a.nTrees ∧
        (∀ x ∈ forest, GrownOn (a.classRun log fm f how m.toNat l.toNat s.toNat draws order) cans x) ∧
        lines.map (·.1) = fm.data.map Feature.name ∧
        ∀ (i : Nat) (ln : String × ImpLine K), lines[i]? = some ln → ImportanceOf fm (f.gini K f.cm.nCats) forest i ln.2 := by
  obtain ⟨ti, b, hP⟩ := prepared hp hc hf hn hids
  obtain ⟨hR, hI⟩ := c139_afm nt text fm hp
  have hM := c139_sound nt text fm hp hc.names
  obtain ⟨ti', b', e, hcan, -⟩ := c93_candidates_partial fm hI hM.named a.blacklist a.target a.block a.incl ⟨_, hf, hn⟩
  rw [hP.chosen] at e
  cases e
  have hl1 := inferLeafSize_pos hl
  obtain ⟨how, hhow, -⟩ := class_ready (m := m.toNat) (l := l.toNat) (s := s.toNat) hp hc hf hn hP (by omega) (by omega) horder draws log
  obtain ⟨L, hr, hok, hw⟩ := class_measured (m := m.toNat) (l := l.toNat) (s := s.toNat) hp hc hf hn hP (by omega) (by omega) horder draws log
    hent hvet heval hhow
  obtain ⟨h1, h2⟩ := importance_of_run hr hw heval hvet (Apart.ties hap hc fun g hg => (hR.consistent g hg).even) htrees hok (own 0) (global 0)
    (growforestFile nt ord a.progress a.target none)
  have hcmd : importanceCommand nt log ord a draws order text (own 0) (global 0) =
      ((a.classRun log fm f how m.toNat l.toNat s.toNat draws order).notedRun (nKnown f.missing) f.cm.nCats (candidates fm ti b.marks)
        (own 0) (global 0)).bind fun res => (growforestFile nt ord a.progress a.target none (res.1.map (·.1))).bind fun file =>
          (importanceFile fm a.nTrees res.2).bind fun lines => some (file, lines) := by
    simp only [importanceCommand, hp, hP.chosen, hP.count, hm, hP.target, hl, hs, hhow, Option.bind_eq_bind, Option.bind_some]
  have hgrow : growCommand nt log ord a draws order text own global pick =
      ((a.classRun log fm f how m.toNat l.toNat s.toNat draws order).run (a.classRun log fm f how m.toNat l.toNat s.toNat draws order).grower
        (nKnown f.missing) f.cm.nCats (candidates fm ti b.marks) (own 0) (global 0)).bind fun out =>
      growforestFile nt ord a.progress a.target none (out.map (·.1)) := by
    simp only [growCommand, hp, hP.chosen, hP.count, hm, hP.target, hl, hs, hhow, Option.bind_eq_bind, Option.bind_some, hcores, runCores_one]
  rw [hcmd, hgrow]
  refine ⟨h1, fun file lines h => ?_⟩
  obtain ⟨forest, q1, q2, q3, q4, q5⟩ := h2 file lines h
  exact ⟨how, _, forest, hhow, hcan, q1, q2, q3, q4, q5⟩

/-- **C173, numbers.** The same for a numerical target; the impurity is the mean squared error.

Missing from the full property: as above, and `-l1` instead of entropy. -/
theorem c173_numbers_partial [FloorRing K] {nt : NumText K} {ord : Splitter K → List String} {order : List Nat → List Nat}
    (horder : ∀ bag, (order bag).Perm bag) {text : Text} {fm : FeatureMatrix K} (hp : parseAFM nt text = some fm) {a : GrowArgs}
    (hc : fm.Clean a.target) (hap : fm.Apart) {f : NumFeature K} (hf : .num f ∈ fm.data) (hn : f.name = a.target) (hids : a.target ∉ a.blacklist)
    {m l s : Int} (hm : inferMTry nt a.mTry (allowedFeatures fm a.blacklist a.target a.block a.incl).length = some m)
    (hmle : m ≤ (allowedFeatures fm a.blacklist a.target a.block a.incl).length)
    (hl : inferLeafSize nt a.leafSize false 0 (nKnown f.missing) = some l) (hs : inferNSamples nt a.nSamples (nKnown f.missing) = some s)
    (hcores : a.nCores = 1) (hbal : a.balance = false) (hl1 : a.l1 = false) (hvet : a.vet = false) (heval : a.evaloob = false) (htrees : 1 ≤ a.nTrees) (draws : Nat)
    (log : XF K → XF K) (own global : Nat → Rng) (pick : Nat → Nat) :
    (importanceCommand nt log ord a draws order text (own 0) (global 0)).map (·.1) = growCommand nt log ord a draws order text own global pick ∧
    ∀ file lines, importanceCommand nt log ord a draws order text (own 0) (global 0) = some (file, lines) →
      ∃ (cans : List Nat) (forest : List (Tree K × List Nat)),
        (∀ i, i ∈ cans ↔ ∃ g, fm.data[i]? = some g ∧ Allowed a.blacklist a.target a.block a.incl g.name) ∧
        growforestFile nt ord a.progress a.target none (forest.map (·.1)) = some file ∧ forest.length = a.nTrees ∧
        (∀ x ∈ forest, GrownOn (a.numRun nt fm f m.toNat l.toNat s.toNat draws order) cans x) ∧
        lines.map (·.1) = fm.data.map Feature.name ∧
        ∀ (i : Nat) (ln : String × ImpLine K), lines[i]? = some ln → ImportanceOf fm f.sse forest i ln.2 := by
  obtain ⟨ti, b, hP⟩ := prepared hp hc hf hn hids
  obtain ⟨hR, hI⟩ := c139_afm nt text fm hp
  have hM := c139_sound nt text fm hp hc.names
  obtain ⟨ti', b', e, hcan, -⟩ := c93_candidates_partial fm hI hM.named a.blacklist a.target a.block a.incl ⟨_, hf, hn⟩
  rw [hP.chosen] at e
  cases e
  have hlpos := inferLeafSize_pos hl
  obtain ⟨L, hr, hok, hw⟩ := num_measured (m := m.toNat) (l := l.toNat) (s := s.toNat) hp hc hf hn hP (by omega) (by omega) horder draws
    hl1 hvet heval
  obtain ⟨h1, h2⟩ := importance_of_run hr hw heval hvet (Apart.ties hap hc fun g hg => (hR.consistent g hg).even) htrees hok (own 0) (global 0)
    (growforestFile nt ord a.progress a.target none)
  have hcmd : importanceCommand nt log ord a draws order text (own 0) (global 0) =
      ((a.numRun nt fm f m.toNat l.toNat s.toNat draws order).notedRun (nKnown f.missing) 0 (candidates fm ti b.marks)
        (own 0) (global 0)).bind fun res => (growforestFile nt ord a.progress a.target none (res.1.map (·.1))).bind fun file =>
          (importanceFile fm a.nTrees res.2).bind fun lines => some (file, lines) := by
    simp only [importanceCommand, hp, hP.chosen, hP.count, hm, hP.target, hl, hs, hbal, Option.bind_eq_bind, Option.bind_some, Bool.false_eq_true, if_false]
  have hgrow : growCommand nt log ord a draws order text own global pick =
      ((a.numRun nt fm f m.toNat l.toNat s.toNat draws order).run (a.numRun nt fm f m.toNat l.toNat s.toNat draws order).grower
        (nKnown f.missing) 0 (candidates fm ti b.marks) (own 0) (global 0)).bind fun out =>
      growforestFile nt ord a.progress a.target none (out.map (·.1)) := by
    simp only [growCommand, hp, hP.chosen, hP.count, hm, hP.target, hl, hs, hbal, Option.bind_eq_bind, Option.bind_some, hcores, runCores_one,
      Bool.false_eq_true, if_false]
  rw [hcmd, hgrow]
  refine ⟨h1, fun file lines h => ?_⟩
  obtain ⟨forest, q1, q2, q3, q4, q5⟩ := h2 file lines h
  exact ⟨_, forest, hcan, q1, q2, q3, q4, q5⟩

/-- **C173, the text.** The text of the importance file can be read back: cut at line ends and tabs it gives the names and the numbers, if no
name has a tab or line end and the text of each number that occurs has neither and can be parsed back. -/
theorem c173_text {nt : NumText K} (lines : List (String × ImpLine K)) (hl : ∀ ln ∈ lines, '\t' ∉ ln.1.toList ∧ '\n' ∉ ln.1.toList)
    (hnt : ∀ ln ∈ lines, ∀ x ∈ [ln.2.perUse, ln.2.uses, ln.2.perTree, ln.2.perTreeUsed, ln.2.treesUsed, ln.2.meanMinDepth],
      '\t' ∉ nt.fmt x ∧ '\n' ∉ nt.fmt x ∧ nt.parse (nt.fmt x) = some x) :
    ∃ rows : List Text, splitC '\n' (importanceText nt lines) = rows ++ [[]] ∧
      List.Forall₂ (fun row (ln : String × ImpLine K) => ∃ name x1 x2 x3 x4 x5 x6 : Text, splitC '\t' row = [name, x1, x2, x3, x4, x5, x6] ∧
        String.ofList name = ln.1 ∧ nt.parse x1 = some ln.2.perUse ∧ nt.parse x2 = some ln.2.uses ∧ nt.parse x3 = some ln.2.perTree ∧
        nt.parse x4 = some ln.2.perTreeUsed ∧ nt.parse x5 = some ln.2.treesUsed ∧ nt.parse x6 = some ln.2.meanMinDepth) rows lines := by
  have hjoin : ∀ ps : List Text, (∀ p ∈ ps, '\n' ∉ p) → '\n' ∉ joinC '\t' ps := by
    intro ps
    induction ps with
    | nil => simp [joinC]
    | cons p ps ih =>
      intro h
      cases ps with
      | nil => exact h p (by simp)
      | cons q ps =>
        rw [joinC]
        simp only [List.mem_append, List.mem_cons, not_or]
        exact ⟨h p (by simp), by decide, ih fun x hx => h x (by simp [hx])⟩
  refine ⟨lines.map fun ln => joinC '\t' [ln.1.toList, nt.fmt ln.2.perUse, nt.fmt ln.2.uses, nt.fmt ln.2.perTree, nt.fmt ln.2.perTreeUsed,
    nt.fmt ln.2.treesUsed, nt.fmt ln.2.meanMinDepth], ?_, ?_⟩
  · rw [← splitC_lines]
    · unfold importanceText
      rw [List.map_map]
      rfl
    · intro l h
      obtain ⟨ln, h1, rfl⟩ := List.mem_map.1 h
      refine hjoin _ fun p hp => ?_
      simp only [List.mem_cons, List.not_mem_nil, or_false] at hp
      rcases hp with rfl | rfl | rfl | rfl | rfl | rfl | rfl
      · exact (hl ln h1).2
      all_goals exact (hnt ln h1 _ (by simp)).2.1
  · rw [List.forall₂_map_left_iff, List.forall₂_same]
    intro ln h1
    have back := fun x hx => (hnt ln h1 x hx).2.2
    refine ⟨_, _, _, _, _, _, _, splitC_join (by simp) fun p hp => ?_, by simp,
      back _ (by simp), back _ (by simp), back _ (by simp), back _ (by simp), back _ (by simp), back _ (by simp)⟩
    simp only [List.mem_cons, List.not_mem_nil, or_false] at hp
    rcases hp with rfl | rfl | rfl | rfl | rfl | rfl | rfl
    · exact (hl ln h1).1
    all_goals exact (hnt ln h1 _ (by simp)).1

/-! ## Examples -/

/-- A table that lacks some values. -/
def exImpTable : Text :=
  ".\tN:x\tC:k\tC:y\na\t01\tu\tyes\nb\t011\tv\tyes\nc\t0111\tNA\tno\nd\tNA\tu\tno\n".toList

/-- growforest with `-importance`. -/
def exImp (table : Text) (a : GrowArgs) : Option (Text × List (String × ImpLine ℚ)) :=
  importanceCommand exStrokes id (fun s => s.left) a 20 id table (fun j => 5 * j) (fun j => 3 * j + 1)

/-- Tests whether the known numbers of a table are apart. -/
def apartCheck (fm : FeatureMatrix K) : Bool :=
  fm.data.all fun f => match f with
    | .cat _ => true
    | .num f => f.numData.all fun x => f.numData.all fun y => match x, y with
      | .fin x, .fin y => decide (x < y → x + 1 / 10000000 < y)
      | _, _ => true

theorem apartCheck_ok {fm : FeatureMatrix K} (h : apartCheck fm = true) : fm.Apart := by
  unfold apartCheck at h
  simp only [List.all_eq_true] at h
  intro f hf i j x y _ _ hx hy
  have := h _ hf
  simp only [List.all_eq_true] at this
  exact of_decide_eq_true (this _ (List.mem_of_getElem? hx) _ (List.mem_of_getElem? hy))

/-- The conditions of `c173_classes_partial` hold, and the number has been used twice, to decrease the impurity by a quarter each time. -/
example : ∃ (fm : FeatureMatrix ℚ) (f : CatFeature), parseAFM exStrokes exImpTable = some fm ∧ fm.Clean "C:y" ∧ fm.Apart ∧ .cat f ∈ fm.data ∧
    f.name = "C:y" ∧ inferMTry exStrokes ['0'] (allowedFeatures fm [] "C:y" none none).length = some 2 ∧
    (allowedFeatures fm [] "C:y" none none).length = 2 ∧
    inferLeafSize exStrokes ['0'] false f.cm.nCats (nKnown f.missing) = some 1 ∧ inferNSamples exStrokes ['0'] (nKnown f.missing) = some 4 ∧
    ((exImp exImpTable { target := "C:y", nTrees := 2 }).map fun r => r.2.map fun ln => (ln.1, ln.2.uses, ln.2.perUse)) =
      some [("N:x", .fin 2, .fin (1 / 4)), ("C:k", .fin 0, .fin 0), ("C:y", .fin 0, .fin 0)] := by
  obtain ⟨fm, hfm⟩ : ∃ fm, parseAFM exStrokes exImpTable = some fm := Option.isSome_iff_exists.1 (by decide +kernel)
  have hcheck : ((parseAFM exStrokes exImpTable).any fun fm => cleanCheck fm "C:y" && apartCheck fm &&
      decide ((allowedFeatures fm [] "C:y" none none).length = 2) && fm.data.any fun f => (match f with
        | .cat f => decide (inferLeafSize exStrokes ['0'] false f.cm.nCats (nKnown f.missing) = some 1) &&
          decide (inferNSamples exStrokes ['0'] (nKnown f.missing) = some 4)
        | .num _ => false) && f.name == "C:y") = true := by
    decide +kernel
  rw [hfm, Option.any_some] at hcheck
  simp only [Bool.and_eq_true, decide_eq_true_eq, List.any_eq_true, beq_iff_eq] at hcheck
  obtain ⟨⟨⟨h1, h2⟩, h3⟩, F, h4, h5, h6⟩ := hcheck
  cases F with
  | num f => cases h5
  | cat f =>
    simp only [Bool.and_eq_true, decide_eq_true_eq] at h5
    exact ⟨fm, f, hfm, cleanCheck_ok h1, apartCheck_ok h2, h4, h6, by rw [h3]; decide +kernel, h3, h5.1, h5.2, by decide +kernel⟩

/-- The conditions of `c173_numbers_partial` hold; the category has been used four times, below the root in both trees. -/
example : ∃ (fm : FeatureMatrix ℚ) (f : NumFeature ℚ), parseAFM exStrokes exAceTable = some fm ∧ fm.Clean "N:x" ∧ fm.Apart ∧ .num f ∈ fm.data ∧
    f.name = "N:x" ∧ inferMTry exStrokes ['0'] (allowedFeatures fm [] "N:x" none none).length = some 2 ∧
    (allowedFeatures fm [] "N:x" none none).length = 2 ∧
    inferLeafSize exStrokes ['0', '1'] false 0 (nKnown f.missing) = some 1 ∧ inferNSamples exStrokes ['0'] (nKnown f.missing) = some 4 ∧
    ((exImp exAceTable { target := "N:x", nTrees := 2, leafSize := ['0', '1'] }).map fun r => r.2.map fun ln =>
      (ln.2.uses, ln.2.treesUsed, ln.2.meanMinDepth)) =
      some [(.fin 0, .fin 0, .fin 0), (.fin 4, .fin 2, .fin 1), (.fin 2, .fin 0, .fin 0)] := by
  obtain ⟨fm, hfm⟩ : ∃ fm, parseAFM exStrokes exAceTable = some fm := Option.isSome_iff_exists.1 (by decide +kernel)
  have hcheck : ((parseAFM exStrokes exAceTable).any fun fm => cleanCheck fm "N:x" && apartCheck fm &&
      decide ((allowedFeatures fm [] "N:x" none none).length = 2) && fm.data.any fun f => (match f with
        | .num f => decide (inferLeafSize exStrokes ['0', '1'] false 0 (nKnown f.missing) = some 1) &&
          decide (inferNSamples exStrokes ['0'] (nKnown f.missing) = some 4)
        | .cat _ => false) && f.name == "N:x") = true := by
    decide +kernel
  rw [hfm, Option.any_some] at hcheck
  simp only [Bool.and_eq_true, decide_eq_true_eq, List.any_eq_true, beq_iff_eq] at hcheck
  obtain ⟨⟨⟨h1, h2⟩, h3⟩, F, h4, h5, h6⟩ := hcheck
  cases F with
  | cat f => cases h5
  | num f =>
    simp only [Bool.and_eq_true, decide_eq_true_eq] at h5
    exact ⟨fm, f, hfm, cleanCheck_ok h1, apartCheck_ok h2, h4, h6, by rw [h3]; decide +kernel, h3, h5.1, h5.2, by decide +kernel⟩

/-- The conditions of `c173_text` hold of what growforest computes here, and this is the text. -/
example : ((exImp exImpTable { target := "C:y", nTrees := 2 }).any fun r =>
    (r.2.all fun ln => !ln.1.toList.contains '\t' && !ln.1.toList.contains '\n' &&
      [ln.2.perUse, ln.2.uses, ln.2.perTree, ln.2.perTreeUsed, ln.2.treesUsed, ln.2.meanMinDepth].all fun x =>
        !(exStrokes.fmt x).contains '\t' && !(exStrokes.fmt x).contains '\n' && decide (exStrokes.parse (exStrokes.fmt x) = some x)) &&
    decide (importanceText exStrokes r.2 =
      "N:x\t01ddd\t011\t01ddd\tp\t0\t0\nC:k\t0\t0\t0\tn\t0\t0\nC:y\t0\t0\t0\tn\t0\t0\n".toList)) = true := by
  decide +kernel

/-! ## Negations -/

/-- **C173 is false of the code** for splits at roots: both trees that are written split on the number, at their roots, and the file says that no tree uses
it and that its importance per tree that uses it is infinite. -/
theorem c173_root :
    ((exImp exAceTable { target := "C:y", nTrees := 2 }).bind fun r => splitsInFile r.1) = some [["N:x"], ["N:x"]] ∧
    ((exImp exAceTable { target := "C:y", nTrees := 2 }).bind fun r => r.2.head?.map fun ln => (ln.1, ln.2.treesUsed, ln.2.perTreeUsed)) =
      some ("N:x", .fin 0, .pinf) := by
  decide +kernel

end CloudForest
