import Verif.Lemmas.Ace4
import Verif.Props.Driver
import Verif.Props.Commands
import Verif.Spec.Ace

/-!
# C164: an analysis with artificial contrasts
-/

set_option linter.unusedSectionVars false

namespace CloudForest
variable {K : Type} [Field K] [LinearOrder K] [IsStrictOrderedRing K] {τ : Type}

/-! ## Proof -/

theorem Feature.Consistent.even {f : Feature K} (h : f.Consistent) : f.Even := by
  cases f with
  | cat f => exact CatFeature.Consistent.lengths h
  | num f => exact NumFeature.Consistent.lengths h

theorem chooseFeatures_found {fm : FeatureMatrix K} (hI : fm.Indexed) {ids : List String} {target : String} {block incl : Option (String → Bool)}
    {ti : Nat} {b : Blacklist} (h : chooseFeatures fm ids target block incl = some (ti, b)) :
    ti < fm.data.length ∧ b.marks.length = fm.data.length ∧ ∃ f, fm.data[ti]? = some f ∧ f.name = target := by
  have hlt : ∀ n i, fm.map n = some i → i < fm.data.length := by
    intro n i hi
    obtain ⟨f, hf, -⟩ := hI.sound n i hi
    exact (List.getElem?_eq_some_iff.1 hf).1
  have hg0 : (⟨List.replicate fm.data.length false, 0⟩ : Blacklist).Good fm.data.length := by
    constructor
    · simp
    · simp [List.count_replicate]
  unfold chooseFeatures at h
  obtain ⟨b1, e1, h⟩ := Option.bind_eq_some_iff.1 h
  obtain ⟨t, et, h⟩ := Option.bind_eq_some_iff.1 h
  obtain ⟨b2, e2, h⟩ := Option.bind_eq_some_iff.1 h
  obtain ⟨b3, e3, h⟩ := Option.bind_eq_some_iff.1 h
  cases h
  obtain ⟨b1', e1', g1, -⟩ := Blacklist.byName_ok fm hlt hg0 ids
  rw [e1] at e1'
  cases e1'
  have g2 : b2.Good fm.data.length := by
    cases block with
    | none => cases e2; exact g1
    | some p =>
      obtain ⟨b', e, g, -⟩ := Blacklist.byTest_ok fm ti p g1
      simp only [Option.elim_some] at e2
      rw [e2] at e
      cases e
      exact g
  have g3 : b.Good fm.data.length := by
    cases incl with
    | none => cases e3; exact g2
    | some p =>
      obtain ⟨b', e, g, -⟩ := Blacklist.byTest_ok fm ti (fun s => !p s) g2
      simp only [Option.elim_some] at e3
      rw [e3] at e
      cases e
      exact g
  exact ⟨hlt _ _ et, g3.1, hI.sound _ _ et⟩

/-- What a run that has written something consists of. -/
theorem aceCommand_run [FloorRing K] {nt : NumText K} {log : XF K → XF K} {F : MathFns K} {ord : Splitter K → List String} {a : GrowArgs} {ace : Nat}
    {cutoff : XF K} {draws : Nat} {order : List Nat → List Nat} {text : Text} {own global shuf : Nat → Rng} {file : Text} {lines : List (AceLine K)}
    (h : aceCommand nt log F ord a ace cutoff draws order text own global shuf = some (file, lines)) {fm : FeatureMatrix K}
    (hp : parseAFM nt text = some fm) :
    ∃ ti b res, chooseFeatures fm a.blacklist a.target a.block a.incl = some (ti, b) ∧
      growforestFile nt ord a.progress a.target none (res.trees.map (·.1)) = some file ∧
      lines = List.zipWith (fun f x => ⟨a.target, f.name, x.1, x.2⟩) fm.data res.tests ∧
      ((∃ f how m l s, fm.data[ti]? = some (.cat f) ∧ a.bagging f = some how ∧ inferMTry nt a.mTry (b.nFeatures fm).toNat = some m ∧
          inferLeafSize nt a.leafSize false f.cm.nCats (nKnown f.missing) = some l ∧ inferNSamples nt a.nSamples (nKnown f.missing) = some s ∧
          (a.classRun log fm f how m.toNat l.toNat s.toNat draws order).aceRun nt F a.mTry ti b.marks (nKnown f.missing) f.cm.nCats ace cutoff
            own global shuf = some res) ∨
        ∃ f m l s, fm.data[ti]? = some (.num f) ∧ inferMTry nt a.mTry (b.nFeatures fm).toNat = some m ∧
          inferLeafSize nt a.leafSize false 0 (nKnown f.missing) = some l ∧ inferNSamples nt a.nSamples (nKnown f.missing) = some s ∧
          (a.numRun nt fm f m.toNat l.toNat s.toNat draws order).aceRun nt F a.mTry ti b.marks (nKnown f.missing) 0 ace cutoff
            own global shuf = some res) := by
  unfold aceCommand at h
  simp only [Option.bind_eq_bind, hp, Option.bind_some] at h
  obtain ⟨⟨ti, b⟩, hch, h⟩ := Option.bind_eq_some_iff.1 h
  obtain ⟨m, hm, h⟩ := Option.bind_eq_some_iff.1 h
  obtain ⟨target, ht, h⟩ := Option.bind_eq_some_iff.1 h
  simp only at h
  cases target with
  | cat f =>
    simp only at h
    obtain ⟨how, hh, h⟩ := Option.bind_eq_some_iff.1 h
    obtain ⟨l, hl, h⟩ := Option.bind_eq_some_iff.1 h
    obtain ⟨s, hs, h⟩ := Option.bind_eq_some_iff.1 h
    obtain ⟨res, hr, h⟩ := Option.bind_eq_some_iff.1 h
    obtain ⟨file', hf, h⟩ := Option.bind_eq_some_iff.1 h
    cases h
    exact ⟨ti, b, res, hch, hf, rfl, .inl ⟨f, how, m, l, s, ht, hh, hm, hl, hs, hr⟩⟩
  | num f =>
    simp only at h
    split at h
    · cases h
    · obtain ⟨l, hl, h⟩ := Option.bind_eq_some_iff.1 h
      obtain ⟨s, hs, h⟩ := Option.bind_eq_some_iff.1 h
      obtain ⟨res, hr, h⟩ := Option.bind_eq_some_iff.1 h
      obtain ⟨file', hf, h⟩ := Option.bind_eq_some_iff.1 h
      cases h
      exact ⟨ti, b, res, hch, hf, rfl, .inr ⟨f, m, l, s, ht, hm, hl, hs, hr⟩⟩

theorem aceLines_tests {F : MathFns K} {target : String} {data : List (Feature K)} {tests : List (XF K × XF K)} {α : Type} {fs : List α} {g h : α → Nat → K}
    (ht : ∀ (i : Nat) (t : XF K × XF K), tests[i]? = some t →
      t = ((ttest F (fs.map fun y => .fin (g y i)) (fs.map fun y => .fin (h y i))).p,
        (ttest F (fs.map fun y => .fin (g y i)) (fs.map fun y => .fin (h y i))).am)) :
    ∀ (i : Nat) (ln : AceLine K), (List.zipWith (fun f x => (⟨target, f.name, x.1, x.2⟩ : AceLine K)) data tests)[i]? = some ln →
      (∃ g, data[i]? = some g ∧ ln.feature = g.name) ∧
      ∀ A B : List (XF K), A = (fs.map fun y => .fin (g y i)) → B = (fs.map fun y => .fin (h y i)) →
        ln.p = (ttest F A B).p ∧ ln.mean = (ttest F A B).am := by
  intro i ln hln
  obtain ⟨f, x, hf, hx, rfl⟩ := List.getElem?_zipWith_eq_some.1 hln
  refine ⟨⟨f, hf, rfl⟩, fun A B hA hB => ?_⟩
  have := ht i x hx
  subst hA hB
  exact ⟨congrArg Prod.fst this, congrArg Prod.snd this⟩

theorem parsed_inRange {nt : NumText K} {text : Text} {fm : FeatureMatrix K} (hp : parseAFM nt text = some fm) {f : CatFeature} (hf : .cat f ∈ fm.data)
    {i : Nat} (hi : f.missing[i]? = some false) : f.InRange f.cm.nCats (List.range f.missing.length) := by
  have hcons : f.Consistent := (c139_afm nt text fm hp).1.consistent _ hf
  have hz := parsed_zeroFilled hp _ hf
  have hil := (List.getElem?_eq_some_iff.1 hi).1
  intro c hcm
  have hcl : c < f.missing.length := List.mem_range.1 hcm
  have hd : f.catData[c]? = some (f.catData[c]'(by rw [hcons.lengths]; exact hcl)) := List.getElem?_eq_getElem _
  refine ⟨_, hd, ?_⟩
  cases hmc : f.missing[c]'hcl with
  | false => exact hcons.valid c _ (by rw [List.getElem?_eq_getElem hcl, hmc]) hd
  | true =>
    have h0 := hz.2 c (by rw [List.getElem?_eq_getElem hcl, hmc])
    rw [hd, Option.some.injEq] at h0
    rw [h0]
    have hdi : f.catData[i]? = some (f.catData[i]'(by rw [hcons.lengths]; exact hil)) := List.getElem?_eq_getElem _
    exact Nat.lt_of_le_of_lt (Nat.zero_le _) (hcons.valid i _ hi hdi)

/-! ## C164 -/

/-- **C164, selection.** With a cutoff, the forest that growforest writes after an analysis with artificial contrasts has as many trees as asked for, and all
their splits are on features that the user has left for splitting and whose line in the importance file gives a `p` below the cutoff and a mean importance
above zero. None is on a contrast. The lines are those of the features of the file, in their order. This holds for all data, targets and options, except
that a name occurs once. -/
theorem c164_significant [FloorRing K] {nt : NumText K} {log : XF K → XF K} {F : MathFns K} {ord : Splitter K → List String} {a : GrowArgs} {ace : Nat}
    {cutoff : XF K} {draws : Nat} {order : List Nat → List Nat} {text : Text} {own global shuf : Nat → Rng} {file : Text} {lines : List (AceLine K)}
    (hc : .fin 0 < cutoff) (h : aceCommand nt log F ord a ace cutoff draws order text own global shuf = some (file, lines)) {fm : FeatureMatrix K}
    (hp : parseAFM nt text = some fm) (hn : (fm.data.map Feature.name).Nodup) :
    lines.map (·.feature) = fm.data.map Feature.name ∧
    ∃ trees : List (Tree K), growforestFile nt ord a.progress a.target none trees = some file ∧ trees.length = max 1 a.nTrees ∧
      ∀ t ∈ trees, ∀ n ∈ t.root.splitNames, Allowed a.blacklist a.target a.block a.incl n ∧
        ∃ ln ∈ lines, ln.feature = n ∧ ln.p < cutoff ∧ .fin 0 < ln.mean := by
  obtain ⟨hR, hI⟩ := c139_afm nt text fm hp
  have hM := c139_sound nt text fm hp hn
  obtain ⟨ti, b, res, hch, hfile, rfl, hrun⟩ := aceCommand_run h hp
  obtain ⟨h1, h2, f0, h3, h4⟩ := chooseFeatures_found hI hch
  obtain ⟨ti', b', e, hcan, -⟩ := c93_candidates_partial fm hI hM.named a.blacklist a.target a.block a.incl ⟨f0, List.mem_of_getElem? h3, h4⟩
  rw [hch] at e
  cases e
  have he : ∀ f ∈ fm.data, f.Even := fun f hf => (hR.consistent f hf).even
  have key : res.tests.length = fm.data.length ∧ res.trees.length = max 1 a.nTrees ∧ ∀ x ∈ res.trees, ∀ n ∈ x.1.root.splitNames,
      ∃ i ∈ candidates fm ti b.marks, ∃ f t, fm.data[i]? = some f ∧ f.name = n ∧ res.tests[i]? = some t ∧ t.1 < cutoff ∧ .fin 0 < t.2 := by
    rcases hrun with ⟨f, how, m, l, s, -, -, -, -, -, hr⟩ | ⟨f, m, l, s, -, -, -, -, hr⟩
    · exact aceRun_names (by exact he) (by exact h1) (by exact h2) hc hr
    · exact aceRun_names (by exact he) (by exact h1) (by exact h2) hc hr
  obtain ⟨k1, k2, k3⟩ := key
  refine ⟨?_, res.trees.map (·.1), hfile, by simpa using k2, ?_⟩
  · rw [List.map_zipWith]
    apply List.ext_getElem?
    intro i
    simp only [List.getElem?_zipWith, List.getElem?_map]
    cases hi : fm.data[i]? with
    | none => rfl
    | some f =>
      have : i < res.tests.length := by rw [k1]; exact (List.getElem?_eq_some_iff.1 hi).1
      rw [List.getElem?_eq_getElem this]
      rfl
  · intro t ht n hn'
    obtain ⟨x, hx, rfl⟩ := List.mem_map.1 ht
    obtain ⟨i, hi, f, t, hf, rfl, ht, hlt, hgt⟩ := k3 x hx n hn'
    obtain ⟨f', hf', ha⟩ := (hcan i).1 hi
    rw [hf] at hf'
    cases hf'
    refine ⟨ha, ⟨a.target, f.name, t.1, t.2⟩, ?_, rfl, hlt, hgt⟩
    refine List.mem_of_getElem? (i := i) ?_
    rw [List.getElem?_zipWith, hf, ht]

/-- **C164, the importance file, classes.** A clean table is analysed with artificial contrasts. Behind the importance file are as many forests as asked for,
each of `nTrees` trees grown from the table extended by a shuffled copy of every feature, with the features that the user has left and their contrasts as
candidates. The line of a feature has the `p` and the mean of the t-test between its importances in these forests and those of its contrast, where the
importance is the sum of the decreases of Gini impurity that the splits on it brought, per tree.

Missing from the full property: missing values and near ties of numbers, other impurities, `-vet` and `-evaloob`. -/
theorem c164_classes_partial [FloorRing K] {nt : NumText K} {log : XF K → XF K} {F : MathFns K} {ord : Splitter K → List String} {a : GrowArgs} {ace : Nat}
    {cutoff : XF K} {draws : Nat} {order : List Nat → List Nat} (horder : ∀ bag, (order bag).Perm bag) {text : Text} {own global shuf : Nat → Rng}
    {file : Text} {lines : List (AceLine K)} (h : aceCommand nt log F ord a ace cutoff draws order text own global shuf = some (file, lines))
    {fm : FeatureMatrix K} (hp : parseAFM nt text = some fm) (hc : fm.Clean a.target) (hk : fm.Contrastable) {f : CatFeature} (hf : .cat f ∈ fm.data)
    (hn : f.name = a.target) (hids : a.target ∉ a.blacklist) (hent : a.entropy = false) (hvet : a.vet = false) (heval : a.evaloob = false)
    (htrees : 1 ≤ a.nTrees) {m : Int} (hm : inferMTry nt a.mTry (allowedFeatures fm a.blacklist a.target a.block a.incl).length = some m)
    (hmle : m ≤ (allowedFeatures fm a.blacklist a.target a.block a.incl).length) :
    ∃ (how : Bagging) (l s : Int) (cans : List Nat) (forests : List (FeatureMatrix K × List (Tree K × List Nat))),
      a.bagging f = some how ∧ inferLeafSize nt a.leafSize false f.cm.nCats (nKnown f.missing) = some l ∧
      inferNSamples nt a.nSamples (nKnown f.missing) = some s ∧
      ContrastCandidates fm (Allowed a.blacklist a.target a.block a.incl) cans ∧ forests.length = ace ∧
      (∀ y ∈ forests, WithContrasts fm y.1 ∧ y.2.length = a.nTrees ∧
        ∀ x ∈ y.2, GrownOn (a.classRun log y.1 f how m.toNat l.toNat s.toNat draws order) cans x) ∧
      lines.length = fm.data.length ∧
      ∀ (i : Nat) (ln : AceLine K), lines[i]? = some ln → (∃ g, fm.data[i]? = some g ∧ ln.feature = g.name) ∧
        ∀ A B : List (XF K), A = (forests.map fun y => .fin (perTree y.1 (f.gini K f.cm.nCats) a.nTrees y.2 i)) →
          B = (forests.map fun y => .fin (perTree y.1 (f.gini K f.cm.nCats) a.nTrees y.2 (i + fm.data.length))) →
          ln.p = (ttest F A B).p ∧ ln.mean = (ttest F A B).am := by
  obtain ⟨ti, b, hP⟩ := prepared hp hc hf hn hids
  obtain ⟨hR, hI⟩ := c139_afm nt text fm hp
  have hM := c139_sound nt text fm hp hc.names
  obtain ⟨ti', b', res, hch, hfile, rfl, hrun⟩ := aceCommand_run h hp
  rw [hP.chosen] at hch
  cases hch
  obtain ⟨h1, h2, -⟩ := chooseFeatures_found hI hP.chosen
  obtain ⟨ti', b', e, hcan, -⟩ := c93_candidates_partial fm hI hM.named a.blacklist a.target a.block a.incl ⟨_, hf, hn⟩
  rw [hP.chosen] at e
  cases e
  rcases hrun with ⟨f', how, m', l, s, ht, hhow, hm', hl, hs, hr⟩ | ⟨f', m', l, s, ht, -⟩
  swap
  · rw [hP.target] at ht; cases ht
  rw [hP.target] at ht
  cases ht
  rw [hP.count, hm] at hm'
  cases hm'
  obtain ⟨i, hi⟩ := hc.known _ hf hn
  have hi : f.missing[i]? = some false := hi
  have hcons : f.Consistent := hR.consistent _ hf
  have hin := parsed_inRange hp hf hi
  obtain ⟨how', hb1, hb2, -, -⟩ := bagging_ok hp hf hi hin hcons a
  rw [hhow] at hb1
  cases hb1
  have hl1 := inferLeafSize_pos hl
  have hw := countLaws_weighted (K := K) f (g := if a.entropy then entropyFromCounts log else giniFromCounts) (by simp [hent]) f.cm.nCats _ hin
  have hA : (a.classRun log fm f how m.toNat l.toNat s.toNat draws order).AceOk
      (countLaws f (if a.entropy then entropyFromCounts log else giniFromCounts) f.cm.nCats _ hin) (f.gini K f.cm.nCats) f.cm.nCats :=
    { weighted := hw
      ok := by refine ⟨?_, ?_, ?_⟩ <;> simp [newAllocs]
      evaloob := heval
      vet := hvet
      nTrees := htrees
      leafSize := (by show 1 ≤ l.toNat; omega)
      fit := hb2
      order := horder
      length := hP.length
      some := List.ne_nil_of_mem hf
      names := hc.names
      suffix := hk.suffix
      indexed := hI
      sound := Contrastable.sound hp hc hk }
  obtain ⟨cans, fs, ⟨c1, c2⟩, f1, f2, f3, f4⟩ := aceRun_scores hA (by exact h1) (by exact h2)
    (by show m.toNat ≤ (candidates fm ti b.marks).length; rw [hP.cans]; omega) hr
  refine ⟨how, l, s, cans, fs, hhow, hl, hs, ⟨c1, fun i => ?_⟩, f1, f2, ?_, ?_⟩
  · exact (c2 i).trans (and_congr_right fun _ => hcan _)
  · rw [List.length_zipWith, show res.tests.length = fm.data.length from f3, Nat.min_self]
  · exact aceLines_tests f4

/-- **C164, the importance file, numbers.** The same for a numerical target; the importance is measured by the decrease of the mean squared error.

Missing from the full property: as above. -/
theorem c164_numbers_partial [FloorRing K] {nt : NumText K} {log : XF K → XF K} {F : MathFns K} {ord : Splitter K → List String} {a : GrowArgs} {ace : Nat}
    {cutoff : XF K} {draws : Nat} {order : List Nat → List Nat} (horder : ∀ bag, (order bag).Perm bag) {text : Text} {own global shuf : Nat → Rng}
    {file : Text} {lines : List (AceLine K)} (h : aceCommand nt log F ord a ace cutoff draws order text own global shuf = some (file, lines))
    {fm : FeatureMatrix K} (hp : parseAFM nt text = some fm) (hc : fm.Clean a.target) (hk : fm.Contrastable) {f : NumFeature K} (hf : .num f ∈ fm.data)
    (hn : f.name = a.target) (hids : a.target ∉ a.blacklist) (hl1 : a.l1 = false) (hvet : a.vet = false) (heval : a.evaloob = false)
    (htrees : 1 ≤ a.nTrees) {m : Int} (hm : inferMTry nt a.mTry (allowedFeatures fm a.blacklist a.target a.block a.incl).length = some m)
    (hmle : m ≤ (allowedFeatures fm a.blacklist a.target a.block a.incl).length) :
    ∃ (l s : Int) (cans : List Nat) (forests : List (FeatureMatrix K × List (Tree K × List Nat))),
      inferLeafSize nt a.leafSize false 0 (nKnown f.missing) = some l ∧ inferNSamples nt a.nSamples (nKnown f.missing) = some s ∧
      ContrastCandidates fm (Allowed a.blacklist a.target a.block a.incl) cans ∧ forests.length = ace ∧
      (∀ y ∈ forests, WithContrasts fm y.1 ∧ y.2.length = a.nTrees ∧
        ∀ x ∈ y.2, GrownOn (a.numRun nt y.1 f m.toNat l.toNat s.toNat draws order) cans x) ∧
      lines.length = fm.data.length ∧
      ∀ (i : Nat) (ln : AceLine K), lines[i]? = some ln → (∃ g, fm.data[i]? = some g ∧ ln.feature = g.name) ∧
        ∀ A B : List (XF K), A = (forests.map fun y => .fin (perTree y.1 f.sse a.nTrees y.2 i)) →
          B = (forests.map fun y => .fin (perTree y.1 f.sse a.nTrees y.2 (i + fm.data.length))) →
          ln.p = (ttest F A B).p ∧ ln.mean = (ttest F A B).am := by
  obtain ⟨ti, b, hP⟩ := prepared hp hc hf hn hids
  obtain ⟨hR, hI⟩ := c139_afm nt text fm hp
  have hM := c139_sound nt text fm hp hc.names
  obtain ⟨ti', b', res, hch, hfile, rfl, hrun⟩ := aceCommand_run h hp
  rw [hP.chosen] at hch
  cases hch
  obtain ⟨h1, h2, -⟩ := chooseFeatures_found hI hP.chosen
  obtain ⟨ti', b', e, hcan, -⟩ := c93_candidates_partial fm hI hM.named a.blacklist a.target a.block a.incl ⟨_, hf, hn⟩
  rw [hP.chosen] at e
  cases e
  rcases hrun with ⟨f', how, m', l, s, ht, -⟩ | ⟨f', m', l, s, ht, hm', hl, hs, hr⟩
  · rw [hP.target] at ht; cases ht
  rw [hP.target] at ht
  cases ht
  rw [hP.count, hm] at hm'
  cases hm'
  obtain ⟨i, hi⟩ := hc.known _ hf hn
  have hi : f.missing[i]? = some false := hi
  have hlpos := inferLeafSize_pos hl
  have hS := Contrastable.sound hp hc hk
  have hfin : f.Finite (List.range f.missing.length) := by
    have := (hS _ hf).featOk.1.vals
    rw [show fm.caseLabels.length = f.missing.length from hP.length.symm] at this
    intro c hcm
    refine this c (List.mem_filter.2 ⟨hcm, ?_⟩)
    have hcl : c < f.missing.length := List.mem_range.1 hcm
    have : f.missing[c]? = some false := by
      rw [List.getElem?_eq_getElem hcl]
      cases e : f.missing[c] with
      | false => rfl
      | true => exact absurd (e ▸ List.getElem_mem hcl) (hk.known f hf)
    simpa [Feature.isMissing] using this
  obtain ⟨L, hw, hLok⟩ := numTarget_weighted f _ hfin a.l1 hl1
  have hA : (a.numRun nt fm f m.toNat l.toNat s.toNat draws order).AceOk L f.sse 0 :=
    { weighted := hw
      ok := hLok _
      evaloob := heval
      vet := hvet
      nTrees := htrees
      leafSize := (by show 1 ≤ l.toNat; omega)
      fit := by
        show (if a.nobag then Bagging.nobag else .plain).Fit f.missing
        split
        · trivial
        · exact Nat.lt_of_le_of_lt (Nat.zero_le _) (List.getElem?_eq_some_iff.1 hi).1
      order := horder
      length := hP.length
      some := List.ne_nil_of_mem hf
      names := hc.names
      suffix := hk.suffix
      indexed := hI
      sound := hS }
  obtain ⟨cans, fs, ⟨c1, c2⟩, f1, f2, f3, f4⟩ := aceRun_scores hA (by exact h1) (by exact h2)
    (by show m.toNat ≤ (candidates fm ti b.marks).length; rw [hP.cans]; omega) hr
  refine ⟨l, s, cans, fs, hl, hs, ⟨c1, fun i => ?_⟩, f1, f2, ?_, ?_⟩
  · exact (c2 i).trans (and_congr_right fun _ => hcan _)
  · rw [List.length_zipWith, show res.tests.length = fm.data.length from f3, Nat.min_self]
  · exact aceLines_tests f4

/-! ## Examples -/

/-- Functions on rational numbers, to run the command with. -/
def exAceFns : MathFns ℚ where
  sqrt
    | .fin _ => .fin 1
    | _ => .nan
  pow
    | .fin _, .fin _ => .fin (1 / 100)
    | _, _ => .nan
  beta
    | .fin _, .fin _ => .fin 3
    | _, _ => .nan

/-- A number that tells the classes, and a category that does not. -/
def exAceTable : Text :=
  ".\tN:x\tC:k\tC:y\na\t01\tu\tyes\nb\t011\tv\tyes\nc\t0111\tv\tno\nd\t01111\tu\tno\n".toList

/-- growforest with two trees per forest, two forests with contrasts and a cutoff. -/
def exAce (cutoff : XF ℚ) : Option (Text × List (AceLine ℚ)) :=
  aceCommand exStrokes id exAceFns (fun s => s.left) { target := "C:y", nTrees := 2 } 2 cutoff 20 id exAceTable (fun k j => 5 * j + k)
    (fun k j => 3 * j + 1 + 2 * k) (fun k j => 7 * j + 3 * k)

/-- The features on which the trees of a file split. -/
def splitsInFile (file : Text) : Option (List (List String)) :=
  (readForest exStrokes file).bind fun r => r.forest.map fun f => f.trees.map fun t => t.root.splitNames

/-- The conditions of `c164_significant` hold, the number has a positive mean and a `p` below one half, and both trees split on it. -/
example : ((exAce (.fin (1 / 2))).bind fun r => (splitsInFile r.1).map fun s => (s, r.2.map (·.mean), r.2.map fun l => decide (l.p < .fin (1 / 2)))) =
      some ([["N:x"], ["N:x"]], [.fin (1 / 4), .fin 0, .fin 0], [true, false, false]) ∧
    (parseAFM exStrokes exAceTable).map (fun fm => decide (fm.data.map Feature.name).Nodup) = some true := by
  decide +kernel

/-- Tests whether a table is fit for contrasts. -/
def contrastableCheck (fm : FeatureMatrix K) : Bool :=
  (fm.data.all fun f => fm.data.all fun g => f.name != g.name ++ ":SHUFFLED") && fm.data.all fun f => match f with
    | .cat _ => true
    | .num f => !f.missing.contains true && f.numData.all fun x => f.numData.all fun y => match x, y with
      | .fin x, .fin y => decide (x < y → x + 1 / 10000000 < y)
      | _, _ => true

theorem contrastableCheck_ok {fm : FeatureMatrix K} (h : contrastableCheck fm = true) : fm.Contrastable := by
  unfold contrastableCheck at h
  simp only [Bool.and_eq_true, List.all_eq_true] at h
  refine ⟨fun f hf g hg => by simpa using h.1 f hf g hg, fun f hf => ?_, fun f hf x y hx hy => ?_⟩
  · have := h.2 _ hf
    simp only [Bool.and_eq_true, Bool.not_eq_true', List.contains_eq_mem, decide_eq_false_iff_not] at this
    exact this.1
  · have := h.2 _ hf
    simp only [Bool.and_eq_true, List.all_eq_true] at this
    exact of_decide_eq_true (this.2 _ hx _ hy)

/-- The conditions of `c164_classes_partial` hold, and something is written. -/
example : ∃ (fm : FeatureMatrix ℚ) (f : CatFeature), parseAFM exStrokes exAceTable = some fm ∧ fm.Clean "C:y" ∧ fm.Contrastable ∧ .cat f ∈ fm.data ∧
    f.name = "C:y" ∧ inferMTry exStrokes ['0'] (allowedFeatures fm [] "C:y" none none).length = some 2 ∧
    (allowedFeatures fm [] "C:y" none none).length = 2 ∧ (exAce (.fin (1 / 2))).isSome := by
  obtain ⟨fm, hfm⟩ : ∃ fm, parseAFM exStrokes exAceTable = some fm := Option.isSome_iff_exists.1 (by decide +kernel)
  have hcheck : ((parseAFM exStrokes exAceTable).any fun fm => cleanCheck fm "C:y" && contrastableCheck fm &&
      decide ((allowedFeatures fm [] "C:y" none none).length = 2) && fm.data.any fun f => (match f with | .cat _ => true | .num _ => false) && f.name == "C:y") = true := by
    decide +kernel
  rw [hfm, Option.any_some] at hcheck
  simp only [Bool.and_eq_true, decide_eq_true_eq, List.any_eq_true, beq_iff_eq] at hcheck
  obtain ⟨⟨⟨h1, h2⟩, h3⟩, F, h4, h5, h6⟩ := hcheck
  cases F with
  | num f => cases h5
  | cat f => exact ⟨fm, f, hfm, cleanCheck_ok h1, contrastableCheck_ok h2, h4, h6, by rw [h3]; decide +kernel, h3, by decide +kernel⟩

/-- growforest on the same table with the number as target. -/
def exAceNum : Option (Text × List (AceLine ℚ)) :=
  aceCommand exStrokes id exAceFns (fun s => s.left) { target := "N:x", nTrees := 2, leafSize := ['0', '1'] } 2 (.fin (1 / 2)) 20 id exAceTable (fun k j => 5 * j + k)
    (fun k j => 3 * j + 1 + 2 * k) (fun k j => 7 * j + 3 * k)

/-- The conditions of `c164_numbers_partial` hold, and something is written. -/
example : ∃ (fm : FeatureMatrix ℚ) (f : NumFeature ℚ), parseAFM exStrokes exAceTable = some fm ∧ fm.Clean "N:x" ∧ fm.Contrastable ∧ .num f ∈ fm.data ∧
    f.name = "N:x" ∧ inferMTry exStrokes ['0'] (allowedFeatures fm [] "N:x" none none).length = some 2 ∧
    (allowedFeatures fm [] "N:x" none none).length = 2 ∧ (exAceNum.map fun r => r.2.map (·.mean)) = some [.fin 0, .fin (1 / 4), .fin (9 / 4)] := by
  obtain ⟨fm, hfm⟩ : ∃ fm, parseAFM exStrokes exAceTable = some fm := Option.isSome_iff_exists.1 (by decide +kernel)
  have hcheck : ((parseAFM exStrokes exAceTable).any fun fm => cleanCheck fm "N:x" && contrastableCheck fm &&
      decide ((allowedFeatures fm [] "N:x" none none).length = 2) && fm.data.any fun f => (match f with | .num _ => true | .cat _ => false) && f.name == "N:x") = true := by
    decide +kernel
  rw [hfm, Option.any_some] at hcheck
  simp only [Bool.and_eq_true, decide_eq_true_eq, List.any_eq_true, beq_iff_eq, Bool.not_eq_true'] at hcheck
  obtain ⟨⟨⟨h1, h2⟩, h3⟩, F, h4, h5, h6⟩ := hcheck
  cases F with
  | cat f => cases h5
  | num f => exact ⟨fm, f, hfm, cleanCheck_ok h1, contrastableCheck_ok h2, h4, h6, by rw [h3]; decide +kernel, h3, by decide +kernel⟩

/-! ## Negations -/

/-- **C164 is false of the code** without a cutoff: the forest that is written is one of those with contrasts, and splits on a copy that no table has. -/
theorem c164_contrasts_written :
    ((exAce (.fin 0)).bind fun r => splitsInFile r.1) = some [["N:x"], ["N:x:SHUFFLED", "N:x:SHUFFLED"]] ∧
    (parseAFM exStrokes exAceTable).map (fun fm => fm.data.map Feature.name) = some ["N:x", "C:k", "C:y"] := by
  decide +kernel

end CloudForest
