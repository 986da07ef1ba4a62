import Verif.Lemmas.TestCommand
import Verif.Props.OobCommand

/-!
# C172: testing in growforest and testing with applyforest
-/

set_option linter.unusedSectionVars false

namespace CloudForest
variable {K : Type} [Field K] [LinearOrder K] [IsStrictOrderedRing K]

/-! ## C172 -/

/-- **C172, classes.** growforest with `-test` or `-selftest` does what growforest and then applyforest do: the votes are those that applyforest counts when it
reads the file of the forest and the test data, and the error printed is that of applyforest, for the same outcomes of ties; it panics where one of the two
would. The test data must have the target.

Missing from the full property: more trees than workers, `c172_lost`, where it is false of the code, `c172_error`. -/
theorem c172_classes_partial [FloorRing K] {nt : NumText K} (hnt : ∀ x, nt.Faithful x) {ord : Splitter K → List String}
    (hord : ∀ s : Splitter K, (ord s).Perm s.left) {order : List Nat → List Nat} (horder : ∀ bag, (order bag).Perm bag)
    {text : Text} {fm : FeatureMatrix K} (hp : parseAFM nt text = some fm) {a : GrowArgs} (hc : fm.Clean a.target)
    {f : CatFeature} (hf : .cat f ∈ fm.data) (hn : f.name = a.target) (hids : a.target ∉ a.blacklist) {m l s : Int}
    (hm : inferMTry nt a.mTry (allowedFeatures fm a.blacklist a.target a.block a.incl).length = some m)
    (hmle : m ≤ (allowedFeatures fm a.blacklist a.target a.block a.incl).length)
    (hl : inferLeafSize nt a.leafSize false f.cm.nCats (nKnown f.missing) = some l)
    (hs : inferNSamples nt a.nSamples (nKnown f.missing) = some s) (hcores : 1 ≤ a.nCores)
    (hvet : ¬ (a.vet = true ∧ a.evaloob = true)) (draws : Nat) (log : XF K → XF K) (own global : Nat → Rng) (pick : Nat → Nat)
    (hone : a.nTrees ≤ a.nCores) {test : Option Text}
    (htest : ∀ text2, test = some text2 → ∃ fm2 : FeatureMatrix K, parseAFM nt text2 = some fm2 ∧ (fm2.map a.target).isSome = true)
    {o : ApplyOptions} (hsum : o.sum = false) (hcat : o.cat = true ∨ o.num = false ∧ a.target.toList.head? ≠ some 'N') :
    growTestCommand nt log ord a draws order text test own global pick =
      ((growCommand nt log ord { a with dotest := true } draws order text own global pick).bind fun file =>
        (applyCommand nt o file (test.getD text)).map fun x => (file, x.2)) ∧
    ∀ file bb, growTestCommand nt log ord a draws order text test own global pick = some (file, bb) →
      ∀ (counted shown : Nat → Option String) err lines, applyWhole nt o file (test.getD text) counted shown = some (err, lines) →
        ∃ e, err = some e ∧ printedTestError nt a.target (test.getD text) bb counted = some e := by
  obtain ⟨ti, b, hP⟩ := prepared (a := { a with dotest := true }) hp hc hf hn hids
  have hl1 := inferLeafSize_pos hl
  obtain ⟨i, hi⟩ := hc.known _ hf hn
  have hi : f.missing[i]? = some false := hi
  have hcons : f.Consistent := (c139_afm nt text fm hp).1.consistent _ hf
  have hcats : f.cm.nCats ≠ 0 := by
    obtain ⟨k, s, -, h2, -⟩ := known_className hcons hi
    exact Nat.ne_of_gt (Nat.lt_of_le_of_lt (Nat.zero_le _) h2)
  have hchoose : ∀ n, chooseBox (K := K) o a.target n = oobBox f.cm.nCats n := fun n => by
    rw [(chooseBox_eq o a.target n).2.1 hsum hcat, oobBox, if_neg hcats]
  obtain ⟨how, hhow, hnob, hpl, L, good, hr, hok⟩ := class_ready (a := { a with dotest := true }) (m := m.toNat) (l := l.toNat) (s := s.toNat) hp hc hf hn
    hP (by have : m ≤ ((allowedFeatures fm a.blacklist a.target a.block a.incl).length : Int) := hmle
           show m.toNat ≤ (allowedFeatures fm a.blacklist a.target a.block a.incl).length
           omega) (by omega) horder draws log
  let r := GrowArgs.classRun { a with dotest := true } log fm f how m.toNat l.toNat s.toNat draws order
  have hcmd : growCommand nt log ord { a with dotest := true } draws order text own global pick =
      (r.runCores r.grower a.nCores (nKnown f.missing) f.cm.nCats (candidates fm ti b.marks) own global pick).bind fun out =>
      growforestFile nt ord a.progress a.target none (out.map (·.1)) := by
    simp only [growCommand, hp, hP.chosen, hP.count, hm, hP.target, hl, hs, hhow, Option.bind_eq_bind, Option.bind_some]
    rfl
  have htst : growTestCommand nt log ord a draws order text test own global pick =
      (r.runCores r.grower a.nCores (nKnown f.missing) f.cm.nCats (candidates fm ti b.marks) own global pick).bind fun out =>
      (growforestFile nt ord a.progress a.target none (out.map (·.1))).bind fun file =>
      (testBox nt fm a.target test f.cm.nCats (keptTrees (treeObjects a.nTrees (max a.nCores a.nTrees) a.nCores pick
        ((List.range a.nCores).map fun w => (w, 0))) (out.map (·.1)))).bind fun bb => some (file, bb) := by
    simp only [growTestCommand, hp, hP.chosen, hP.count, hm, hP.target, hl, hs, hhow, Option.bind_eq_bind, Option.bind_some, Option.bind_assoc]
    rfl
  have htidy := hc.tidy _ hf
  have hfind : ∀ text2, test.getD text = text2 → ∃ fm2 : FeatureMatrix K, parseAFM nt text2 = some fm2 ∧ (fm2.map a.target).isSome = true := by
    rintro text2 rfl
    cases test with
    | none =>
      obtain ⟨i, h1, -⟩ := target_found hp hc.names hf
      exact ⟨fm, hp, by rw [← hn]; exact (congrArg Option.isSome h1).trans rfl⟩
    | some t => exact htest t rfl
  rw [hcmd, htst]
  cases hrun : r.runCores r.grower a.nCores (nKnown f.missing) f.cm.nCats (candidates fm ti b.marks) own global pick with
  | none => exact ⟨rfl, fun file bb h => by cases h⟩
  | some out =>
    obtain ⟨hlen, file, forest, e1, e2, e3, e4, e5⟩ := run_out_read (r := r) hr hvet rfl hcores hok hnt
      (fun g hg => by have := hc.tidy g hg; cases g <;> exact this)
      (fun cs => by
        show Plain ((f.findPredicted cs).getD "").toList
        cases hfp : f.findPredicted cs with
        | none => exact plain_empty
        | some p =>
          unfold CatFeature.findPredicted at hfp
          obtain ⟨m, -, hb⟩ := Option.bind_eq_some_iff.1 hfp
          exact (htidy.2 p (List.mem_of_getElem? hb)).1) (by
        show Plain a.target.toList
        rw [← hn]
        exact htidy.1) ord hord a.progress hrun
    have hlen : out.length = max a.nCores a.nTrees := hlen
    have e1 : growforestFile nt ord a.progress a.target none (out.map (·.1)) = some file := e1
    have hbox := test_applied (o := o) hp htest (nCats := f.cm.nCats) (out := out)
      (runCores_new (show r.nTrees ≤ a.nCores from hone) hrun) e2 e4 e5 hchoose
    simp only [Option.bind_some, e1, kept_each hone pick (trees := out.map (·.1)) (by rw [List.length_map]; exact hlen), hbox]
    refine ⟨?_, fun file' bb h counted shown err lines hw => ?_⟩
    · cases applyCommand nt o file (test.getD text) <;> rfl
    · obtain ⟨bb', h1, h⟩ := Option.bind_eq_some_iff.1 h
      cases h
      obtain ⟨⟨forest', bb''⟩, h2, h3⟩ := Option.map_eq_some_iff.1 h1
      have h3 : bb'' = bb := h3
      subst h3
      obtain ⟨fm2, hp2, hi2⟩ := hfind _ rfl
      have hforest : forest' = forest := by
        simp only [applyCommand, hp2, e2, Option.bind_eq_bind, Option.bind_some] at h2
        obtain ⟨x, -, h2⟩ := Option.bind_eq_some_iff.1 h2
        cases h2
        rfl
      exact test_error h2 (hforest ▸ e3) hp2 hi2 hw

/-- **C172, numbers.** The same for a numerical target. -/
theorem c172_numbers_partial [FloorRing K] {nt : NumText K} (hnt : ∀ x, nt.Faithful x) {ord : Splitter K → List String}
    (hord : ∀ s : Splitter K, (ord s).Perm s.left) {order : List Nat → List Nat} (horder : ∀ bag, (order bag).Perm bag)
    {text : Text} {fm : FeatureMatrix K} (hp : parseAFM nt text = some fm) {a : GrowArgs} (hc : fm.Clean a.target)
    {f : NumFeature K} (hf : .num f ∈ fm.data) (hn : f.name = a.target) (hids : a.target ∉ a.blacklist) (hbal : a.balance = false)
    {m l s : Int}
    (hm : inferMTry nt a.mTry (allowedFeatures fm a.blacklist a.target a.block a.incl).length = some m)
    (hmle : m ≤ (allowedFeatures fm a.blacklist a.target a.block a.incl).length)
    (hl : inferLeafSize nt a.leafSize false 0 (nKnown f.missing) = some l)
    (hs : inferNSamples nt a.nSamples (nKnown f.missing) = some s) (hcores : 1 ≤ a.nCores)
    (hvet : ¬ (a.vet = true ∧ a.evaloob = true)) (draws : Nat) (log : XF K → XF K) (own global : Nat → Rng) (pick : Nat → Nat)
    (hone : a.nTrees ≤ a.nCores) {test : Option Text}
    (htest : ∀ text2, test = some text2 → ∃ fm2 : FeatureMatrix K, parseAFM nt text2 = some fm2 ∧ (fm2.map a.target).isSome = true)
    {o : ApplyOptions} (hsum : o.sum = false) (hcat : o.cat = false) :
    growTestCommand nt log ord a draws order text test own global pick =
      ((growCommand nt log ord { a with dotest := true } draws order text own global pick).bind fun file =>
        (applyCommand nt o file (test.getD text)).map fun x => (file, x.2)) ∧
    ∀ file bb, growTestCommand nt log ord a draws order text test own global pick = some (file, bb) →
      ∀ (counted shown : Nat → Option String) err lines, applyWhole nt o file (test.getD text) counted shown = some (err, lines) →
        ∃ e, err = some e ∧ printedTestError nt a.target (test.getD text) bb counted = some e := by
  obtain ⟨ti, b, hP⟩ := prepared (a := { a with dotest := true }) hp hc hf hn hids
  have hl1 := inferLeafSize_pos hl
  obtain ⟨i, hi⟩ := hc.known _ hf hn
  have hi : f.missing[i]? = some false := hi
  have hN : a.target.toList.head? = some 'N' := by
    rw [← hn]
    exact parsed_num_name hp hf
  have hchoose : ∀ n, chooseBox (K := K) o a.target n = oobBox 0 n := fun n => by
    rw [(chooseBox_eq o a.target n).2.2 hsum hcat (.inr hN), oobBox, if_pos rfl]
  obtain ⟨hfin, L, good, hr, hok⟩ := num_ready (a := { a with dotest := true }) (m := m.toNat) (l := l.toNat) (s := s.toNat) hp hc hf hn
    hP (by have : m ≤ ((allowedFeatures fm a.blacklist a.target a.block a.incl).length : Int) := hmle
           show m.toNat ≤ (allowedFeatures fm a.blacklist a.target a.block a.incl).length
           omega) (by omega) horder draws
  let r := GrowArgs.numRun { a with dotest := true } nt fm f m.toNat l.toNat s.toNat draws order
  have hcmd : growCommand nt log ord { a with dotest := true } draws order text own global pick =
      (r.runCores r.grower a.nCores (nKnown f.missing) 0 (candidates fm ti b.marks) own global pick).bind fun out =>
      growforestFile nt ord a.progress a.target none (out.map (·.1)) := by
    simp only [growCommand, hp, hP.chosen, hP.count, hm, hP.target, hl, hs, hbal, Option.bind_eq_bind, Option.bind_some]
    rfl
  have htst : growTestCommand nt log ord a draws order text test own global pick =
      (r.runCores r.grower a.nCores (nKnown f.missing) 0 (candidates fm ti b.marks) own global pick).bind fun out =>
      (growforestFile nt ord a.progress a.target none (out.map (·.1))).bind fun file =>
      (testBox nt fm a.target test 0 (keptTrees (treeObjects a.nTrees (max a.nCores a.nTrees) a.nCores pick
        ((List.range a.nCores).map fun w => (w, 0))) (out.map (·.1)))).bind fun bb => some (file, bb) := by
    simp only [growTestCommand, hp, hP.chosen, hP.count, hm, hP.target, hl, hs, hbal, Option.bind_eq_bind, Option.bind_some, Option.bind_assoc]
    rfl
  have htidy := hc.tidy _ hf
  have hfind : ∀ text2, test.getD text = text2 → ∃ fm2 : FeatureMatrix K, parseAFM nt text2 = some fm2 ∧ (fm2.map a.target).isSome = true := by
    rintro text2 rfl
    cases test with
    | none =>
      obtain ⟨i, h1, -⟩ := target_found hp hc.names hf
      exact ⟨fm, hp, by rw [← hn]; exact (congrArg Option.isSome h1).trans rfl⟩
    | some t => exact htest t rfl
  rw [hcmd, htst]
  cases hrun : r.runCores r.grower a.nCores (nKnown f.missing) 0 (candidates fm ti b.marks) own global pick with
  | none => exact ⟨rfl, fun file bb h => by cases h⟩
  | some out =>
    obtain ⟨hlen, file, forest, e1, e2, e3, e4, e5⟩ := run_out_read (r := r) hr hvet rfl hcores hok hnt
      (fun g hg => by have := hc.tidy g hg; cases g <;> exact this)
      (fun cs => by
        show Plain ((f.findPredicted nt cs).getD "").toList
        cases hfp : f.findPredicted nt cs with
        | none => exact plain_empty
        | some p =>
          unfold NumFeature.findPredicted at hfp
          obtain ⟨m, -, hb⟩ := Option.bind_eq_some_iff.1 hfp
          cases hb
          rw [Option.getD_some, String.toList_ofList]
          exact (hnt m).1) (by
        show Plain a.target.toList
        rw [← hn]
        exact htidy) ord hord a.progress hrun
    have hlen : out.length = max a.nCores a.nTrees := hlen
    have e1 : growforestFile nt ord a.progress a.target none (out.map (·.1)) = some file := e1
    have hbox := test_applied (o := o) hp htest (nCats := 0) (out := out)
      (runCores_new (show r.nTrees ≤ a.nCores from hone) hrun) e2 e4 e5 hchoose
    simp only [Option.bind_some, e1, kept_each hone pick (trees := out.map (·.1)) (by rw [List.length_map]; exact hlen), hbox]
    refine ⟨?_, fun file' bb h counted shown err lines hw => ?_⟩
    · cases applyCommand nt o file (test.getD text) <;> rfl
    · obtain ⟨bb', h1, h⟩ := Option.bind_eq_some_iff.1 h
      cases h
      obtain ⟨⟨forest', bb''⟩, h2, h3⟩ := Option.map_eq_some_iff.1 h1
      have h3 : bb'' = bb := h3
      subst h3
      obtain ⟨fm2, hp2, hi2⟩ := hfind _ rfl
      have hforest : forest' = forest := by
        simp only [applyCommand, hp2, e2, Option.bind_eq_bind, Option.bind_some] at h2
        obtain ⟨x, -, h2⟩ := Option.bind_eq_some_iff.1 h2
        cases h2
        rfl
      exact test_error h2 (hforest ▸ e3) hp2 hi2 hw

/-- With more trees than workers one tree of the file does not vote, and a later one votes twice. -/
theorem c172_lost [FloorRing K] {nt : NumText K} {log : XF K → XF K} {ord : Splitter K → List String} {a : GrowArgs} {draws : Nat}
    {order : List Nat → List Nat} {text file : Text} {test : Option Text} {own global : Nat → Rng} {pick : Nat → Nat} {bb : Box K}
    (hcores : 1 ≤ a.nCores) (hmore : a.nCores < a.nTrees)
    (h : growTestCommand nt log ord a draws order text test own global pick = some (file, bb)) :
    ∃ (fm : FeatureMatrix K) (trees : List (Tree K)) (nCats j k : Nat) (t : Tree K), parseAFM nt text = some fm ∧ trees.length = a.nTrees ∧
      growforestFile nt ord a.progress a.target none trees = some file ∧ j < k ∧ trees[k]? = some t ∧
      testBox nt fm a.target test nCats (trees.set j t) = some bb := by
  unfold growTestCommand at h
  simp only [Option.bind_eq_bind] at h
  obtain ⟨fm, hp, h⟩ := Option.bind_eq_some_iff.1 h
  obtain ⟨⟨ti, b⟩, -, h⟩ := Option.bind_eq_some_iff.1 h
  obtain ⟨m, -, h⟩ := Option.bind_eq_some_iff.1 h
  obtain ⟨target, -, h⟩ := Option.bind_eq_some_iff.1 h
  have key : ∀ (out : List (Tree K × List Nat)) (nCats : Nat), out.length = max a.nCores a.nTrees →
      ((growforestFile nt ord a.progress a.target none (out.map (·.1))).bind fun file =>
        (testBox nt fm a.target test nCats (keptTrees (treeObjects a.nTrees (max a.nCores a.nTrees) a.nCores pick
          ((List.range a.nCores).map fun w => (w, 0))) (out.map (·.1)))).bind fun bb => some (file, bb)) = some (file, bb) →
      ∃ (fm : FeatureMatrix K) (trees : List (Tree K)) (nCats j k : Nat) (t : Tree K), parseAFM nt text = some fm ∧ trees.length = a.nTrees ∧
        growforestFile nt ord a.progress a.target none trees = some file ∧ j < k ∧ trees[k]? = some t ∧
        testBox nt fm a.target test nCats (trees.set j t) = some bb := by
    intro out nCats hlen h
    obtain ⟨file', hfile, h⟩ := Option.bind_eq_some_iff.1 h
    obtain ⟨bb', hbb, h⟩ := Option.bind_eq_some_iff.1 h
    cases h
    have hl2 : (out.map (·.1)).length = max a.nCores a.nTrees := by rw [List.length_map, hlen]
    obtain ⟨j, k, t, h1, h2, h3⟩ := kept_twice hcores hmore pick hl2
    refine ⟨fm, out.map (·.1), nCats, j, k, t, hp, by rw [hl2]; omega, hfile, h1, h2, ?_⟩
    rw [← h3]
    exact hbb
  cases target with
  | cat f =>
    obtain ⟨how, -, h⟩ := Option.bind_eq_some_iff.1 h
    obtain ⟨l, -, h⟩ := Option.bind_eq_some_iff.1 h
    obtain ⟨s, -, h⟩ := Option.bind_eq_some_iff.1 h
    obtain ⟨out, hrun, h⟩ := Option.bind_eq_some_iff.1 h
    exact key out f.cm.nCats (runCores_length hcores hmore hrun) h
  | num f =>
    simp only at h
    split at h
    · cases h
    · obtain ⟨l, -, h⟩ := Option.bind_eq_some_iff.1 h
      obtain ⟨s, -, h⟩ := Option.bind_eq_some_iff.1 h
      obtain ⟨out, hrun, h⟩ := Option.bind_eq_some_iff.1 h
      exact key out 0 (runCores_length hcores hmore hrun) h

/-! ## Examples -/

/-- Other data with the classes of `C:k` in the other order. -/
def exTestTable : Text := ".\tC:k\tN:x\tC:y\np\tv\t01\tno\nq\tu\t0111\tyes\nr\tv\t011\tno\n".toList

/-- The classes or means and the error by growforest. The bags are those given. -/
def exTested (a : GrowArgs) (bags : List Nat) (test : Option Text) : Option (List (Option String) × Option (XF ℚ)) :=
  (growTestCommand exStrokes id (fun s => s.left) a 30 id exAfmTable test (fun _ k => 5 * k + 1) (fun _ k => bags.getD k 0) id).map fun x =>
    ((List.range 5).map (firstTally exStrokes (⟨"", [], .fin 0⟩, x.2)),
      printedTestError exStrokes a.target (test.getD exAfmTable) x.2 (firstTally exStrokes (⟨"", [], .fin 0⟩, x.2)))

/-- The error by applyforest, and what it writes, for the file of the same run. -/
def exApplied (a : GrowArgs) (bags : List Nat) (test : Option Text) : Option (Option (XF ℚ) × List (String × String × String)) :=
  (growTestCommand exStrokes id (fun s => s.left) a 30 id exAfmTable test (fun _ k => 5 * k + 1) (fun _ k => bags.getD k 0) id).bind fun y =>
    (applyCommand exStrokes ⟨false, false, false, false⟩ y.1 (test.getD exAfmTable)).bind fun x =>
      applyWhole exStrokes ⟨false, false, false, false⟩ y.1 (test.getD exAfmTable) (firstTally exStrokes x) (firstTally exStrokes x)

/-- The other conditions of the theorems are those of `c140_classes_partial` and `c140_numbers_partial`, shown there for this table. One worker grows one tree;
both programs print the error 0 for the table itself and for the other data, and 17/9 for numbers. -/
example : ({ exGrowArgs with nTrees := 1 } : GrowArgs).nTrees ≤ ({ exGrowArgs with nTrees := 1 } : GrowArgs).nCores ∧
    (∃ fm2 : FeatureMatrix ℚ, parseAFM exStrokes exTestTable = some fm2 ∧ (fm2.map "C:y").isSome = true ∧ (fm2.map "N:x").isSome = true) ∧
    exTested { exGrowArgs with nTrees := 1 } [0, 2, 3, 1] none =
      some ([some "yes", some "yes", some "no", some "no", some "yes"], some (.fin 0)) ∧
    (exApplied { exGrowArgs with nTrees := 1 } [0, 2, 3, 1] none).map (·.1) = some (some (.fin 0)) ∧
    exTested { exGrowArgs with nTrees := 1 } [0, 2, 3, 1] (some exTestTable) = some ([some "no", some "yes", some "no", none, none], some (.fin 0)) ∧
    exApplied { exGrowArgs with nTrees := 1 } [0, 2, 3, 1] (some exTestTable) =
      some (some (.fin 0), [("p", "no", "no"), ("q", "yes", "yes"), ("r", "no", "no")]) ∧
    exTested { exGrowNums with nTrees := 1 } [0, 1, 0, 3] (some exTestTable) =
      some ([some "011", some "01111dd", some "011", none, none], some (.fin (17 / 9))) ∧
    (exApplied { exGrowNums with nTrees := 1 } [0, 1, 0, 3] (some exTestTable)).map (·.1) = some (some (.fin (17 / 9))) := by
  refine ⟨by decide, ?_, by decide +kernel, by decide +kernel, by decide +kernel, by decide +kernel, by decide +kernel, by decide +kernel⟩
  have h : (parseAFM exStrokes exTestTable).any (fun fm2 => (fm2.map "C:y").isSome && (fm2.map "N:x").isSome) = true := by decide +kernel
  obtain ⟨fm2, h1, h2⟩ := (Option.any_eq_true _ _).1 h
  exact ⟨fm2, h1, by simpa using h2⟩

/-- The conditions of `c172_lost` hold for two trees by one worker. -/
example : 1 ≤ exGrowArgs.nCores ∧ exGrowArgs.nCores < exGrowArgs.nTrees ∧
    (growTestCommand exStrokes id (fun s => s.left) exGrowArgs 30 id exAfmTable none (fun _ k => 5 * k + 1) (fun _ k => [0, 2, 3, 1, 0, 1, 0, 1].getD k 0)
      id).isSome = true ∧
    keptTrees (treeObjects 3 3 1 id [(0, 0)]) ["first", "second", "third"] = ["first", "third", "third"] ∧
    keptTrees (treeObjects 4 4 2 (fun k => [0, 1, 1, 0].getD k 0) [(0, 0), (1, 0)]) ["a", "b", "c", "d"] = ["a", "c", "c", "d"] := by
  refine ⟨by decide, by decide, by decide +kernel, by decide +kernel, by decide +kernel⟩

/-- **C172 is false of the code.** One worker, two trees. With the bags a, c, d, b and a, b, a, b growforest with `-selftest` prints the error 1 where applyforest,
with the forest it wrote, has no error: the second tree, a leaf, is grown over the first, which is lost, and a leaf above old nodes does not vote. With the bags the other
way round growforest prints 0, and applyforest 1/2, as the first tree, which is wrong, is lost. -/
theorem c172_error : exTested exGrowArgs [0, 2, 3, 1, 0, 1, 0, 1] none = some ([some "NA", some "NA", some "NA", some "NA", some "NA"], some (.fin 1)) ∧
    exApplied exGrowArgs [0, 2, 3, 1, 0, 1, 0, 1] none =
      some (some (.fin 0), [("a", "yes", "yes"), ("b", "yes", "yes"), ("c", "no", "no"), ("d", "no", "no"), ("e", "yes", "NA")]) ∧
    exTested exGrowArgs [0, 1, 0, 1, 0, 2, 3, 1] none = some ([some "yes", some "yes", some "no", some "no", some "yes"], some (.fin 0)) ∧
    (exApplied exGrowArgs [0, 1, 0, 1, 0, 2, 3, 1] none).map (·.1) = some (some (.fin (1 / 2))) := by
  refine ⟨by decide +kernel, by decide +kernel, by decide +kernel, by decide +kernel⟩

end CloudForest
