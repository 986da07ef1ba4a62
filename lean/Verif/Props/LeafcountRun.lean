import Verif.Lemmas.LeafcountRun
import Verif.Spec.LeafcountRun
import Verif.Props.Leafcount
import Verif.Props.Commands

/-!
# C141: leafcount with any number of threads
-/

set_option linter.unusedSectionVars false

namespace CloudForest
variable {K : Type} [Field K] [LinearOrder K] [IsStrictOrderedRing K]

/-! ## Proof -/

theorem whole_usable {fm : FeatureMatrix K} {cases : List Nat}
    (hM : ∀ f ∈ fm.data, f.MissingSound ∧ ∀ c ∈ cases, f.ValidCase c) (hI : fm.Indexed) (hne : fm.data ≠ []) :
    ∀ {n : Node K}, Whole n → Usable fm cases n := by
  intro n
  induction n with
  | nil => intro h; exact h
  | mk coded fi l r m pred spl ihl ihr ihm =>
    intro h
    obtain ⟨rfl, h⟩ := h
    cases spl with
    | none => exact h
    | some s =>
      obtain ⟨h1, h2, h3⟩ := h
      have hf : ∃ f, fm.featureOf s = some f := by
        unfold FeatureMatrix.featureOf
        cases hm : fm.map s.feature with
        | none => exact ⟨_, List.getElem?_eq_getElem (List.length_pos_of_ne_nil hne)⟩
        | some i =>
          obtain ⟨f, e, -⟩ := hI.sound _ _ hm
          exact ⟨f, e⟩
      obtain ⟨f, e⟩ := hf
      have hmem : f ∈ fm.data := List.mem_of_getElem? e
      exact ⟨⟨f, e, (hM f hmem).1, (hM f hmem).2⟩, ihl h1, ihr h2, h3.imp id ihm⟩

theorem fileJob_holds {nt : NumText K} {fm : FeatureMatrix K} {text : Text} {forest : Forest K} (h : Holds nt text forest) :
    fileJob nt fm text = forestJob fm forest.trees := by
  obtain ⟨rest, h⟩ := h
  simp [fileJob, h]

theorem jobs_calls {nt : NumText K} {fm : FeatureMatrix K} {n : Nat} (hc : fm.allCases = some (List.range n)) {files : List Text}
    {forests : List (Forest K)} (hf : List.Forall₂ (Holds nt) files forests)
    (hu : ∀ F ∈ forests, ∀ t ∈ F.trees, Usable fm (List.range n) t.root) :
    ∃ jobs, files.mapM (fileJob nt fm) = some jobs ∧ ∃ a, leafCalls fm (forests.flatMap (·.trees)) = some a ∧
      jobs.flatten.filterMap LeafCall.pair? = a.1 ∧ jobs.flatten.filterMap LeafCall.feature? = a.2 := by
  induction hf with
  | nil => exact ⟨[], rfl, _, rfl, rfl, rfl⟩
  | @cons text F files forests h hf ih =>
    obtain ⟨jobs, h1, a, h2, h3, h4⟩ := ih fun F' hF => hu F' (List.mem_cons_of_mem _ hF)
    obtain ⟨ps, fs, h5, -, -⟩ := leafCalls_ok fm n hc F.trees (hu F List.mem_cons_self)
    obtain ⟨job, h6, h7, h8⟩ := forestJob_calls fm F.trees h5
    refine ⟨job :: jobs, by simp [fileJob_holds h, h6, h1], (ps ++ a.1, fs ++ a.2), ?_, ?_, ?_⟩
    · rw [List.flatMap_cons]
      exact leafCalls_append fm _ _ h5 h2
    · rw [List.flatten_cons, List.filterMap_append, h7, h3]
    · rw [List.flatten_cons, List.filterMap_append, h8, h4]

theorem parsed_matrix {nt : NumText K} {text : Text} {fm : FeatureMatrix K} (hp : parseAFM nt text = some fm) (hne : fm.data ≠ []) :
    fm.allCases = some (List.range fm.caseLabels.length) ∧
      (∀ f ∈ fm.data, f.MissingSound ∧ ∀ c ∈ List.range fm.caseLabels.length, f.ValidCase c) ∧ fm.Indexed := by
  obtain ⟨hR, hI⟩ := c139_afm nt text fm hp
  refine ⟨?_, fun f hf => ⟨?_, fun c hc => ?_⟩, hI⟩
  · unfold FeatureMatrix.allCases
    cases hd : fm.data with
    | nil => exact absurd hd hne
    | cons g gs =>
      rw [← hR.lengths g (by rw [hd]; exact List.mem_cons_self)]
      rfl
  · have hcons := hR.consistent f hf
    cases f with
    | cat f => exact fun c h => CatFeature.Consistent.missing hcons c h
    | num f => exact fun c h => NumFeature.Consistent.missing hcons c h
  · have hl := hR.lengths f hf
    have hcons := hR.consistent f hf
    rw [List.mem_range, ← hl] at hc
    cases f with
    | cat f =>
      have h1 : c < f.missing.length := hc
      exact ⟨h1, by rw [CatFeature.Consistent.lengths hcons]; exact h1, fun k h2 h3 => CatFeature.Consistent.valid hcons c k h2 h3⟩
    | num f =>
      have h1 : c < f.missing.length := hc
      exact ⟨h1, by rw [NumFeature.Consistent.lengths hcons]; exact h1⟩

/-! ## C141 -/

/-- **C141, the tables.** leafcount reads the data and the files of some forests, with any number of threads under any schedule. If it
gets to writing, then in whatever order the maps are written, the first table has a line for each two cases that share a leaf
in some tree of some file, with the number of such trees, and no other line; the second has for each case and feature the number of
times the case is split by the feature, in all trees of all files, unless that is zero. -/
theorem c141_tables {nt : NumText K} {data : Text} {fm : FeatureMatrix K} (hp : parseAFM nt data = some fm)
    {files : List Text} {forests : List (Forest K)} (hf : List.Forall₂ (Holds nt) files forests)
    (hw : ∀ F ∈ forests, ∀ t ∈ F.trees, Whole t.root) (threads : Int) (sched : List LeafStep)
    {pairs features : List ((Nat × Nat) × Int)} (h : leafcountCommand nt threads data files sched = some (pairs, features)) :
    (∀ lines, WriteTsv pairs lines → (lines.map (·.1)).Nodup ∧ ∀ a b v, ((a, b), v) ∈ lines ↔
      a < fm.caseLabels.length ∧ b < fm.caseLabels.length ∧
        v = (((forests.flatMap (·.trees)).filter fun t => together fm t a b).length : Int) ∧ 0 < v) ∧
    ((∀ F ∈ forests, ∀ t ∈ F.trees, ∀ c < fm.caseLabels.length, ∀ nm ∈ consulted fm t.root c, fm.map nm ≠ none) →
      ∀ lines, WriteTsv features lines → (lines.map (·.1)).Nodup ∧
        (∀ a nm j v, fm.map nm = some j → (((a, j), v) ∈ lines ↔ a < fm.caseLabels.length ∧
          v = ((((forests.flatMap (·.trees)).map fun t => (consulted fm t.root a).count nm).sum : Nat) : Int) ∧ 0 < v)) ∧
        ∀ a j v, ((a, j), v) ∈ lines → ∃ nm, fm.map nm = some j) := by
  have hne : fm.data ≠ [] := by
    rintro e
    simp [leafcountCommand, hp, e] at h
  obtain ⟨hc, hM, hI⟩ := parsed_matrix hp hne
  have hu : ∀ F ∈ forests, ∀ t ∈ F.trees, Usable fm (List.range fm.caseLabels.length) t.root :=
    fun F hF t ht => whole_usable hM hI hne (hw F hF t ht)
  have hu' : ∀ t ∈ forests.flatMap (·.trees), Usable fm (List.range fm.caseLabels.length) t.root := by
    intro t ht
    obtain ⟨F, hF, ht⟩ := List.mem_flatMap.1 ht
    exact hu F hF t ht
  obtain ⟨jobs, h1, a, h2, h3, h4⟩ := jobs_calls hc hf hu
  unfold leafcountCommand at h
  simp only [hp, h1, Option.bind_eq_bind, Option.bind_some] at h
  obtain ⟨-, -, h⟩ := Option.bind_eq_some_iff.1 h
  obtain ⟨s, h5, h⟩ := Option.bind_eq_some_iff.1 h
  split at h
  · rename_i hr
    have hlen : files.length = jobs.length := (mapM_results h1).1.symm
    obtain ⟨g1, -⟩ := (LeafInv.start threads jobs).run h5
    obtain ⟨g2, -⟩ := g1.finished (by rw [hr, hlen])
    simp only [Option.some.injEq, Prod.mk.injEq] at h
    obtain ⟨rfl, rfl⟩ := h
    have p1 := g2.filterMap LeafCall.pair?
    have p2 := g2.filterMap LeafCall.feature?
    rw [h3] at p1
    rw [h4] at p2
    constructor
    · obtain ⟨calls, fcalls, e1, e2⟩ := c99_pairs fm _ hc _ hu'
      rw [h2, Option.some.injEq] at e1
      subst e1
      exact e2 _ p1
    · intro hk
      obtain ⟨calls, fcalls, e1, e2⟩ := c100_features fm _ hc _ hu' (fun nm nm' i i1 i2 => by
        obtain ⟨f, j1, rfl⟩ := hI.sound _ _ i1
        obtain ⟨f', j2, rfl⟩ := hI.sound _ _ i2
        rw [j1, Option.some.injEq] at j2
        rw [j2]) (fun t ht => by
        obtain ⟨F, hF, ht⟩ := List.mem_flatMap.1 ht
        exact hk F hF t ht)
      rw [h2, Option.some.injEq] at e1
      subst e1
      exact e2 _ p2
  · cases h

/-- **C141, it ends.** With at least one thread and files that can be read, as long as `main` waits for reports something can go on,
however the threads were scheduled, and the number of steps is limited; so leafcount gets to writing. -/
theorem c141_ends_partial {nt : NumText K} {data : Text} {fm : FeatureMatrix K} (hp : parseAFM nt data = some fm) (hne : fm.data ≠ [])
    {files : List Text} {forests : List (Forest K)} (hf : List.Forall₂ (Holds nt) files forests)
    (hw : ∀ F ∈ forests, ∀ t ∈ F.trees, Whole t.root) (threads : Int) (ht : 0 < threads) :
    ∃ jobs, files.mapM (fileJob nt fm) = some jobs ∧ ∀ sched s, (LeafPool.start threads jobs).run sched = some s →
      sched.length ≤ jobs.flatten.length + 2 * files.length ∧
      (s.reports = files.length → sched.length = jobs.flatten.length + 2 * files.length ∧
        ∃ out, leafcountCommand nt threads data files sched = some out) ∧
      (s.reports ≠ files.length → ∃ a s', s.step a = some s') := by
  obtain ⟨hc, hM, hI⟩ := parsed_matrix hp hne
  obtain ⟨jobs, h1, a, h2, h3, h4⟩ := jobs_calls hc hf fun F hF t ht => whole_usable hM hI hne (hw F hF t ht)
  refine ⟨jobs, h1, fun sched s h => ?_⟩
  have hlen : files.length = jobs.length := (mapM_results h1).1.symm
  obtain ⟨g1, g2⟩ := (LeafInv.start threads jobs).run h
  have h0 : (LeafPool.start threads jobs).left = jobs.flatten.length + 2 * files.length := by
    simp [LeafPool.left, LeafPool.start, LeafPool.taken, LeafPool.busy, List.flatMap_replicate, List.countP_replicate, hlen]
  rw [h0] at g2
  refine ⟨by omega, fun hr => ?_, fun hr => g1.progress ht (by rwa [← hlen])⟩
  obtain ⟨-, g3⟩ := g1.finished (by rw [hr, hlen])
  refine ⟨by omega, (sparseCount (s.made.filterMap LeafCall.pair?), sparseCount (s.made.filterMap LeafCall.feature?)), ?_⟩
  unfold leafcountCommand
  rw [hp, Option.bind_eq_bind, Option.bind_some, List.getElem?_eq_getElem (List.length_pos_iff.2 hne)]
  simp only [h1, h, Option.bind_eq_bind, Option.bind_some, if_pos hr]

/-- **C141 fails without threads.** With `-threads 0`, or a negative number, no step is possible, and there is at least one file name
(`strings.Split`): `main` waits for a report that no one sends, and nothing is written. -/
theorem c141_no_threads (nt : NumText K) (data : Text) {files : List Text} (hf : files ≠ []) {threads : Int} (ht : threads ≤ 0)
    (sched : List LeafStep) : leafcountCommand nt threads data files sched = none := by
  cases h : leafcountCommand nt threads data files sched with
  | none => rfl
  | some out =>
    exfalso
    unfold leafcountCommand at h
    simp only [Option.bind_eq_bind] at h
    obtain ⟨fm, -, h⟩ := Option.bind_eq_some_iff.1 h
    obtain ⟨-, -, h⟩ := Option.bind_eq_some_iff.1 h
    obtain ⟨jobs, -, h⟩ := Option.bind_eq_some_iff.1 h
    obtain ⟨s, h5, h⟩ := Option.bind_eq_some_iff.1 h
    have h0 : threads.toNat = 0 := by omega
    have hno : ∀ a, (LeafPool.start threads jobs).step a = none := by
      intro a
      cases a <;> simp [LeafPool.step, LeafPool.start, h0]
    cases sched with
    | nil =>
      simp only [LeafPool.run, List.foldlM_nil] at h5
      cases h5
      have : files.length ≠ 0 := fun e => hf (List.length_eq_zero_iff.1 e)
      simp [LeafPool.start, Ne.symm this] at h
    | cons a sched =>
      simp only [LeafPool.run, List.foldlM_cons, Option.bind_eq_bind, hno a] at h5
      cases h5

/-- A test for `Whole`. -/
def wholeCheck : Node K → Bool
  | .nil => false
  | .mk coded _ l r m _ spl => coded.isNone &&
    match spl with
    | some _ => wholeCheck l && wholeCheck r && (m.isNil || wholeCheck m)
    | none => l.isNil && r.isNil

theorem wholeCheck_ok : ∀ {n : Node K}, wholeCheck n = true → Whole n := by
  intro n
  induction n with
  | nil => intro h; cases h
  | mk coded fi l r m pred spl ihl ihr ihm =>
    intro h
    simp only [wholeCheck, Bool.and_eq_true] at h
    refine ⟨Option.isNone_iff_eq_none.1 h.1, ?_⟩
    have hn : ∀ {n : Node K}, n.isNil = true → n = .nil := by
      intro n hn
      cases n with
      | nil => rfl
      | mk => cases hn
    cases spl with
    | none => simp only [Bool.and_eq_true] at h; exact ⟨hn h.2.1, hn h.2.2⟩
    | some s =>
      simp only [Bool.and_eq_true, Bool.or_eq_true] at h
      exact ⟨ihl h.2.1.1, ihr h.2.1.2, h.2.2.imp hn ihm⟩

/-- A forest of two trees for `exAfmTable`: one that splits by number, one by category and, for "u", by number. -/
def exLeafFile : Text :=
  ("TREE=0,TARGET=C:y\nNODE=*,PRED=yes,SPLITTER=N:x,SPLITTERTYPE=NUMERICAL,LVALUES=0111d,RVALUES=0111d\n" ++
   "NODE=*L,PRED=yes\nNODE=*R,PRED=no\n" ++
   "TREE=1,TARGET=C:y\nNODE=*,PRED=yes,SPLITTER=C:k,SPLITTERTYPE=CATEGORICAL,LVALUES=\"u\"\n" ++
   "NODE=*L,PRED=yes,SPLITTER=N:x,SPLITTERTYPE=NUMERICAL,LVALUES=01,RVALUES=01\n" ++
   "NODE=*LL,PRED=yes\nNODE=*LR,PRED=yes\nNODE=*R,PRED=no\n").toList

/-- Two threads with the same file each, in turns. -/
def exLeafSched : List LeafStep :=
  [.take 1, .take 0] ++ (List.replicate 29 [LeafStep.call 0, .call 1]).flatten ++ [.report 1, .report 0]

/-- The conditions of `c141_tables` and `c141_ends_partial` hold for this table and two files. -/
example : ∃ fm forest, parseAFM exStrokes exAfmTable = some fm ∧ fm.data ≠ [] ∧
    List.Forall₂ (Holds exStrokes) [exLeafFile, exLeafFile] [forest, forest] ∧ forest.trees.length = 2 ∧
    (∀ F ∈ [forest, forest], ∀ t ∈ F.trees, Whole t.root) ∧
    ∀ F ∈ [forest, forest], ∀ t ∈ F.trees, ∀ c < fm.caseLabels.length, ∀ nm ∈ consulted fm t.root c, fm.map nm ≠ none := by
  have h : (parseAFM exStrokes exAfmTable).any (fun fm => !fm.data.isEmpty && (readForest exStrokes exLeafFile).any fun r =>
      decide (r.err = .ok) && r.forest.any fun F => decide (F.trees.length = 2) && F.trees.all (fun t => wholeCheck t.root) &&
        F.trees.all fun t => (List.range fm.caseLabels.length).all fun c => (consulted fm t.root c).all fun nm => (fm.map nm).isSome) = true := by
    decide +kernel
  obtain ⟨fm, h1, h⟩ := (Option.any_eq_true _ _).1 h
  simp only [Bool.and_eq_true] at h
  obtain ⟨h2, h⟩ := h
  obtain ⟨⟨fo, err, rest⟩, h3, h⟩ := (Option.any_eq_true _ _).1 h
  simp only [Bool.and_eq_true, decide_eq_true_eq] at h
  obtain ⟨rfl, h⟩ := h
  obtain ⟨F, h4, h8⟩ := (Option.any_eq_true _ _).1 h
  rw [show fo = some F from h4] at h3
  simp only [Bool.and_eq_true, decide_eq_true_eq, List.all_eq_true] at h8
  obtain ⟨⟨h5, h6⟩, h7⟩ := h8
  have hh : Holds exStrokes exLeafFile F := ⟨rest, h3⟩
  refine ⟨fm, F, h1, by simpa using h2, .cons hh (.cons hh .nil), h5, ?_, ?_⟩
  · intro F' hF t ht
    simp only [List.mem_cons, List.not_mem_nil, or_false, or_self] at hF
    subst hF
    exact wholeCheck_ok (h6 t ht)
  · intro F' hF t ht c hc nm hnm
    simp only [List.mem_cons, List.not_mem_nil, or_false, or_self] at hF
    subst hF
    exact Option.isSome_iff_ne_none.1 (h7 t ht c (List.mem_range.2 hc) nm hnm)

/-- The tables for two threads with a file each: `a` shares its leaves with no one, `c` and `d` share all of theirs. -/
example : leafcountCommand exStrokes 2 exAfmTable [exLeafFile, exLeafFile] exLeafSched =
    some ([((0, 0), 4), ((3, 3), 4), ((3, 2), 4), ((3, 1), 2), ((2, 3), 4), ((2, 2), 4), ((2, 1), 2), ((1, 3), 2), ((1, 2), 2),
        ((1, 1), 4)],
      [((0, 0), 4), ((1, 0), 4), ((2, 0), 2), ((3, 0), 2), ((4, 0), 4), ((0, 1), 2), ((1, 1), 2), ((2, 1), 2),
        ((3, 1), 2), ((4, 1), 2)]) := by
  decide +kernel

/-- One thread for both files gives the same numbers; no thread gives nothing. -/
example : (leafcountCommand exStrokes 1 exAfmTable [exLeafFile, exLeafFile]
      ((List.replicate 2 (.take 0 :: List.replicate 29 (LeafStep.call 0) ++ [.report 0])).flatten)).map (fun o =>
        decide (((2, 3), 4) ∈ o.1 ∧ ((2, 1), 2) ∈ o.1 ∧ o.1.length = 10 ∧ o.2.length = 10)) = some true ∧
    leafcountCommand exStrokes 0 exAfmTable [exLeafFile] [.take 0] = none := by
  decide +kernel

end CloudForest
