import Verif.Lemmas.Leafcount
import Verif.Props.Concurrent
import Verif.Props.Sf

/-!
# C99–C102: leafcount, and features that are not in the data
-/

set_option linter.unusedSectionVars false

namespace CloudForest
variable {K : Type} [Field K] [LinearOrder K] [IsStrictOrderedRing K]

/-! ## The cases that share leaves -/

/-- The calls for all trees exist; a pair of cases is called once for each tree in which they share a leaf, and a case
with a feature as often as the feature is consulted for it. -/
theorem leafCalls_ok (fm : FeatureMatrix K) (n : Nat) (hc : fm.allCases = some (List.range n)) (trees : List (Tree K))
    (hu : ∀ t ∈ trees, Usable fm (List.range n) t.root) :
    ∃ ps fs, leafCalls fm trees = some (ps, fs) ∧
      (∀ a b, ps.count (a, b) =
        (trees.filter fun t => decide (a < n) && decide (b < n) && together fm t a b).length) ∧
      fs.Perm (trees.flatMap fun t =>
        (List.range n).flatMap (caseCalls fm (fun nm => (fm.map nm).getD 0) t.root)) := by
  induction trees with
  | nil => exact ⟨[], [], rfl, by simp, .nil⟩
  | cons t ts ih =>
    obtain ⟨ps, fs, h1, h2, h3⟩ := treeCalls_ok fm t n hc (hu t (by simp))
    obtain ⟨ps', fs', h1', h2', h3'⟩ := ih fun t' ht => hu t' (by simp [ht])
    refine ⟨ps ++ ps', fs ++ fs', by simp [leafCalls, h1, h1'], fun a b => ?_, ?_⟩
    · rw [List.count_append, h2, h2', List.filter_cons]
      by_cases h : a < n ∧ b < n ∧ together fm t a b = true
      · rw [if_pos h, if_pos (by simp [h])]
        simp only [List.length_cons]
        omega
      · rw [if_neg h, if_neg (by simpa [and_assoc] using h)]
        omega
    · rw [List.flatMap_cons]
      exact h3.append h3'

/-- C99. The co-occurrence file has one line for each pair of cases that share a leaf somewhere, and no other; its
number is the number of trees in which they do. In whatever order the threads made their calls, and in whatever order
the map is written. -/
theorem c99_pairs (fm : FeatureMatrix K) (n : Nat) (hc : fm.allCases = some (List.range n)) (trees : List (Tree K))
    (hu : ∀ t ∈ trees, Usable fm (List.range n) t.root) :
    ∃ calls fcalls, leafCalls fm trees = some (calls, fcalls) ∧ ∀ calls' : List (Nat × Nat), calls'.Perm calls →
      ∀ lines, WriteTsv (sparseCount calls') lines →
        (lines.map (·.1)).Nodup ∧
        ∀ a b v, ((a, b), v) ∈ lines ↔
          a < n ∧ b < n ∧ v = ((trees.filter fun t => together fm t a b).length : Int) ∧ 0 < v := by
  obtain ⟨ps, fs, h1, h2, -⟩ := leafCalls_ok fm n hc trees hu
  refine ⟨ps, fs, h1, fun calls' hp lines hl => ?_⟩
  obtain ⟨h3, h4⟩ := sparseCount_ok calls'
  refine ⟨(hl.map _).nodup_iff.2 h3, fun a b v => ?_⟩
  rw [hl.mem_iff, h4, hp.mem_iff, hp.count_eq, h2, ← List.count_pos_iff, h2]
  by_cases hab : a < n ∧ b < n
  · simp only [hab.1, hab.2, decide_true, Bool.true_and, true_and]
    constructor
    · rintro ⟨h, rfl⟩; exact ⟨rfl, by omega⟩
    · rintro ⟨rfl, h⟩; exact ⟨by omega, rfl⟩
  · constructor
    · rintro ⟨h, -⟩
      obtain ⟨t, ht⟩ := List.exists_mem_of_length_pos h
      have := (List.mem_filter.1 ht).2
      simp only [Bool.and_eq_true, decide_eq_true_eq] at this
      exact absurd this.1 hab
    · rintro ⟨ha, hb, -⟩
      exact absurd ⟨ha, hb⟩ hab

/-- The matrix has five cases; the tree can be used on them. -/
theorem exTree_all : exFM.allCases = some (List.range 5) ∧ Usable exFM (List.range 5) exTree.root := by
  have hv : ∀ c ∈ List.range 5, (Feature.cat (K := ℚ) exCat).ValidCase c := by
    intro c hc
    apply exCat_valid
    revert c; decide
  exact ⟨by decide, ⟨⟨.cat exCat, rfl, trivial, fun _ _ => rfl, hv⟩, ⟨⟨.cat exCat, rfl,
    fun _ _ => rfl, hv⟩, ⟨rfl, rfl⟩, ⟨rfl, rfl⟩, .inl rfl⟩, ⟨rfl, rfl⟩, .inr ⟨rfl, rfl⟩⟩⟩

example : ((leafCalls exFM [exTree, exTree]).map fun c => sparseCount c.1) =
    some [((4, 4), 2), ((4, 1), 2), ((1, 4), 2), ((1, 1), 2), ((3, 3), 2), ((0, 0), 2), ((2, 2), 2)] := by
  decide +kernel

/-- C99, as a measure of proximity. The file is symmetric, and the number for two cases is never larger than the
number for a case with itself. -/
theorem c99_symmetric (fm : FeatureMatrix K) (n : Nat) (hc : fm.allCases = some (List.range n))
    (trees : List (Tree K)) (hu : ∀ t ∈ trees, Usable fm (List.range n) t.root) :
    ∃ calls fcalls, leafCalls fm trees = some (calls, fcalls) ∧ ∀ calls' : List (Nat × Nat), calls'.Perm calls →
      ∀ lines, WriteTsv (sparseCount calls') lines →
        ∀ a b v, ((a, b), v) ∈ lines → ((b, a), v) ∈ lines ∧ ∃ w, ((a, a), w) ∈ lines ∧ v ≤ w := by
  obtain ⟨calls, fcalls, h1, h2⟩ := c99_pairs fm n hc trees hu
  refine ⟨calls, fcalls, h1, fun calls' hp lines hl a b v h => ?_⟩
  obtain ⟨-, h3⟩ := h2 calls' hp lines hl
  have hsym : ∀ t : Tree K, together fm t a b = together fm t b a := by
    intro t
    unfold together
    cases landing fm t.root a <;> cases landing fm t.root b <;> simp [Bool.beq_comm]
  have hself : ∀ t : Tree K, together fm t a b = true → together fm t a a = true := by
    intro t ht
    unfold together at ht ⊢
    cases h : landing fm t.root a
    · rw [h] at ht; simp at ht
    · simp
  obtain ⟨ha, hb, hv, hpos⟩ := (h3 a b v).1 h
  have hle : (trees.filter fun t => together fm t a b).length ≤ (trees.filter fun t => together fm t a a).length := by
    rw [← List.countP_eq_length_filter, ← List.countP_eq_length_filter]
    exact List.countP_mono_left fun t _ ht => hself t ht
  refine ⟨(h3 b a v).2 ⟨hb, ha, by simp only [hv, hsym], hpos⟩, _, (h3 a a _).2 ⟨ha, ha, rfl, by omega⟩, by omega⟩

/-! ## The features a case is split by -/

/-- C100. The case by feature file has one line for each case and feature such that the feature is consulted on the
case's way down some tree; its number is how often that happens in all trees. For forests whose features are all in
the data (otherwise see `c102_unknown`). -/
theorem c100_features (fm : FeatureMatrix K) (n : Nat) (hc : fm.allCases = some (List.range n))
    (trees : List (Tree K)) (hu : ∀ t ∈ trees, Usable fm (List.range n) t.root)
    (hinj : ∀ nm nm' i, fm.map nm = some i → fm.map nm' = some i → nm = nm')
    (hknown : ∀ t ∈ trees, ∀ c < n, ∀ nm ∈ consulted fm t.root c, fm.map nm ≠ none) :
    ∃ calls fcalls, leafCalls fm trees = some (calls, fcalls) ∧ ∀ calls' : List (Nat × Nat), calls'.Perm fcalls →
      ∀ lines, WriteTsv (sparseCount calls') lines →
        (lines.map (·.1)).Nodup ∧
        (∀ a nm j v, fm.map nm = some j →
          (((a, j), v) ∈ lines ↔
            a < n ∧ v = (((trees.map fun t => (consulted fm t.root a).count nm).sum : Nat) : Int) ∧ 0 < v)) ∧
        ∀ a j v, ((a, j), v) ∈ lines → ∃ nm, fm.map nm = some j := by
  obtain ⟨ps, fs, h1, -, h2⟩ := leafCalls_ok fm n hc trees hu
  refine ⟨ps, fs, h1, fun calls' hp lines hl => ?_⟩
  obtain ⟨h3, h4⟩ := sparseCount_ok calls'
  have hp' := hp.trans h2
  have hcount : ∀ a nm j, fm.map nm = some j → calls'.count (a, j) =
      if a < n then (trees.map fun t => (consulted fm t.root a).count nm).sum else 0 := by
    intro a nm j hj
    rw [hp'.count_eq, List.count_flatMap]
    have hone : ∀ t ∈ trees, ((List.range n).flatMap
        (caseCalls fm (fun nm => (fm.map nm).getD 0) t.root)).count (a, j) =
        if a < n then (consulted fm t.root a).count nm else 0 := by
      intro t ht
      have hcase : ∀ c, c < n → (caseCalls fm (fun nm => (fm.map nm).getD 0) t.root c).count (a, j) =
          if c = a then (consulted fm t.root a).count nm else 0 := by
        intro c hcn
        unfold caseCalls
        by_cases hca : c = a
        · subst hca
          rw [if_pos rfl, List.count, List.countP_map, List.count]
          apply List.countP_congr
          intro nm' hnm'
          simp only [Function.comp_apply, beq_iff_eq, Prod.mk.injEq, true_and]
          obtain ⟨i, hi⟩ := Option.ne_none_iff_exists'.1 (hknown t ht c hcn nm' hnm')
          rw [hi, Option.getD_some]
          constructor
          · rintro rfl; exact hinj _ _ _ hi hj
          · rintro rfl; exact Option.some.inj (hi.symm.trans hj)
        · rw [if_neg hca, List.count_eq_zero]
          intro hm
          obtain ⟨_, -, he⟩ := List.mem_map.1 hm
          exact hca (congrArg Prod.fst he)
      rw [List.count_flatMap]
      have : (List.map (List.count (a, j) ∘ caseCalls fm (fun nm => (fm.map nm).getD 0) t.root) (List.range n)) =
          (List.range n).map fun c => if c = a then (consulted fm t.root a).count nm else 0 :=
        List.map_congr_left fun c hc => hcase c (List.mem_range.1 hc)
      rw [this]
      clear hcase this
      induction n with
      | zero => simp
      | succ n ih =>
        clear ih
        generalize (consulted fm t.root a).count nm = x
        generalize n + 1 = n
        clear * -
        induction n with
        | zero => simp
        | succ n ih =>
          rw [List.range_succ, List.map_append, List.sum_append, ih]
          by_cases h : n = a
          · subst h; simp
          · by_cases h' : a < n
            · simp [h, h', Nat.lt_succ_of_lt h']
            · have : ¬ a < n + 1 := by omega
              simp [h, h', this]
    have : List.map (List.count (a, j) ∘ fun t => (List.range n).flatMap
        (caseCalls fm (fun nm => (fm.map nm).getD 0) t.root)) trees =
        trees.map fun t => if a < n then (consulted fm t.root a).count nm else 0 :=
      List.map_congr_left hone
    rw [this]
    by_cases ha : a < n
    · simp [ha]
    · simp [ha]
  refine ⟨(hl.map _).nodup_iff.2 h3, fun a nm j v hj => ?_, fun a j v h => ?_⟩
  · rw [hl.mem_iff, h4, ← List.count_pos_iff, hcount a nm j hj]
    by_cases ha : a < n
    · simp only [ha, if_true, true_and]
      constructor
      · rintro ⟨h, rfl⟩; exact ⟨rfl, by omega⟩
      · rintro ⟨rfl, h⟩; exact ⟨by omega, rfl⟩
    · simp [ha]
  · rw [hl.mem_iff, h4] at h
    have hm := hp'.mem_iff.1 h.1
    obtain ⟨t, ht, hm⟩ := List.mem_flatMap.1 hm
    obtain ⟨c, hcn, hm⟩ := List.mem_flatMap.1 hm
    obtain ⟨nm, hnm, he⟩ := List.mem_map.1 hm
    obtain ⟨i, hi⟩ := Option.ne_none_iff_exists'.1 (hknown t ht c (List.mem_range.1 hcn) nm hnm)
    refine ⟨nm, ?_⟩
    have := congrArg Prod.snd he
    simp only [hi, Option.getD_some] at this
    rw [hi, this]

example : ∀ nm nm' i, exFM.map nm = some i → exFM.map nm' = some i → nm = nm' := by
  intro nm nm' i h h'
  by_cases h1 : nm = "f"
  · by_cases h2 : nm' = "f"
    · rw [h1, h2]
    · simp [exFM, h2] at h'
  · simp [exFM, h1] at h

example : (List.range 5).map (consulted exFM exTree.root) =
    [["f"], ["f", "f"], ["f"], ["f", "f"], ["f", "f"]] ∧
    ((leafCalls exFM [exTree]).map fun c => sparseCount c.2) =
      some [((0, 0), 1), ((1, 0), 2), ((2, 0), 1), ((3, 0), 2), ((4, 0), 2)] := by
  decide +kernel

/-! ## The splits file -/

theorem climb_splitters (n : Node K) :
    (n.climb.filterMap fun n => match n with | .mk _ _ _ _ _ _ spl => spl | .nil => none) = splittersOf n := by
  induction n with
  | nil => rfl
  | mk coded fi l r m pred spl ihl ihr ihm =>
    rw [Node.climb, List.filterMap_cons, splittersOf]
    cases spl with
    | none => simp [List.filterMap_append, ihl, ihr, ihm]
    | some s => simp [List.filterMap_append, ihl, ihr, ihm]

theorem appendSplit_keys (name split : String) (m : List (String × List String)) (nm : String) :
    nm ∈ (appendSplit name split m).map (·.1) ↔ nm = name ∨ nm ∈ m.map (·.1) := by
  induction m with
  | nil => simp [appendSplit]
  | cons e m ih =>
    obtain ⟨n0, l⟩ := e
    unfold appendSplit
    by_cases h : n0 = name
    · subst h
      simp
    · rw [if_neg h]
      simp only [List.map_cons, List.mem_cons, ih]
      tauto

theorem appendSplit_nodup (name split : String) (m : List (String × List String)) (h : (m.map (·.1)).Nodup) :
    ((appendSplit name split m).map (·.1)).Nodup := by
  induction m with
  | nil => simp [appendSplit]
  | cons e m ih =>
    obtain ⟨n0, l⟩ := e
    rw [List.map_cons, List.nodup_cons] at h
    unfold appendSplit
    by_cases hk : n0 = name
    · rw [if_pos hk]
      simpa using h
    · rw [if_neg hk, List.map_cons, List.nodup_cons]
      refine ⟨fun hm => ?_, ih h.2⟩
      rcases (appendSplit_keys name split m n0).1 hm with h' | h'
      · exact hk h'
      · exact h.1 h'

theorem appendSplit_mem (name split : String) (m : List (String × List String)) (h : (m.map (·.1)).Nodup)
    (nm : String) (l : List String) :
    (nm, l) ∈ appendSplit name split m ↔
      (nm ≠ name ∧ (nm, l) ∈ m) ∨
        (nm = name ∧ ((∃ l', (name, l') ∈ m ∧ l = l' ++ [split]) ∨ name ∉ m.map (·.1) ∧ l = [split])) := by
  induction m with
  | nil => simp [appendSplit]
  | cons e m ih =>
    obtain ⟨n0, l0⟩ := e
    rw [List.map_cons, List.nodup_cons] at h
    have ih := ih h.2
    unfold appendSplit
    by_cases hk : n0 = name
    · subst hk
      rw [if_pos rfl]
      have hno : ∀ w, (n0, w) ∉ m := fun w hw => h.1 (List.mem_map.2 ⟨_, hw, rfl⟩)
      by_cases he : nm = n0
      · subst he
        simp [hno]
      · simp [he]
    · rw [if_neg hk, List.mem_cons, ih]
      by_cases he : nm = name
      · subst he
        have : ¬ (nm = n0) := fun e => hk e.symm
        simp [this]
      · simp only [he, false_and, or_false, ne_eq, not_false_eq_true, true_and, List.mem_cons]

/-- C101. With one thread, the splits file has one entry for each feature that some splitter uses, and no other. The
entry lists a description of each of its splitters, in the order of the trees and within a tree in preorder. -/
theorem c101_splits_partial (nt : NumText K) (keys : Splitter K → List String) (trees : List (Tree K)) :
    ((recordSplits nt keys trees).map (·.1)).Nodup ∧
    ∀ name texts, (name, texts) ∈ recordSplits nt keys trees ↔
      texts ≠ [] ∧ texts = ((trees.flatMap fun t => splittersOf t.root).filter
        fun s => s.feature == name).map (describeSplit nt keys) := by
  have e : recordSplits nt keys trees = (trees.flatMap fun t => splittersOf t.root).foldl
      (fun m s => appendSplit s.feature (describeSplit nt keys s) m) [] := by
    unfold recordSplits
    have : (trees.flatMap fun t => splittersOf t.root) = (trees.flatMap fun t => t.root.climb).filterMap
        fun n => match n with | .mk _ _ _ _ _ _ spl => spl | .nil => none := by
      rw [List.filterMap_flatMap]
      congr 1
      funext t
      exact (climb_splitters t.root).symm
    rw [this, List.foldl_filterMap]
    congr 1
    funext m n
    cases n with
    | nil => rfl
    | mk coded fi l r mm pred spl => cases spl <;> rfl
  rw [e]
  generalize (trees.flatMap fun t => splittersOf t.root) = L
  clear e
  induction L using List.reverseRecOn with
  | nil => simp
  | append_singleton L s ih =>
    obtain ⟨ih1, ih2⟩ := ih
    rw [List.foldl_append, List.foldl_cons, List.foldl_nil]
    refine ⟨appendSplit_nodup _ _ _ ih1, fun name texts => ?_⟩
    rw [appendSplit_mem _ _ _ ih1]
    simp only [ih2, List.filter_append, List.map_append]
    by_cases hn : name = s.feature
    · subst hn
      have hkeys : s.feature ∉ (L.foldl (fun m s => appendSplit s.feature (describeSplit nt keys s) m) []).map (·.1) ↔
          (L.filter fun s' => s'.feature == s.feature).map (describeSplit nt keys) = [] := by
        constructor
        · intro h
          by_contra hne
          exact h (List.mem_map.2 ⟨_, (ih2 _ _).2 ⟨hne, rfl⟩, rfl⟩)
        · intro h hm
          obtain ⟨⟨n, l⟩, hl, rfl⟩ := List.mem_map.1 hm
          have := (ih2 _ _).1 hl
          exact this.1 (this.2.trans h)
      rw [hkeys]
      simp only [ne_eq, not_true_eq_false, false_and, false_or, true_and, List.filter_cons, beq_self_eq_true, if_true,
        List.filter_nil, List.map_cons, List.map_nil]
      constructor
      · rintro (⟨l', ⟨-, rfl⟩, rfl⟩ | ⟨h, rfl⟩)
        · simp
        · simp [h]
      · rintro ⟨-, rfl⟩
        by_cases h : (L.filter fun s' => s'.feature == s.feature).map (describeSplit nt keys) = []
        · exact .inr ⟨h, by rw [h]; rfl⟩
        · exact .inl ⟨_, ⟨h, rfl⟩, rfl⟩
    · have hn' : ¬ s.feature = name := fun h => hn h.symm
      simp [hn, hn']

/-- A tree with a split by number below a split by category. -/
def exTwoKinds : Tree ℚ :=
  { root := .mk none 0
      (.mk none 0 (.mk none 0 .nil .nil .nil "x" none) (.mk none 0 .nil .nil .nil "y" none) .nil ""
        (some ⟨"N:g", true, .fin 2, []⟩))
      (.mk none 0 .nil .nil .nil "z" none)
      .nil "" (some ⟨"C:f", false, .fin 0, ["a", "b"]⟩)
    target := "t", weight := .fin 1 }

example : recordSplits exNums (fun s => s.left) [exTwoKinds, exTwoKinds] =
    [("C:f", ["a,b", "a,b"]), ("N:g", ["2", "2"])] := by decide +kernel

/-- Two threads with one split each for the same feature. -/
def exSplitRace : Sys (Mem Unit (List String)) (List String) := splitSys [[(0, "a")], [(0, "b")]]

/-- **C101 is false of several threads.** Both have appended their split, but the entry holds only one of them: nothing
protects the map (leafcount.go:105). -/
theorem c101_race : ∃ s', exSplitRace.run [0, 1, 0, 1] = some s' ∧ s'.Finished ∧ s'.mem.box 0 = ["b"] := by
  obtain ⟨s', hs'⟩ := Option.isSome_iff_exists.1
    (by decide +kernel : (exSplitRace.run [0, 1, 0, 1]).isSome = true)
  have h1 : (exSplitRace.run [0, 1, 0, 1]).map (fun s => s.threads.map fun th => th.code.length) = some [0, 0] := by
    decide +kernel
  have h2 : (exSplitRace.run [0, 1, 0, 1]).map (fun s => s.mem.box 0) = some ["b"] := by decide +kernel
  rw [hs', Option.map_some, Option.some.injEq] at h1 h2
  refine ⟨s', hs', ?_, h2⟩
  intro th hth
  have : th.code.length ∈ s'.threads.map fun th => th.code.length := List.mem_map.2 ⟨th, hth, rfl⟩
  rw [h1] at this
  simpa using this

/-! ## Features that are not in the data -/

/-- A tree in which the features that are not in the data are replaced by the one named `first`. -/
def replaceUnknown (fm : FeatureMatrix K) (first : String) : Node K → Node K
  | .nil => .nil
  | .mk coded fi l r m pred spl =>
    .mk coded fi (replaceUnknown fm first l) (replaceUnknown fm first r) (replaceUnknown fm first m) pred
      (spl.map fun s => if fm.map s.feature = none then { s with feature := first } else s)

theorem split_unknown (fm : FeatureMatrix K) (first : String) (hf : fm.map first = some 0) (s : Splitter K)
    (hn : fm.map s.feature = none) (cases : List Nat) :
    ({ s with feature := first } : Splitter K).split fm cases = s.split fm cases := by
  have h1 : fm.featureOf { s with feature := first } = fm.featureOf s := by
    simp [FeatureMatrix.featureOf, hf, hn]
  have h2 : ∀ (f : Feature K) (c : Nat), f.goesLeft c { s with feature := first } = f.goesLeft c s := by
    intro f c
    cases f <;> rfl
  simp only [Splitter.split, h1, h2]

theorem nodeSplit_unknown (fm : FeatureMatrix K) (first : String) (hf : fm.map first = some 0)
    (coded : Option (Coded K)) (fi : Nat) (spl : Option (Splitter K)) (cases : List Nat) :
    nodeSplit fm coded fi (spl.map fun s => if fm.map s.feature = none then { s with feature := first } else s) cases =
      nodeSplit fm coded fi spl cases := by
  cases coded with
  | some c => cases spl <;> rfl
  | none =>
    cases spl with
    | none => rfl
    | some s =>
      by_cases h : fm.map s.feature = none
      · simp only [Option.map_some, h, if_true, nodeSplit, split_unknown fm first hf s h]
      · simp only [Option.map_some, h, if_false]

theorem replaceUnknown_isNil (fm : FeatureMatrix K) (first : String) (n : Node K) :
    (replaceUnknown fm first n).isNil = n.isNil := by cases n <;> rfl

theorem replaceUnknown_recurse (fm : FeatureMatrix K) (first : String) (hf : fm.map first = some 0) (n : Node K) :
    ∀ (cs : List Nat) (d : Nat), (replaceUnknown fm first n).recurse fm cs d =
      (n.recurse fm cs d).map fun p =>
        (p.1.map fun v => { v with node := replaceUnknown fm first v.node }, p.2) := by
  induction n with
  | nil => intro cs d; rfl
  | mk coded fi l r m pred spl ihl ihr ihm =>
    intro cs d
    rw [replaceUnknown, Node.recurse, Node.recurse, nodeSplit_unknown fm first hf]
    rcases nodeSplit fm coded fi spl cs with _ | _ | sp
    · rfl
    · rfl
    · simp only [Option.bind_eq_bind, Option.bind_some, ihl, ihr, replaceUnknown_isNil]
      cases l.recurse fm sp.left (d + 1) with
      | none => rfl
      | some vl =>
        cases r.recurse fm sp.right (d + 1) with
        | none => rfl
        | some vr =>
          simp only [Option.map_some, Option.bind_some]
          by_cases hc : (decide (sp.missing.length > 0) && !m.isNil) = true
          · simp only [hc, if_true, ihm]
            cases m.recurse fm sp.missing (d + 1) with
            | none => rfl
            | some vm => simp [replaceUnknown]
          · simp [hc, replaceUnknown]

/-- **C102 is false of the code: a feature that is not in the data is not noticed.** Whatever the tree, the cases are
divided and the votes cast as if every feature missing from the data were the first feature of the data
(splitter.go:31: the map yields 0 for a name it does not hold). -/
theorem c102_unknown (fm : FeatureMatrix K) (first : String) (hf : fm.map first = some 0) (t : Tree K)
    (cases : List Nat) :
    ({ t with root := replaceUnknown fm first t.root } : Tree K).voteCases fm cases = t.voteCases fm cases := by
  unfold Tree.voteCases
  rw [replaceUnknown_recurse fm first hf]
  cases t.root.recurse fm cases 0 with
  | none => rfl
  | some p =>
    simp only [Option.map_some, Option.bind_eq_bind, Option.bind_some, Option.some.injEq, Prod.mk.injEq, and_true]
    rw [List.flatMap_map]
    apply flatMap_congr_mem
    rintro ⟨n, cs, d⟩ -
    have h1 : (replaceUnknown fm first n).isLeaf = n.isLeaf := by
      cases n with
      | nil => rfl
      | mk coded fi l r m pred spl => simp [replaceUnknown, Node.isLeaf, replaceUnknown_isNil]
    have h2 : (replaceUnknown fm first n).predOf = n.predOf := by cases n <;> rfl
    simp only [h1, h2]
    rfl

/-- C102, the other way round: where the map of the data is right, a feature that the data have is the one that is
consulted. -/
theorem c102_known_partial (fm : FeatureMatrix K) (s : Splitter K)
    (hmap : ∀ nm i, fm.map nm = some i → ∃ F, fm.data[i]? = some F ∧ F.name = nm) (hs : fm.map s.feature ≠ none) :
    ∃ F, fm.featureOf s = some F ∧ F.name = s.feature := by
  obtain ⟨i, hi⟩ := Option.ne_none_iff_exists'.1 hs
  obtain ⟨F, hF, hn⟩ := hmap _ i hi
  exact ⟨F, by simp [FeatureMatrix.featureOf, hi, hF], hn⟩

/-- The tree asks for "C:smoker"; the data hold only "C:sex". -/
def exAsks : Tree ℚ :=
  { root := .mk none 0 (.mk none 0 .nil .nil .nil "ill" none) (.mk none 0 .nil .nil .nil "well" none) .nil ""
      (some ⟨"C:smoker", false, .fin 0, ["f"]⟩)
    target := "t", weight := .fin 1 }

/-- One feature "C:sex" with the values f, m. -/
def exSexFM : FeatureMatrix ℚ :=
  { data := [.cat ⟨⟨fun v => if v = "f" then some 0 else if v = "m" then some 1 else none, ["f", "m"]⟩, [0, 1],
      [false, false], "C:sex", false, false⟩]
    map := fun nm => if nm = "C:sex" then some 0 else none
    caseLabels := ["p", "q"] }

/-- **C102 is false of the code**, an instance: the forest asks for a feature that the data do not have, and yet every
case gets a vote, by another feature. -/
theorem c102_witness : exSexFM.map "C:smoker" = none ∧
    (exAsks.vote exSexFM).map (fun vs => vs.map fun b => (b.case, b.pred)) = some [(0, "ill"), (1, "well")] := by
  decide +kernel

end CloudForest
