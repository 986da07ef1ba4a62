import Verif.Lemmas.SfVotes
import Verif.Props.Tree

/-!
# C21, C22, C54, C55: writing and reading forests
-/

set_option linter.unusedSectionVars false

namespace CloudForest
variable {K : Type} [Field K] [LinearOrder K] [IsStrictOrderedRing K]

/-! ## Examples -/

/-- Some numbers as text. -/
def exNums : NumText ℚ where
  fmt x :=
    if x = .fin 2 then "2".toList
    else if x = .fin (1/2) then "0.5".toList
    else if x = .fin (-3) then "-3".toList
    else if x = .pinf then "+Inf".toList
    else if x = .ninf then "-Inf".toList
    else "NaN".toList
  parse s :=
    if s = "2".toList then some (.fin 2)
    else if s = "0.5".toList then some (.fin (1/2))
    else if s = "-3".toList then some (.fin (-3))
    else if s = "+Inf".toList then some .pinf
    else if s = "-Inf".toList then some .ninf
    else if s = "NaN".toList then some .nan
    else none

/-- An order of map iteration. -/
def exOrd (s : Splitter ℚ) : List String := s.left.reverse

theorem exOrd_perm (s : Splitter ℚ) : (exOrd s).Perm s.left := List.reverse_perm _

/-- A leaf. -/
def exLeafOf (p : String) : Node ℚ := .mk none 0 .nil .nil .nil p none

/-- A tree with a numerical and a categorical split; names with commas, blanks and colons. -/
def exSfTree : Tree ℚ :=
  { root := .mk none 0
      (.mk (some (.int 6)) 0 (exLeafOf "x") (exLeafOf "y") .nil ""
        (some ⟨"C:color,my old", false, .fin 0, ["light blue", "red,ish"]⟩))
      (exLeafOf "0.25") .nil "" (some ⟨"N:age", true, .fin (1/2), []⟩)
    target := "N:out", weight := .fin 2 }

/-- A second tree, without weight. -/
def exSfTree2 : Tree ℚ := ⟨exLeafOf "z", "N:out", .fin (-1)⟩

instance (s : Text) : Decidable (NoEdgeSpace s) :=
  decidable_of_iff ((s.head?.all fun c => !isSpaceC c) = true ∧ (s.getLast?.all fun c => !isSpaceC c) = true)
    (by
      unfold NoEdgeSpace
      cases s.head? <;> cases s.getLast? <;> simp)

instance (s : Text) : Decidable (Plain s) :=
  decidable_of_iff ('"' ∉ s ∧ '=' ∉ s ∧ '\n' ∉ s ∧ ∀ p ∈ splitC ',' s, NoEdgeSpace p)
    ⟨fun ⟨a, b, c, d⟩ => ⟨a, b, c, d⟩, fun ⟨a, b, c, d⟩ => ⟨a, b, c, d⟩⟩

theorem exLeafOf_writable (p : String) (h : Plain p.toList) : (exLeafOf p).Writable exNums :=
  ⟨h, trivial, trivial, trivial, fun _ => rfl, rfl, rfl, rfl⟩

theorem exSfTree_writable : exSfTree.Writable exNums where
  root := by
    refine ⟨by decide, ⟨by decide, exLeafOf_writable _ (by decide +kernel), exLeafOf_writable _ (by decide +kernel),
      trivial, fun _ => rfl, ⟨by decide +kernel, (fun h => by cases h), fun _ => ⟨rfl, by decide, by decide +kernel⟩⟩⟩,
      exLeafOf_writable _ (by decide +kernel), trivial, fun _ => rfl,
      ⟨by decide +kernel, fun _ => ⟨rfl, by unfold NumText.Faithful; decide +kernel⟩, (fun h => by cases h)⟩⟩
  notNil := rfl
  target := by decide +kernel
  weight := by intro _; unfold NumText.Faithful; decide +kernel

theorem exSfTree2_writable : exSfTree2.Writable exNums where
  root := exLeafOf_writable _ (by decide +kernel)
  notNil := rfl
  target := by decide +kernel
  weight := by
    intro h
    exact absurd h (by decide)

/-! ## C21 -/

/-- C21. A tree without missing branches, written by `WriteTree` with Go's maps iterated in any order
and followed by the end of the file, a tree or a forest, is read back by `ReadTree`, which stops
right behind it: the same structure, predictions, splitters and target, and the weight as files keep
it. No forest header is seen. -/
theorem c21_tree (nt : NumText K) (ord : Splitter K → List String)
    (hord : ∀ s : Splitter K, (ord s).Perm s.left) (t : Tree K) (ht : t.Writable nt)
    (hm : t.root.NoMissing) (ntree : Nat) (rest : Text)
    (hrest : rest = [] ∨ ∃ c s, rest = c :: s ∧ (c = 'T' ∨ c = 'F')) :
    ∃ text t', writeTree nt ord t ntree = some text ∧
      readTree nt (text ++ rest) =
        some ⟨some t', none, if rest = [] then .eof else .ok, rest⟩ ∧
      t.root.Same t'.root ∧ t'.target = t.target ∧
      (∀ x, t.weight = .fin x → (0 ≤ x ∨ x = -1) → t'.weight = t.weight) := by
  refine ⟨_, _, writeTree_eq ht ntree, ?_, (backTree_same hord ht hm).1, rfl, ?_⟩
  · have := readTree_tree hord ht ntree hrest
    unfold treeText at this
    rw [this]
    cases rest <;> simp [endOf]
  · intro x hx h
    show fileWeight t.weight = t.weight
    unfold fileWeight
    rw [hx]
    rcases h with h | rfl
    · rw [if_pos (show (XF.fin 0 : XF K) ≤ .fin x from h)]
    · split <;> rfl

/-- C21, votes: the tree read back casts on every data set exactly the votes of the tree written,
used by its decoded splitters, in the same order and with the same weight. -/
theorem c21_votes (nt : NumText K) (ord : Splitter K → List String)
    (hord : ∀ s : Splitter K, (ord s).Perm s.left) (t : Tree K) (ht : t.Writable nt)
    (hm : t.root.NoMissing) (ntree : Nat) :
    ∃ text t' e, writeTree nt ord t ntree = some text ∧ readTree nt text = some ⟨some t', none, e, []⟩ ∧
      ∀ (fm : FeatureMatrix K) (cases : List Nat),
        t'.voteCases fm cases = Tree.voteCases { t with root := t.root.stripCodes } fm cases := by
  have h := readTree_tree hord ht ntree (rest := []) (.inl rfl)
  rw [List.append_nil] at h
  refine ⟨_, _, _, writeTree_eq ht ntree, h, fun fm cases => ?_⟩
  have := voteCases_same t (backTree ord t) (backTree_same hord ht hm) fm cases
  rw [← this]
  congr 1
  show _ = Tree.mk (back ord t.root).stripCodes _ _
  rw [back_strip]
  rfl

/-- C21 with C02: on the matrix a tree was grown on, where it votes by codes, the tree read back from
its file casts the same votes. -/
theorem c21_votes_grown (nt : NumText K) (ord : Splitter K → List String)
    (hord : ∀ s : Splitter K, (ord s).Perm s.left) (t : Tree K) (ht : t.Writable nt)
    (hm : t.root.NoMissing) (ntree : Nat) (fm : FeatureMatrix K) (cases : List Nat)
    (hu : Usable fm cases t.root) (hd : CodesDecoded fm t.root) :
    ∃ text t' e, writeTree nt ord t ntree = some text ∧ readTree nt text = some ⟨some t', none, e, []⟩ ∧
      t'.voteCases fm cases = t.voteCases fm cases := by
  obtain ⟨text, t', e, h1, h2, h3⟩ := c21_votes nt ord hord t ht hm ntree
  exact ⟨text, t', e, h1, h2, by rw [h3, c02_stripCodes t fm cases hu hd]⟩

/-- The example tree meets the hypotheses of C21; its file. -/
example : exSfTree.Writable exNums ∧ exSfTree.root.NoMissing ∧
    writeTree exNums exOrd exSfTree 3 = some ("TREE=3,TARGET=\"N:out\",WEIGHT=2\n" ++
      "NODE=*,SPLITTER=N:age,SPLITTERTYPE=NUMERICAL,LVALUES=0.5,RVALUES=0.5\n" ++
      "NODE=*L,SPLITTER=C:color,my old,SPLITTERTYPE=CATEGORICAL,LVALUES=\"red,ish:light blue\"\n" ++
      "NODE=*LL,PRED=x\nNODE=*LR,PRED=y\nNODE=*R,PRED=0.25\n").toList :=
  ⟨exSfTree_writable, ⟨rfl, ⟨rfl, ⟨rfl, trivial, trivial⟩, ⟨rfl, trivial, trivial⟩⟩, ⟨rfl, trivial, trivial⟩⟩,
    by decide +kernel⟩

/-! ## C22 -/

/-- C22. A forest written by `WriteForest` and followed by the end of the file or by another forest is
read back by `ReadForest`, which stops right behind it: the same target and intercept and the same
trees in the same order. The target of a forest without intercept is not written: it is that of its
first tree. -/
theorem c22_forest_partial (nt : NumText K) (ord : Splitter K → List String)
    (hord : ∀ s : Splitter K, (ord s).Perm s.left) (f : Forest K) (hf : f.Writable nt)
    (hhead : ¬ f.intercept.feq (.fin 0) ∨ ∃ t ts, f.trees = t :: ts ∧ t.target = f.target)
    (rest : Text) (hrest : rest = [] ∨ (f.trees ≠ [] ∧ ∃ s, rest = 'F' :: s)) :
    ∃ text f', writeForest nt ord f = some text ∧
      readForest nt (text ++ rest) = some ⟨some f', .ok, rest⟩ ∧
      f'.target = f.target ∧ f'.intercept = f.intercept ∧ List.Forall₂ Tree.Same f.trees f'.trees := by
  obtain ⟨text, h1, h2⟩ := readForest_written hord f hf hhead rest hrest
  refine ⟨text, _, h1, h2, rfl, rfl, ?_⟩
  rw [List.forall₂_map_right_iff]
  exact List.forall₂_same.2 fun t ht => backTree_same hord (hf.trees t ht).1 (hf.trees t ht).2

/-- C22, votes: the trees read back cast the votes of the trees written, tree by tree. -/
theorem c22_votes (t t' : Tree K) (h : t.Same t') (fm : FeatureMatrix K) (cases : List Nat) :
    Tree.voteCases { t' with root := t'.root.stripCodes } fm cases =
      Tree.voteCases { t with root := t.root.stripCodes } fm cases :=
  voteCases_same t t' h fm cases

/-- C22, concatenation: reading the concatenated files of two forests tree by tree yields the trees
of the first followed by those of the second. -/
theorem c22_concat (nt : NumText K) (ord : Splitter K → List String)
    (hord : ∀ s : Splitter K, (ord s).Perm s.left) (f g : Forest K) (hf : f.Writable nt)
    (hg : g.Writable nt) (hfn : f.trees ≠ []) (hgn : g.trees ≠ []) (fuel : Nat)
    (hfuel : f.trees.length + g.trees.length ≤ fuel) :
    ∃ a b ts, writeForest nt ord f = some a ∧ writeForest nt ord g = some b ∧
      readAllTrees nt fuel (a ++ b) = some ts ∧ List.Forall₂ Tree.Same (f.trees ++ g.trees) ts := by
  -- one forest, followed by something
  have key : ∀ (f : Forest K), f.Writable nt → f.trees ≠ [] → ∀ (fuel : Nat), f.trees.length ≤ fuel →
      ∀ (rest : Text), Follows rest → ∀ (out : List (Tree K)),
      (rest = [] ∧ out = [] ∨ rest ≠ [] ∧ readAllTrees nt (fuel - f.trees.length) rest = some out) →
      ∃ a, writeForest nt ord f = some a ∧ Follows a ∧ a ≠ [] ∧
        readAllTrees nt fuel (a ++ rest) = some (f.trees.map (backTree ord) ++ out) := by
    intro f hf hfn fuel hfuel rest hrest out hout
    obtain ⟨target, trees, x⟩ := f
    obtain ⟨htr, htg, hx⟩ := hf
    simp only at htr htg hx hfn hfuel hout ⊢
    have hw : ∀ t ∈ trees, t.Writable nt := fun t ht => (htr t ht).1
    cases trees with
    | nil => exact absurd rfl hfn
    | cons t ts =>
      obtain ⟨s, hs⟩ := treeText_head nt ord 0 t
      by_cases h0 : x.feq (.fin 0)
      · refine ⟨_, by
          unfold writeForest
          simp only
          rw [writeTrees_eq _ hw, if_neg (by simpa using h0)]
          rfl, ?_, ?_, ?_⟩
        · exact .inr ⟨'T', _, by rw [treesText, hs]; rfl, .inl rfl⟩
        · rw [treesText, hs]; simp
        · exact readAllTrees_trees hord _ hw hfn 0 fuel hfuel rest hrest out hout
      · have hh : ∃ s', writeForestHeader nt 0 target x = 'F' :: s' := by
          unfold writeForestHeader; exact ⟨_, rfl⟩
        obtain ⟨s', hs'⟩ := hh
        refine ⟨_, by
          unfold writeForest
          simp only
          rw [writeTrees_eq _ hw, if_pos (by simpa using h0)]
          rfl, ?_, ?_, ?_⟩
        · exact .inr ⟨'F', _, by rw [hs']; rfl, .inr rfl⟩
        · rw [hs']; simp
        · cases fuel with
          | zero => simp at hfuel
          | succ fuel =>
            have hfol := follows_trees nt ord 1 ts hrest
            have hrd := readTree_header hord (hw t (by simp)) 0 0 target x htg hx hfol
            unfold readAllTrees
            rw [treesText, List.append_assoc, List.append_assoc]
            rw [hrd]
            simp only [Option.bind_eq_bind, Option.bind_some]
            cases ts with
            | nil =>
              rcases hout with ⟨rfl, rfl⟩ | ⟨h1, h2⟩
              · simp [treesText, endOf]
              · cases rest with
                | nil => exact absurd rfl h1
                | cons c r =>
                  simp only [treesText, List.nil_append, endOf]
                  simp only [List.length_cons, List.length_nil, Nat.zero_add, Nat.add_sub_cancel] at h2
                  rw [h2]
                  simp
            | cons t' ts =>
              cases hend : treesText nt ord (0 + 1) (t' :: ts) ++ rest with
              | nil =>
                obtain ⟨s', hs'⟩ := treeText_head nt ord (0 + 1) t'
                rw [treesText, hs'] at hend
                simp at hend
              | cons c r =>
                simp only [endOf]
                rw [← hend, readAllTrees_trees hord (t' :: ts) (fun x hx => hw x (by simp [hx])) (by simp) (0 + 1)
                  fuel (by simp at hfuel ⊢; omega) rest hrest out]
                · simp
                · simpa [Nat.add_sub_add_right] using hout
  obtain ⟨b, hb1, hb2, hb3, hb4⟩ := key g hg hgn (fuel - f.trees.length) (by omega) [] (.inl rfl) [] (.inl ⟨rfl, rfl⟩)
  rw [List.append_nil] at hb4
  obtain ⟨a, ha1, ha2, ha3, ha4⟩ := key f hf hfn fuel (by omega) b hb2 _ (.inr ⟨hb3, hb4⟩)
  refine ⟨a, b, _, ha1, hb1, ha4, ?_⟩
  rw [List.append_nil, ← List.map_append, List.forall₂_map_right_iff]
  refine List.forall₂_same.2 fun t ht => ?_
  rcases List.mem_append.1 ht with h | h
  · exact backTree_same hord (hf.trees t h).1 (hf.trees t h).2
  · exact backTree_same hord (hg.trees t h).1 (hg.trees t h).2

/-- Two forests, one with an intercept and one without. -/
def exSfForest : Forest ℚ := ⟨"N:out", [exSfTree, exSfTree2, exSfTree], .fin (-3)⟩

@[inherit_doc exSfForest]
def exSfForest2 : Forest ℚ := ⟨"N:out", [exSfTree2, exSfTree], .fin 0⟩

theorem exSfTree_noMissing : exSfTree.root.NoMissing :=
  ⟨rfl, ⟨rfl, ⟨rfl, trivial, trivial⟩, ⟨rfl, trivial, trivial⟩⟩, ⟨rfl, trivial, trivial⟩⟩

theorem exSfForest_writable : exSfForest.Writable exNums where
  trees := by
    intro t ht
    have : t = exSfTree ∨ t = exSfTree2 := by simpa [exSfForest, or_comm] using ht
    rcases this with rfl | rfl
    · exact ⟨exSfTree_writable, exSfTree_noMissing⟩
    · exact ⟨exSfTree2_writable, rfl, trivial, trivial⟩
  target := by decide +kernel
  intercept := by intro _; unfold NumText.Faithful; decide +kernel

theorem exSfForest2_writable : exSfForest2.Writable exNums where
  trees := by
    intro t ht
    have : t = exSfTree ∨ t = exSfTree2 := by simpa [exSfForest2, or_comm] using ht
    rcases this with rfl | rfl
    · exact ⟨exSfTree_writable, exSfTree_noMissing⟩
    · exact ⟨exSfTree2_writable, rfl, trivial, trivial⟩
  target := by decide +kernel
  intercept := by intro h; exact absurd (show exSfForest2.intercept.feq (.fin 0) by decide) h

/-- Both meet the hypotheses of C22, the first by its intercept, the second by its trees' target; their
concatenation is read tree by tree. -/
example : (¬ exSfForest.intercept.feq (.fin 0)) ∧
    (∃ t ts, exSfForest2.trees = t :: ts ∧ t.target = exSfForest2.target) ∧
    exSfForest.Writable exNums ∧ exSfForest2.Writable exNums ∧
    (do
      let a ← writeForest exNums exOrd exSfForest
      let b ← writeForest exNums exOrd exSfForest2
      let ts ← readAllTrees exNums 9 (a ++ b)
      some (ts.map fun t => t.weight)) = some [.fin 2, .fin (-1), .fin 2, .fin (-1), .fin 2] :=
  ⟨by decide, ⟨_, _, rfl, rfl⟩, exSfForest_writable, exSfForest2_writable, by decide +kernel⟩

/-- C22 fails for the forests that `GrowRandomForest` makes (forrest.go:13-55): it sets the target of
the forest and not that of its trees, so the forest read back has lost it. -/
theorem c22_target_lost :
    ∃ f : Forest ℚ, f.Writable exNums ∧ f.target = "N:out" ∧ (∀ t ∈ f.trees, t.target = "") ∧ f.trees ≠ [] ∧
      ∃ text f', writeForest exNums exOrd f = some text ∧ readForest exNums text = some ⟨some f', .ok, []⟩ ∧
        f'.target = "" := by
  have hw : Forest.Writable exNums ⟨"N:out", [⟨exLeafOf "z", "", .fin (-1)⟩], .fin 0⟩ := by
    refine ⟨?_, by decide +kernel, ?_⟩
    · intro t ht
      simp only [List.mem_singleton] at ht
      subst ht
      exact ⟨⟨exLeafOf_writable _ (by decide +kernel), rfl, by decide +kernel, fun h => absurd h (by decide)⟩,
        rfl, trivial, trivial⟩
    · intro h
      exact absurd (show (XF.fin (0 : ℚ)).feq (.fin 0) by decide) h
  have hw' : Forest.Writable exNums ⟨"", [⟨exLeafOf "z", "", .fin (-1)⟩], .fin 0⟩ :=
    ⟨hw.trees, by decide +kernel, hw.intercept⟩
  refine ⟨⟨"N:out", [⟨exLeafOf "z", "", .fin (-1)⟩], .fin 0⟩, hw, rfl, ?_, by simp, ?_⟩
  · intro t ht
    simp only [List.mem_singleton] at ht
    subst ht; rfl
  · obtain ⟨text, f', h1, h2, h3, -⟩ := c22_forest_partial exNums exOrd exOrd_perm _ hw'
      (.inr ⟨_, _, rfl, rfl⟩) [] (.inl rfl)
    rw [List.append_nil] at h2
    exact ⟨text, f', h1, h2, h3⟩

/-! ## C54 -/

/-- C54 fails: `WriteNodeAndChildren` writes the right branch under the path of the missing branch
(forestwriter.go:70-72). The example tree, whose missing branch predicts "w", casts after writing and
reading the prediction "z" of its right branch for the case with a missing value. -/
theorem c54_missing_lost :
    ∃ text t', writeTree exNums exOrd exTree 0 = some text ∧
      readTree exNums text = some ⟨some t', none, .eof, []⟩ ∧
      (∃ v o, exTree.voteCases exFM [2] = some (v, o) ∧ v.map (fun b => (b.case, b.pred)) = [(2, "w")]) ∧
      (∃ v o, t'.voteCases exFM [2] = some (v, o) ∧ v.map (fun b => (b.case, b.pred)) = [(2, "z")]) := by
  have hl : ∀ p : String, Plain p.toList → (Node.mk none 0 .nil .nil .nil p none : Node ℚ).Writable exNums :=
    exLeafOf_writable
  have hw : exTree.Writable exNums := by
    refine ⟨⟨by decide, ⟨by decide, hl _ (by decide +kernel), hl _ (by decide +kernel), trivial, fun _ => rfl,
      ⟨by decide +kernel, (fun h => by cases h), fun _ => ⟨rfl, by decide, by decide +kernel⟩⟩⟩, hl _ (by decide +kernel),
      hl _ (by decide +kernel), (fun h => by cases h),
      ⟨by decide +kernel, (fun h => by cases h), fun _ => ⟨rfl, by decide, by decide +kernel⟩⟩⟩, rfl, by decide +kernel, ?_⟩
    intro _; unfold NumText.Faithful; decide +kernel
  have h := readTree_tree exOrd_perm hw 0 (rest := []) (.inl rfl)
  rw [List.append_nil] at h
  refine ⟨_, _, writeTree_eq hw 0, h, ?_, ?_⟩
  · cases hv : exTree.voteCases exFM [2] with
    | none => exact absurd (show (exTree.voteCases exFM [2]).isSome = true by decide +kernel) (by rw [hv]; decide)
    | some v =>
      refine ⟨v.1, v.2, rfl, ?_⟩
      have : (exTree.voteCases exFM [2]).map (fun v => v.1.map fun b => (b.case, b.pred)) = some [(2, "w")] := by
        decide +kernel
      rw [hv] at this
      exact Option.some.inj this
  · cases hv : (backTree exOrd exTree).voteCases exFM [2] with
    | none =>
      exact absurd (show ((backTree exOrd exTree).voteCases exFM [2]).isSome = true by decide +kernel)
        (by rw [hv]; decide)
    | some v =>
      refine ⟨v.1, v.2, rfl, ?_⟩
      have : ((backTree exOrd exTree).voteCases exFM [2]).map (fun v => v.1.map fun b => (b.case, b.pred)) =
          some [(2, "z")] := by
        decide +kernel
      rw [hv] at this
      exact Option.some.inj this

/-- C54, what holds instead: every tree that can be written is read back with each missing branch
replaced by a copy of the right branch beside it, and otherwise unchanged. -/
theorem c54_missing_partial (nt : NumText K) (ord : Splitter K → List String)
    (hord : ∀ s : Splitter K, (ord s).Perm s.left) (t : Tree K) (ht : t.Writable nt) (ntree : Nat) :
    ∃ text t', writeTree nt ord t ntree = some text ∧ readTree nt text = some ⟨some t', none, .eof, []⟩ ∧
      t.root.missingIsRight.Same t'.root ∧ t'.target = t.target := by
  have h := readTree_tree hord ht ntree (rest := []) (.inl rfl)
  rw [List.append_nil] at h
  exact ⟨_, _, writeTree_eq ht ntree, h, back_same hord t.root ht.root, rfl⟩

/-- A tree with a missing branch inside meets the hypothesis. -/
example : Tree.Writable exNums ⟨.mk none 0 (exLeafOf "a") (exLeafOf "b") (exLeafOf "c") ""
    (some ⟨"N:age", true, .fin (1/2), []⟩), "N:out", .fin 2⟩ where
  root := ⟨by decide, exLeafOf_writable _ (by decide +kernel), exLeafOf_writable _ (by decide +kernel),
    exLeafOf_writable _ (by decide +kernel), (fun h => by cases h),
    ⟨by decide +kernel, fun _ => ⟨rfl, by unfold NumText.Faithful; decide +kernel⟩, (fun h => by cases h)⟩⟩
  notNil := rfl
  target := by decide +kernel
  weight := by intro _; unfold NumText.Faithful; decide +kernel

/-! ## C55 -/

/-- The parts of a forest that `ReadForest` hands over, for comparison. -/
def ForestRead.summary (r : ForestRead ℚ) : ReadEnd × Option (List (String × String)) :=
  (r.err, r.forest.map fun f => f.trees.map fun t => (t.target, t.root.predOf))

/-- C55 fails: `ReadForest` reports no error for a file whose last line was cut off, but drops that
line; nor for a forest whose first tree has lost its header line, of which it returns nothing. -/
theorem c55_error_swallowed :
    (readForest exNums "TREE=0,TARGET=\"t\"\nNODE=*,PRED=a\nTREE=1,TARGET=\"t\"\nNODE=*,PRED=b".toList).map
        ForestRead.summary = some (.ok, some [("t", "a"), ("t", "")]) ∧
    (readForest exNums "FOREST=0,TARGET=\"t\"\nNODE=*,PRED=a\nTREE=1,TARGET=\"t\"\nNODE=*,PRED=b\n".toList).map
        ForestRead.summary = some (.ok, some []) := by
  decide +kernel

/-- C55, what holds: `ReadTree` itself reports a node outside of a tree, `ReadForest` reports an empty
file and a file that begins with neither a forest nor a tree. -/
theorem c55_error_partial (nt : NumText K) :
    (∀ line rest parsed, '\n' ∉ line → "NODE".toList.isPrefixOf line → parseSfLine (line ++ ['\n']) = some parsed →
      readTree nt (line ++ '\n' :: rest) = some ⟨none, none, .bad, rest⟩) ∧
    readForest nt [] = some ⟨none, .eof, []⟩ ∧
    (∀ c cs, c ≠ 'F' → c ≠ 'T' → readForest nt (c :: cs) = some ⟨none, .bad, c :: cs⟩) := by
  refine ⟨?_, rfl, fun c cs h1 h2 => by simp [readForest, h1, h2]⟩
  intro line rest parsed hnl hp hparse
  obtain ⟨s, rfl⟩ : ∃ s, line = "NODE".toList ++ s :=
    (List.isPrefixOf_iff_prefix.1 hp).imp fun _ h => h.symm
  have hrl := readLine_append hnl rest
  unfold readTree
  obtain ⟨c, cs, hcs⟩ : ∃ c cs, ("NODE".toList ++ s) ++ '\n' :: rest = c :: cs :=
    ⟨'N', _, rfl⟩
  rw [hcs] at hrl ⊢
  unfold readTreeLoop
  simp only [Option.isSome_none, Bool.false_and, Bool.false_eq_true, if_false]
  have hline : readSfLine nt (⟨none, none⟩ : SfState K) (("NODE".toList ++ s) ++ ['\n']) = some none := by
    unfold readSfLine
    rw [hparse]
    rfl
  split
  · rename_i h; rw [hrl] at h; cases h
  · rename_i line' rest' h
    rw [hrl] at h
    cases h
    rw [hline]

/-- A line that meets the hypotheses. -/
example : '\n' ∉ "NODE=*,PRED=a".toList ∧ "NODE".toList.isPrefixOf "NODE=*,PRED=a".toList ∧
    parseSfLine ("NODE=*,PRED=a".toList ++ ['\n']) =
      some [("NODE".toList, "*".toList), ("PRED".toList, "a".toList)] := by decide +kernel

end CloudForest
