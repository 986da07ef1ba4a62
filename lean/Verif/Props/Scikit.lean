import Verif.Lemmas.Scikit
import Verif.Props.Tree

/-!
# Property C39: the flat scikit-style tree
-/

set_option linter.unusedSectionVars false

namespace CloudForest

variable {K : Type} [Field K] [LinearOrder K] [IsStrictOrderedRing K]

/-- **C39, the shape, features and thresholds.** For every binary tree `BuildScikitTree` returns;
it makes exactly one entry per node, with `NodeCount` and `Capacity` that number and `MaxDepth` the
depth; every entry but the first is the child of exactly one entry; following the indices from
the first entry gives the tree back, and no other tree.

Missing from the full property: what a categorical split or a missing branch does is not in the
entries, see `c39_category_lost` and `c39_missing_lost`. -/
theorem c39_flat_partial (n : Node K) (b : BinTree K) (h : n.IsBin b) :
    ∃ t, buildSk 0 n SkTree.new = some t ∧ FlatReads t.nodes 0 b ∧
      (∀ b', FlatReads t.nodes 0 b' → b' = b) ∧
      t.nodes.length = b.size ∧ t.nodeCount = b.size ∧ t.capacity = b.size ∧
      t.maxDepth = b.depth ∧
      (t.nodes.flatMap SkNode.children).Perm
        ((List.range' 1 (b.size - 1)).map fun i : Nat => (i : Int)) := by
  have e := buildSk_ok h 0 0 0 []
  have hr : FlatReads (flatList 0 b) (0 : Int) b := by
    have := flat_reads b [] []
    simpa using this
  refine ⟨_, e, ?_, ?_, ?_, ?_, ?_, ?_, ?_⟩
  · simpa using hr
  · intro b' h'
    exact FlatReads.unique hr (by simpa using h')
  · simp [flatList_length]
  · simp
  · simp
  · simp
  · simpa using flat_children b 0

/-- **C39.** `BuildScikitTree` returns on no other tree: a node with a splitter and a nil child
is a nil dereference. -/
theorem c39_binary_only (n : Node K) :
    (buildSk 0 n SkTree.new).isSome ↔ ∃ b, n.IsBin b := by
  constructor
  · intro h
    obtain ⟨t, ht⟩ := Option.isSome_iff_exists.1 h
    exact buildSk_none n 0 _ t ht
  · rintro ⟨b, hb⟩
    obtain ⟨t, ht, _⟩ := c39_flat_partial n b hb
    rw [ht]; rfl

/-- A leaf that predicts `p`. -/
def exSkLeaf (p : String) : Node ℚ := .mk none 0 .nil .nil .nil p none

/-- Feature 1 at 5/2, then feature 0 at -1 on the right. -/
def exSk : Node ℚ :=
  .mk none 1 (exSkLeaf "a")
    (.mk none 0 (exSkLeaf "b") (exSkLeaf "c") .nil "" (some ⟨"N:x", true, .fin (-1), []⟩))
    .nil "" (some ⟨"N:y", true, .fin (5/2), []⟩)

example : exSk.IsBin (.split 1 (.fin (5/2)) .leaf (.split 0 (.fin (-1)) .leaf .leaf)) ∧
    buildSk 0 exSk SkTree.new = some ⟨2, 5, 5, [⟨1, 2, 1, .fin (5/2)⟩, ⟨-1, -1, 0, .fin 0⟩,
      ⟨3, 4, 0, .fin (-1)⟩, ⟨-1, -1, 0, .fin 0⟩, ⟨-1, -1, 0, .fin 0⟩]⟩ := by
  refine ⟨?_, by decide +kernel⟩
  exact .split _ _ _ _ _ _ _ _ _ (.leaf ..) (.split _ _ _ _ _ _ _ _ _ (.leaf ..) (.leaf ..))

/-- One categorical split: the categories in `left` are predicted "x", the others "y", and cases
without a value `m`. -/
def exSkCat (left : List String) (m : Node ℚ) : Tree ℚ :=
  ⟨.mk none 0 (exSkLeaf "x") (exSkLeaf "y") m "" (some ⟨"f", false, .fin 0, left⟩), "t", .fin 1⟩

/-- **C39 is false for categorical splits.** Two trees that vote differently on the same data
have the same flat tree: the entry of a categorical split holds threshold 0, whatever its
categories. -/
theorem c39_category_lost : ∃ (t t' : Tree ℚ) (fm : FeatureMatrix ℚ),
    buildSk 0 t.root SkTree.new = buildSk 0 t'.root SkTree.new ∧
    (buildSk 0 t.root SkTree.new).isSome ∧
    (t.voteCases fm [0]).map (fun r => r.1.map (·.pred)) = some ["x"] ∧
    (t'.voteCases fm [0]).map (fun r => r.1.map (·.pred)) = some ["y"] :=
  ⟨exSkCat ["c"] .nil, exSkCat ["a"] .nil, exFM, by decide +kernel⟩

/-- **C39 is false for missing branches.** They have no entry, so a tree with one has the flat
tree of the tree without, though the one votes on case 2 and the other does not. -/
theorem c39_missing_lost : ∃ (t t' : Tree ℚ) (fm : FeatureMatrix ℚ),
    buildSk 0 t.root SkTree.new = buildSk 0 t'.root SkTree.new ∧
    (buildSk 0 t.root SkTree.new).isSome ∧
    (t.voteCases fm [2]).map (fun r => r.1.map (·.pred)) = some ["z"] ∧
    (t'.voteCases fm [2]).map (fun r => r.1.map (·.pred)) = some [] :=
  ⟨exSkCat ["c"] (exSkLeaf "z"), exSkCat ["c"] .nil, exFM, by decide +kernel⟩

end CloudForest
