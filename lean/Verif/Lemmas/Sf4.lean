import Verif.Lemmas.Sf3
import Mathlib.Data.List.Forall2

/-!
# A forest, written and read
-/

set_option linter.unusedSectionVars false

namespace CloudForest
variable {K : Type} [Field K] [LinearOrder K] [IsStrictOrderedRing K]

theorem backSplitter_same {nt : NumText K} {ord : Splitter K → List String}
    (hord : ∀ s : Splitter K, (ord s).Perm s.left) {s : Splitter K} (h : s.Writable nt) :
    s.Same (backSplitter ord s) := by
  unfold backSplitter Splitter.Same
  cases hn : s.numerical with
  | true => simp [(h.num hn).1]
  | false =>
    simp only [Bool.false_eq_true, if_false, true_and]
    refine ⟨(h.cat hn).1, fun k => ?_⟩
    rw [mapKeys_mem, (hord s).mem_iff]

theorem missingIsRight_isNil (n : Node K) : n.missingIsRight.isNil = n.isNil := by
  cases n <;> rfl

theorem back_same {nt : NumText K} {ord : Splitter K → List String}
    (hord : ∀ s : Splitter K, (ord s).Perm s.left) (n : Node K) (h : n.Writable nt) :
    n.missingIsRight.Same (back ord n) := by
  induction n with
  | nil => trivial
  | mk c fi l r m p s ihl ihr ihm =>
    obtain ⟨-, hl, hr, hm, -, hs⟩ := h
    cases s with
    | none =>
      obtain ⟨h1, h2, h3⟩ := hs
      rw [entries_nil_of_isNil h1, entries_nil_of_isNil h2, entries_nil_of_isNil h3]
      exact ⟨rfl, trivial, trivial, trivial, trivial⟩
    | some s =>
      refine ⟨rfl, ihl hl, ihr hr, ?_, backSplitter_same hord hs⟩
      cases hmi : m.isNil with
      | true => trivial
      | false =>
        simp only [Bool.false_eq_true, if_false]
        exact ihr hr

theorem Node.NoMissing.missingIsRight {n : Node K} (h : n.NoMissing) : n.missingIsRight = n := by
  induction n with
  | nil => rfl
  | mk c fi l r m p s ihl ihr ihm =>
    obtain ⟨h1, h2, h3⟩ := h
    rw [Node.missingIsRight, ihl h2, ihr h3, if_pos h1, entries_nil_of_isNil h1]

theorem backTree_same {nt : NumText K} {ord : Splitter K → List String}
    (hord : ∀ s : Splitter K, (ord s).Perm s.left) {t : Tree K} (h : t.Writable nt)
    (hm : t.root.NoMissing) : t.Same (backTree ord t) := by
  refine ⟨?_, rfl, rfl⟩
  have := back_same hord t.root h.root
  rw [hm.missingIsRight] at this
  exact this

/-- What may follow a tree or a forest. -/
def Follows (rest : Text) : Prop := rest = [] ∨ ∃ c s, rest = c :: s ∧ (c = 'T' ∨ c = 'F')

/-- How the reader ends before it. -/
def endOf : Text → ReadEnd
  | [] => .eof
  | _ => .ok

theorem readTreeLoop_follows {nt : NumText K} (t : Tree K) (fo : Option (Forest K)) {rest : Text}
    (h : Follows rest) : readTreeLoop nt ⟨some t, fo⟩ rest = some ⟨some t, fo, endOf rest, rest⟩ := by
  rcases h with rfl | ⟨c, s, rfl, hc⟩
  · exact readTreeLoop_nil _
  · exact readTreeLoop_stop t fo c s hc

/-- A written tree. -/
def treeText (nt : NumText K) (ord : Splitter K → List String) (i : Nat) (t : Tree K) : Text :=
  writeTreeHeader nt i t.target t.weight ++ nodesText nt ord ['*'] (entries t.root)

theorem treeText_head (nt : NumText K) (ord : Splitter K → List String) (i : Nat) (t : Tree K) :
    ∃ s, treeText nt ord i t = 'T' :: s := by
  unfold treeText writeTreeHeader
  exact ⟨_, rfl⟩

/-- Written trees, numbered from `i`. -/
def treesText (nt : NumText K) (ord : Splitter K → List String) : Nat → List (Tree K) → Text
  | _, [] => []
  | i, t :: ts => treeText nt ord i t ++ treesText nt ord (i + 1) ts

theorem writeTrees_eq {nt : NumText K} {ord : Splitter K → List String} (ts : List (Tree K))
    (h : ∀ t ∈ ts, t.Writable nt) (i : Nat) :
    writeTrees nt ord ts i = some (treesText nt ord i ts) := by
  induction ts generalizing i with
  | nil => rfl
  | cons t ts ih =>
    unfold writeTrees
    rw [writeTree_eq (h t (by simp)), ih fun x hx => h x (by simp [hx])]
    rfl

theorem follows_trees (nt : NumText K) (ord : Splitter K → List String) (i : Nat) (ts : List (Tree K))
    {rest : Text} (h : Follows rest) : Follows (treesText nt ord i ts ++ rest) := by
  cases ts with
  | nil => exact h
  | cons t ts =>
    obtain ⟨s, hs⟩ := treeText_head nt ord i t
    right
    exact ⟨'T', s ++ (treesText nt ord (i + 1) ts ++ rest), by
      rw [treesText, hs]; simp, .inl rfl⟩

theorem readTree_tree {nt : NumText K} {ord : Splitter K → List String}
    (hord : ∀ s : Splitter K, (ord s).Perm s.left) {t : Tree K} (ht : t.Writable nt) (i : Nat)
    {rest : Text} (h : Follows rest) :
    readTree nt (treeText nt ord i t ++ rest) =
      some ⟨some (backTree ord t), none, endOf rest, rest⟩ := by
  unfold readTree treeText
  rw [List.append_assoc, readTreeLoop_tree hord ht, readTreeLoop_follows _ _ h]

/-- The first tree of a forest with header. -/
theorem readTree_header {nt : NumText K} {ord : Splitter K → List String}
    (hord : ∀ s : Splitter K, (ord s).Perm s.left) {t : Tree K} (ht : t.Writable nt) (i k : Nat)
    (target : String) (x : XF K) (htg : Plain target.toList) (hx : ¬ x.feq (.fin 0) → nt.Faithful x)
    {rest : Text} (h : Follows rest) :
    readTree nt (writeForestHeader nt k target x ++ (treeText nt ord i t ++ rest)) =
      some ⟨some (backTree ord t), some ⟨target, [], x⟩, endOf rest, rest⟩ := by
  obtain ⟨l, h1, h2, h3, h4⟩ := readSfLine_forestHeader nt k target x htg hx ⟨none, none⟩
  unfold readTree treeText
  rw [h1, List.append_assoc, List.singleton_append, readTreeLoop_line h2 h3 (.inl rfl) h4,
    List.append_assoc, readTreeLoop_tree hord ht, readTreeLoop_follows _ _ h]

/-- A header without trees. -/
theorem readTree_onlyHeader {nt : NumText K} (k : Nat)
    (target : String) (x : XF K) (htg : Plain target.toList) (hx : ¬ x.feq (.fin 0) → nt.Faithful x) :
    readTree nt (writeForestHeader nt k target x) =
      some ⟨none, some ⟨target, [], x⟩, .eof, []⟩ := by
  obtain ⟨l, h1, h2, h3, h4⟩ := readSfLine_forestHeader nt k target x htg hx ⟨none, none⟩
  unfold readTree
  rw [h1, readTreeLoop_line h2 h3 (.inl rfl) h4, readTreeLoop_nil]

/-- Further trees of a forest. -/
theorem readForestLoop_trees {nt : NumText K} {ord : Splitter K → List String}
    (hord : ∀ s : Splitter K, (ord s).Perm s.left) (ts : List (Tree K)) (ht : ∀ t ∈ ts, t.Writable nt)
    (i fuel : Nat) (hfuel : ts.length < fuel) (fo : Forest K) (rest : Text)
    (hrest : rest = [] ∨ ∃ s, rest = 'F' :: s) (hne : ¬ (ts = [] ∧ rest = [])) :
    readForestLoop nt fuel (some fo) (treesText nt ord i ts ++ rest) =
      some ⟨some { fo with trees := fo.trees ++ ts.map (backTree ord) }, .ok, rest⟩ := by
  induction ts generalizing i fuel fo with
  | nil =>
    rcases hrest with rfl | ⟨s, rfl⟩
    · exact absurd ⟨rfl, rfl⟩ hne
    · cases fuel with
      | zero => simp at hfuel
      | succ fuel => simp [treesText, readForestLoop]
  | cons t ts ih =>
    cases fuel with
    | zero => simp at hfuel
    | succ fuel =>
      have hfol : Follows rest := by
        rcases hrest with h | ⟨s, h⟩
        · exact .inl h
        · exact .inr ⟨'F', s, h, .inr rfl⟩
      have hfol' := follows_trees nt ord (i + 1) ts hfol
      have hrd := readTree_tree hord (ht t (by simp)) i hfol'
      obtain ⟨s, hs⟩ := treeText_head nt ord i t
      rw [treesText, List.append_assoc]
      rw [hs, List.cons_append] at hrd ⊢
      unfold readForestLoop
      rw [if_neg (by simp), hrd]
      simp only [Option.bind_eq_bind, Option.bind_some, Option.isSome_some, Option.isSome_none,
        Bool.and_false, Bool.false_eq_true, if_false, if_true, Forest.withTree]
      cases hend : treesText nt ord (i + 1) ts ++ rest with
      | nil =>
        have h1 : rest = [] := (List.append_eq_nil_iff.1 hend).2
        have h2 : ts = [] := by
          cases ts with
          | nil => rfl
          | cons t' ts =>
            obtain ⟨s', hs'⟩ := treeText_head nt ord (i + 1) t'
            rw [treesText, hs'] at hend
            simp at hend
        subst h1 h2
        simp [endOf]
      | cons c s' =>
        simp only [endOf]
        rw [← hend, ih (fun x hx => ht x (by simp [hx])) (i + 1) fuel (by simp at hfuel; omega)]
        · simp
        · rintro ⟨rfl, rfl⟩
          simp [treesText] at hend

theorem length_treesText (nt : NumText K) (ord : Splitter K → List String) (ts : List (Tree K)) (i : Nat) :
    ts.length ≤ (treesText nt ord i ts).length := by
  induction ts generalizing i with
  | nil => simp
  | cons t ts ih =>
    obtain ⟨s, hs⟩ := treeText_head nt ord i t
    have := ih (i + 1)
    rw [treesText, List.length_append, hs]
    simp only [List.length_cons]
    omega

theorem readForest_written {nt : NumText K} {ord : Splitter K → List String}
    (hord : ∀ s : Splitter K, (ord s).Perm s.left) (f : Forest K) (hf : f.Writable nt)
    (hhead : ¬ f.intercept.feq (.fin 0) ∨ ∃ t ts, f.trees = t :: ts ∧ t.target = f.target)
    (rest : Text) (hrest : rest = [] ∨ (f.trees ≠ [] ∧ ∃ s, rest = 'F' :: s)) :
    ∃ text, writeForest nt ord f = some text ∧
      readForest nt (text ++ rest) =
        some ⟨some ⟨f.target, f.trees.map (backTree ord), f.intercept⟩, .ok, rest⟩ := by
  obtain ⟨target, trees, x⟩ := f
  obtain ⟨htr, htg, hx⟩ := hf
  simp only at htr htg hx hhead hrest ⊢
  have hw : ∀ t ∈ trees, t.Writable nt := fun t ht => (htr t ht).1
  have hfol : Follows rest := by
    rcases hrest with h | ⟨-, s, h⟩
    · exact .inl h
    · exact .inr ⟨'F', s, h, .inr rfl⟩
  have hrest' : rest = [] ∨ ∃ s, rest = 'F' :: s := by
    rcases hrest with h | ⟨-, h⟩
    · exact .inl h
    · exact .inr h
  refine ⟨_, by unfold writeForest; rw [writeTrees_eq trees hw]; rfl, ?_⟩
  by_cases h0 : x.feq (.fin 0)
  · -- no header
    rcases hhead with h | ⟨t, ts, rfl, htt⟩
    · exact absurd h0 h
    obtain rfl := h0.2
    rw [if_neg (by simpa using h0), List.nil_append]
    have hrd := readTree_tree hord (hw t (by simp)) 0 (follows_trees nt ord 1 ts hfol)
    have hlen := length_treesText nt ord ts 1
    obtain ⟨s, hs⟩ := treeText_head nt ord 0 t
    rw [treesText, List.append_assoc]
    rw [hs, List.cons_append] at hrd ⊢
    unfold readForest
    simp only
    rw [if_neg (by simp)]
    unfold readForestLoop
    rw [if_neg (by simp), hrd]
    simp only [Option.bind_eq_bind, Option.bind_some, Option.isSome_none,
        Bool.and_false, Bool.false_eq_true, if_false, Forest.withTree]
    cases hend : treesText nt ord (0 + 1) ts ++ rest with
    | nil =>
      have h1 : rest = [] := (List.append_eq_nil_iff.1 hend).2
      have h2 : ts = [] := by
        cases ts with
        | nil => rfl
        | cons t' ts =>
          obtain ⟨s', hs'⟩ := treeText_head nt ord (0 + 1) t'
          rw [treesText, hs'] at hend
          simp at hend
      subst h1 h2
      simp [endOf, backTree, htt]
    | cons c s' =>
      simp only [endOf]
      rw [← hend, readForestLoop_trees hord ts (fun x hx => hw x (by simp [hx])) (0 + 1) _ _ _ rest hrest']
      · simp [backTree, htt]
      · rintro ⟨rfl, rfl⟩
        simp [treesText] at hend
      · simp only [List.length_append, List.length_cons]
        simp only [Nat.zero_add]
        omega
  · -- header
    rw [if_pos (by simpa using h0)]
    cases trees with
    | nil =>
      rcases hrest with rfl | ⟨h, -⟩
      · rw [treesText, List.append_nil, List.append_nil]
        have hrd := readTree_onlyHeader 0 target x htg hx
        obtain ⟨s, hs⟩ : ∃ s, writeForestHeader nt 0 target x = 'F' :: s := by
          unfold writeForestHeader; exact ⟨_, rfl⟩
        rw [hs] at hrd ⊢
        unfold readForest
        simp only
        rw [if_neg (by simp)]
        unfold readForestLoop
        rw [if_neg (by simp), hrd]
        simp [Forest.withTree]
      · exact absurd rfl h
    | cons t ts =>
      have hrd := readTree_header hord (hw t (by simp)) 0 0 target x htg hx (follows_trees nt ord 1 ts hfol)
      have hlen := length_treesText nt ord ts 1
      rw [treesText, List.append_assoc, List.append_assoc]
      obtain ⟨s, hs⟩ : ∃ s, writeForestHeader nt 0 target x = 'F' :: s := by
        unfold writeForestHeader; exact ⟨_, rfl⟩
      rw [hs, List.cons_append] at hrd ⊢
      unfold readForest
      simp only
      rw [if_neg (by simp)]
      unfold readForestLoop
      rw [if_neg (by simp), hrd]
      simp only [Option.bind_eq_bind, Option.bind_some, Option.isSome_none, Bool.false_and,
          Bool.false_eq_true, if_false, Forest.withTree]
      cases hend : treesText nt ord (0 + 1) ts ++ rest with
      | nil =>
        have h1 : rest = [] := (List.append_eq_nil_iff.1 hend).2
        have h2 : ts = [] := by
          cases ts with
          | nil => rfl
          | cons t' ts =>
            obtain ⟨s', hs'⟩ := treeText_head nt ord (0 + 1) t'
            rw [treesText, hs'] at hend
            simp at hend
        subst h1 h2
        simp [endOf]
      | cons c s' =>
        simp only [endOf]
        rw [← hend, readForestLoop_trees hord ts (fun x hx => hw x (by simp [hx])) (0 + 1) _ _ _ rest hrest']
        · simp
        · rintro ⟨rfl, rfl⟩
          simp [treesText] at hend
        · simp only [List.length_append, List.length_cons, Nat.zero_add]
          omega

theorem readAllTrees_trees {nt : NumText K} {ord : Splitter K → List String}
    (hord : ∀ s : Splitter K, (ord s).Perm s.left) (ts : List (Tree K)) (ht : ∀ t ∈ ts, t.Writable nt)
    (hne : ts ≠ []) (i fuel : Nat) (hfuel : ts.length ≤ fuel) (rest : Text) (hrest : Follows rest)
    (out : List (Tree K))
    (hout : rest = [] ∧ out = [] ∨ rest ≠ [] ∧ readAllTrees nt (fuel - ts.length) rest = some out) :
    readAllTrees nt fuel (treesText nt ord i ts ++ rest) = some (ts.map (backTree ord) ++ out) := by
  induction ts generalizing i fuel with
  | nil => exact absurd rfl hne
  | cons t ts ih =>
    cases fuel with
    | zero => simp at hfuel
    | succ fuel =>
      rw [treesText, List.append_assoc]
      unfold readAllTrees
      rw [readTree_tree hord (ht t (by simp)) i (follows_trees nt ord (i + 1) ts hrest)]
      simp only [Option.bind_eq_bind, Option.bind_some]
      cases ts with
      | nil =>
        rcases hout with ⟨rfl, rfl⟩ | ⟨h1, h2⟩
        · simp [treesText, endOf]
        · cases rest with
          | nil => exact absurd rfl h1
          | cons c s =>
            simp only [treesText, List.nil_append, endOf]
            simp only [List.length_cons, List.length_nil, Nat.zero_add, Nat.add_sub_cancel] at h2
            rw [h2]
            simp
      | cons t' ts =>
        cases hend : treesText nt ord (i + 1) (t' :: ts) ++ rest with
        | nil =>
          obtain ⟨s', hs'⟩ := treeText_head nt ord (i + 1) t'
          rw [treesText, hs'] at hend
          simp at hend
        | cons c s =>
          simp only [endOf]
          rw [← hend, ih (fun x hx => ht x (by simp [hx])) (by simp) (i + 1) fuel (by simp at hfuel ⊢; omega)]
          · simp
          · simpa [Nat.add_sub_add_right] using hout

end CloudForest
