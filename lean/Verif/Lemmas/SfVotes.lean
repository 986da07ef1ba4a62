import Verif.Lemmas.Sf4
import Verif.Lemmas.Tree
import Mathlib.Tactic.Linarith

/-!
# Trees that are the same vote the same
-/

set_option linter.unusedSectionVars false

namespace CloudForest
variable {K : Type} [Field K] [LinearOrder K] [IsStrictOrderedRing K]

theorem Splitter.Same.split {s s' : Splitter K} (h : s.Same s') (fm : FeatureMatrix K) (cases : List Nat) :
    s'.split fm cases = s.split fm cases := by
  obtain ⟨h1, h2, h3, h4⟩ := h
  have hg : ∀ f : Feature K, (fun c => f.goesLeft c s') = fun c => f.goesLeft c s := by
    intro f
    funext c
    cases f with
    | num f => simp only [Feature.goesLeft, h3]
    | cat f =>
      have : ∀ v, s'.left.contains v = s.left.contains v := by
        intro v
        have := h4 v
        by_cases hv : v ∈ s.left
        · rw [List.contains_iff_mem.2 hv, List.contains_iff_mem.2 (this.1 hv)]
        · have hv' : v ∉ s'.left := fun h => hv (this.2 h)
          rw [Bool.eq_false_iff.2 fun h => hv (List.contains_iff_mem.1 h),
            Bool.eq_false_iff.2 fun h => hv' (List.contains_iff_mem.1 h)]
      simp only [Feature.goesLeft, this]
  simp only [Splitter.split, FeatureMatrix.featureOf, h1, hg]

theorem Node.Same.isNil {n n' : Node K} (h : n.Same n') : n'.isNil = n.isNil := by
  cases n <;> cases n' <;> first | rfl | exact h.elim

theorem Node.Same.isLeaf {n n' : Node K} (h : n.Same n') : n'.isLeaf = n.isLeaf := by
  cases n <;> cases n'
  · rfl
  · exact h.elim
  · exact h.elim
  · obtain ⟨-, hl, hr, -⟩ := h
    simp only [Node.isLeaf, hl.isNil, hr.isNil]

theorem Node.Same.predOf {n n' : Node K} (h : n.Same n') : n'.predOf = n.predOf := by
  cases n <;> cases n'
  · rfl
  · exact h.elim
  · exact h.elim
  · exact h.1.symm

theorem Node.Same.strip {n n' : Node K} (h : n.Same n') : n.stripCodes.Same n' := by
  induction n generalizing n' with
  | nil => exact h
  | mk c fi l r m p s ihl ihr ihm =>
    cases n' with
    | nil => exact h.elim
    | mk c' fi' l' r' m' p' s' =>
      obtain ⟨h1, h2, h3, h4, h5⟩ := h
      exact ⟨h1, ihl h2, ihr h3, ihm h4, h5⟩

/-- Without codes, the visits correspond. -/
theorem recurse_same (fm : FeatureMatrix K) (n n' : Node K) (h : n.Same n') (cases : List Nat) (d : Nat) :
    match n.stripCodes.recurse fm cases d, n'.stripCodes.recurse fm cases d with
    | some a, some b => List.Forall₂ (fun v v' => v.node.Same v'.node ∧ v.cases = v'.cases) a.1 b.1 ∧ a.2 = b.2
    | none, none => True
    | _, _ => False := by
  induction n generalizing n' cases d with
  | nil =>
    cases n' with
    | nil => trivial
    | mk _ _ _ _ _ _ _ => exact h.elim
  | mk c fi l r m p s ihl ihr ihm =>
    cases n' with
    | nil => exact h.elim
    | mk c' fi' l' r' m' p' s' =>
      have hself : (Node.mk c fi l r m p s).stripCodes.Same (Node.mk c' fi' l' r' m' p' s').stripCodes := by
        have : ∀ a b : Node K, a.Same b → a.Same b.stripCodes := by
          intro a
          induction a with
          | nil => intro b hb; cases b <;> first | trivial | exact hb.elim
          | mk c fi l r m p s ihl ihr ihm =>
            intro b hb
            cases b with
            | nil => exact hb.elim
            | mk c' fi' l' r' m' p' s' =>
              obtain ⟨h1, h2, h3, h4, h5⟩ := hb
              exact ⟨h1, ihl _ h2, ihr _ h3, ihm _ h4, h5⟩
        exact this _ _ h.strip
      obtain ⟨h1, h2, h3, h4, h5⟩ := h
      have hmn : m'.stripCodes.isNil = m.stripCodes.isNil := by
        have : ∀ a : Node K, a.stripCodes.isNil = a.isNil := by intro a; cases a <;> rfl
        rw [this, this, h4.isNil]
      simp only [Node.stripCodes, Node.recurse] at hself ⊢
      cases s with
      | none =>
        cases s' with
        | some _ => exact h5.elim
        | none =>
          simp only [nodeSplit, Option.bind_eq_bind, Option.bind_some]
          exact ⟨.cons ⟨hself, rfl⟩ .nil, trivial⟩
      | some s =>
        cases s' with
        | none => exact h5.elim
        | some s' =>
          have hsp := Splitter.Same.split h5 fm cases
          simp only [nodeSplit, hsp, Option.bind_eq_bind]
          cases hs : s.split fm cases with
          | none => simp
          | some sp =>
            simp only [Option.bind_some]
            have el := ihl _ h2 sp.left (d + 1)
            have er := ihr _ h3 sp.right (d + 1)
            have em := ihm _ h4 sp.missing (d + 1)
            revert el
            cases l.stripCodes.recurse fm sp.left (d + 1) <;>
              cases l'.stripCodes.recurse fm sp.left (d + 1) <;> intro el <;>
              first | exact el.elim | simp only [Option.bind_none, Option.bind_some]
            revert er
            cases r.stripCodes.recurse fm sp.right (d + 1) <;>
              cases r'.stripCodes.recurse fm sp.right (d + 1) <;> intro er <;>
              first | exact er.elim | simp only [Option.bind_none, Option.bind_some]
            rw [hmn]
            by_cases hm : (decide (sp.missing.length > 0) && !m.stripCodes.isNil) = true
            · simp only [hm, ↓reduceIte]
              revert em
              cases m.stripCodes.recurse fm sp.missing (d + 1) <;>
                cases m'.stripCodes.recurse fm sp.missing (d + 1) <;> intro em <;>
                first | exact em.elim | simp only [Option.bind_none, Option.bind_some]
              refine ⟨.cons ⟨hself, rfl⟩ ?_, by rw [el.2, er.2, em.2]⟩
              exact List.rel_append (List.rel_append el.1 er.1) em.1
            · simp only [hm]
              refine ⟨.cons ⟨hself, rfl⟩ ?_, by rw [el.2, er.2]⟩
              exact List.rel_append el.1 er.1

theorem voteWeight_file (t t' : Tree K) (h : t'.weight = fileWeight t.weight) :
    t'.voteWeight = t.voteWeight := by
  unfold Tree.voteWeight
  rw [h]
  unfold fileWeight
  by_cases hw : (XF.fin 0 : XF K) ≤ t.weight
  · simp only [hw, ↓reduceIte]
  · have : ¬ (XF.fin 0 : XF K) ≤ XF.fin (-1) := by
      intro h
      have h' : (0 : K) ≤ -1 := h
      have := (zero_lt_one : (0 : K) < 1)
      linarith
    simp only [hw, this, ↓reduceIte]

theorem voteCases_same (t t' : Tree K) (h : t.Same t') (fm : FeatureMatrix K) (cases : List Nat) :
    Tree.voteCases { t' with root := t'.root.stripCodes } fm cases =
      Tree.voteCases { t with root := t.root.stripCodes } fm cases := by
  obtain ⟨h1, h2, h3⟩ := h
  have hv := voteWeight_file t t' h3
  have hr := recurse_same fm t.root t'.root h1 cases 0
  unfold Tree.voteCases
  simp only [Option.bind_eq_bind]
  revert hr
  cases t.root.stripCodes.recurse fm cases 0 <;>
    cases t'.root.stripCodes.recurse fm cases 0 <;> intro hr <;>
    first | exact hr.elim | simp only [Option.bind_none, Option.bind_some, Option.some.injEq, Prod.mk.injEq]
  refine ⟨?_, hr.2.symm⟩
  have hf := hr.1
  revert hf
  generalize (Prod.fst _ : List (Visit K)) = a
  generalize (Prod.fst _ : List (Visit K)) = b
  intro hf
  induction hf with
  | nil => rfl
  | cons hab _ ih =>
    rw [List.flatMap_cons, List.flatMap_cons, ih, hab.1.isLeaf, hab.1.predOf, hab.2]
    simp only [Tree.voteWeight] at hv ⊢
    rw [hv]

theorem back_strip (ord : Splitter K → List String) (n : Node K) :
    (back ord n).stripCodes = back ord n := by
  induction n with
  | nil => rfl
  | mk c fi l r m p s ihl ihr ihm =>
    cases s with
    | none => rfl
    | some s =>
      unfold back
      cases hm : m.isNil <;> simp [Node.stripCodes, ihl, ihr]

end CloudForest
