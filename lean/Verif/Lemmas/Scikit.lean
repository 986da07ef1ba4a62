import Verif.Spec.Scikit
import Mathlib.Tactic.Ring
import Mathlib.Tactic.Linarith

/-!
# Lemmas on flat trees
-/

set_option linter.unusedSectionVars false

namespace CloudForest

variable {K : Type} [Field K] [LinearOrder K]

/-- The entries of a tree whose root is entry `base`. -/
def flatList : Nat → BinTree K → List (SkNode K)
  | _, .leaf => [⟨-1, -1, 0, .fin 0⟩]
  | base, .split f v l r =>
    ⟨((base + 1 : Nat) : Int), ((base + 1 + l.size : Nat) : Int), f, v⟩ ::
      (flatList (base + 1) l ++ flatList (base + 1 + l.size) r)

theorem BinTree.size_pos (b : BinTree K) : 0 < b.size := by
  cases b <;> simp only [BinTree.size] <;> omega

theorem flatList_length (b : BinTree K) : ∀ base, (flatList base b).length = b.size := by
  induction b with
  | leaf => intro _; rfl
  | split f v l r ihl ihr =>
    intro base
    simp only [flatList, List.length_cons, List.length_append, ihl, ihr, BinTree.size]
    omega

theorem upd_last (md nc cp : Nat) (pre : List (SkNode K)) (x : SkNode K) (post : List (SkNode K))
    (g : SkNode K → SkNode K) :
    (SkTree.upd ⟨md, nc, cp, pre ++ x :: post⟩ pre.length g) =
      some ⟨md, nc, cp, pre ++ g x :: post⟩ := by
  simp [SkTree.upd]

theorem buildSk_ok {n : Node K} {b : BinTree K} (h : n.IsBin b) :
    ∀ (depth : Nat) (md cp : Nat) (ns : List (SkNode K)),
      buildSk depth n ⟨md, ns.length, cp, ns⟩ =
        some ⟨max md (depth + b.depth), ns.length + b.size, cp + b.size,
          ns ++ flatList ns.length b⟩ := by
  induction h with
  | leaf coded fi l r m pred =>
    intro depth md cp ns
    rw [buildSk]
    by_cases hd : md < depth
    · simp only [if_pos hd]
      rw [upd_last]
      simp only [Option.bind_eq_bind, Option.bind_some]
      rw [upd_last]
      simp only [flatList, BinTree.depth, BinTree.size]
      rw [Nat.max_eq_right (by omega)]; rfl
    · simp only [if_neg hd]
      rw [upd_last]
      simp only [Option.bind_eq_bind, Option.bind_some]
      rw [upd_last]
      simp only [flatList, BinTree.depth, BinTree.size]
      rw [Nat.max_eq_left (by omega)]
  | split coded fi l r m pred s bl br _ _ ihl ihr =>
    intro depth md cp ns
    rw [buildSk]
    have key : ∀ md', md' = max md depth →
        (do
          let t ← SkTree.upd (⟨md', ns.length + 1, cp + 1, ns ++ [⟨0, 0, 0, .fin 0⟩]⟩ : SkTree K)
            ns.length fun n => { n with feature := fi }
          let t ← t.upd ns.length fun n => { n with threshold := s.value }
          let t ← t.upd ns.length fun n => { n with leftChild := t.nodeCount }
          let t ← buildSk (depth + 1) l t
          let t ← t.upd ns.length fun n => { n with rightChild := t.nodeCount }
          buildSk (depth + 1) r t) =
        some ⟨max md (depth + (BinTree.split fi s.value bl br).depth),
          ns.length + (BinTree.split fi s.value bl br).size,
          cp + (BinTree.split fi s.value bl br).size,
          ns ++ flatList ns.length (BinTree.split fi s.value bl br)⟩ := by
      intro md' hmd
      rw [upd_last]; simp only [Option.bind_eq_bind, Option.bind_some]
      rw [upd_last]; simp only [Option.bind_some]
      rw [upd_last]; simp only [Option.bind_some]
      have e1 := ihl (depth + 1) md' (cp + 1)
        (ns ++ [⟨((ns.length + 1 : Nat) : Int), 0, fi, s.value⟩])
      rw [List.length_append, List.length_singleton] at e1
      rw [e1]
      simp only [Option.bind_some]
      rw [List.append_assoc, List.singleton_append, upd_last]
      simp only [Option.bind_some]
      have e2 := ihr (depth + 1) (max md' (depth + 1 + bl.depth)) (cp + 1 + bl.size)
        (ns ++ ⟨((ns.length + 1 : Nat) : Int), ((ns.length + 1 + bl.size : Nat) : Int), fi, s.value⟩
          :: flatList (ns.length + 1) bl)
      have hl : (ns ++ (⟨((ns.length + 1 : Nat) : Int), ((ns.length + 1 + bl.size : Nat) : Int), fi,
          s.value⟩ : SkNode K) :: flatList (ns.length + 1) bl).length = ns.length + 1 + bl.size := by
        rw [List.length_append, List.length_cons, flatList_length]; omega
      rw [hl] at e2
      rw [e2]
      simp only [flatList, BinTree.depth, BinTree.size, List.append_assoc, List.cons_append]
      congr 2
      · omega
      · omega
      · omega
    by_cases hd : md < depth
    · simp only [if_pos hd]
      exact key depth (by omega)
    · simp only [if_neg hd]
      exact key md (by omega)

theorem buildSk_none (n : Node K) : ∀ (depth : Nat) (t t' : SkTree K),
    buildSk depth n t = some t' → ∃ b, n.IsBin b := by
  induction n with
  | nil => intro depth t t' h; simp [buildSk] at h
  | mk coded fi l r m pred s ihl ihr _ =>
    intro depth t t' h
    cases s with
    | none => exact ⟨_, .leaf ..⟩
    | some s =>
      rw [buildSk] at h
      simp only [Option.bind_eq_bind, Option.bind_eq_some_iff] at h
      obtain ⟨_, _, _, _, _, _, _, h4, _, _, h6⟩ := h
      obtain ⟨bl, hbl⟩ := ihl _ _ _ h4
      obtain ⟨br, hbr⟩ := ihr _ _ _ h6
      exact ⟨_, .split _ _ _ _ _ _ _ _ _ hbl hbr⟩

theorem flat_reads (b : BinTree K) : ∀ (pre post : List (SkNode K)),
    FlatReads (pre ++ flatList pre.length b ++ post) (pre.length : Int) b := by
  induction b with
  | leaf =>
    intro pre post
    exact .leaf _ ⟨-1, -1, 0, .fin 0⟩ (by simp [flatList]) rfl rfl
  | split f v l r ihl ihr =>
    intro pre post
    refine FlatReads.split pre.length
      ⟨((pre.length + 1 : Nat) : Int), ((pre.length + 1 + l.size : Nat) : Int), f, v⟩ l r
      (by simp [flatList]) (Int.natCast_nonneg _) (Int.natCast_nonneg _) ?_ ?_
    · have h := ihl (pre ++ [⟨((pre.length + 1 : Nat) : Int),
        ((pre.length + 1 + l.size : Nat) : Int), f, v⟩])
        (flatList (pre.length + 1 + l.size) r ++ post)
      rw [List.length_append, List.length_singleton] at h
      simpa only [flatList, List.append_assoc, List.cons_append, List.nil_append] using h
    · have h := ihr (pre ++ ⟨((pre.length + 1 : Nat) : Int),
        ((pre.length + 1 + l.size : Nat) : Int), f, v⟩ :: flatList (pre.length + 1) l) post
      rw [List.length_append, List.length_cons, flatList_length,
        show pre.length + (l.size + 1) = pre.length + 1 + l.size by omega] at h
      simpa only [flatList, List.append_assoc, List.cons_append, List.nil_append] using h

theorem FlatReads.unique {nodes : List (SkNode K)} {i : Int} {b : BinTree K}
    (h : FlatReads nodes i b) : ∀ {b'}, FlatReads nodes i b' → b' = b := by
  induction h with
  | leaf i n h1 h2 h3 =>
    intro b' h'
    generalize hj : (i : Int) = j at h'
    cases h' with
    | leaf => rfl
    | split i' n' bl br g1 g2 =>
      have : i = i' := by exact_mod_cast hj
      subst this
      rw [h1] at g1; cases g1
      omega
  | split i n bl br h1 h2 h3 h4 h5 ih1 ih2 =>
    intro b' h'
    generalize hj : (i : Int) = j at h'
    cases h' with
    | leaf i' n' g1 g2 =>
      have : i = i' := by exact_mod_cast hj
      subst this
      rw [h1] at g1; cases g1
      omega
    | split i' n' bl' br' g1 g2 g3 g4 g5 =>
      have : i = i' := by exact_mod_cast hj
      subst this
      rw [h1] at g1; cases g1
      rw [ih1 g4, ih2 g5]

theorem flat_children (b : BinTree K) : ∀ base,
    ((flatList base b).flatMap SkNode.children).Perm
      ((List.range' (base + 1) (b.size - 1)).map fun i : Nat => (i : Int)) := by
  induction b with
  | leaf => intro base; simp [flatList, SkNode.children, BinTree.size]
  | split f v l r ihl ihr =>
    intro base
    have hl := l.size_pos
    have hr := r.size_pos
    have e : (BinTree.split f v l r).size - 1 = (l.size - 1 + 1) + (r.size - 1 + 1) := by
      simp only [BinTree.size]; omega
    rw [e, ← List.range'_append, List.map_append]
    simp only [flatList, List.flatMap_cons, List.flatMap_append, Nat.one_mul]
    rw [List.range'_succ, List.range'_succ, List.map_cons, List.map_cons,
      show base + 1 + (l.size - 1 + 1) = base + 1 + l.size by omega]
    have hc : SkNode.children (⟨((base + 1 : Nat) : Int), ((base + 1 + l.size : Nat) : Int), f, v⟩ :
        SkNode K) = [((base + 1 : Nat) : Int), ((base + 1 + l.size : Nat) : Int)] := by
      unfold SkNode.children
      rw [if_neg (by simp only; omega)]
    rw [hc]
    simp only [List.cons_append, List.nil_append]
    refine List.Perm.cons _ ?_
    refine (List.Perm.cons _ ((ihl (base + 1)).append (ihr (base + 1 + l.size)))).trans ?_
    exact List.perm_middle.symm

end CloudForest
