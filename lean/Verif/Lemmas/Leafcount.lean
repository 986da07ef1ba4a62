import Verif.Model.Leafcount
import Verif.Spec.Leafcount
import Verif.Props.Tree
import Mathlib.Data.List.Induction

/-!
# Lemmas about leafcount
-/

set_option linter.unusedSectionVars false

namespace CloudForest
variable {K : Type} [Field K] [LinearOrder K] [IsStrictOrderedRing K]

/-! ## Features on the way -/

/-- The calls for features at one visit. -/
def visitCalls (idx : String → Nat) (v : Visit K) : List (Nat × Nat) :=
  match v.node with
  | .mk _ _ _ _ _ _ (some s) => v.cases.map fun c => (c, idx s.feature)
  | _ => []

/-- The calls that a case should cause. -/
def caseCalls (fm : FeatureMatrix K) (idx : String → Nat) (n : Node K) (c : Nat) : List (Nat × Nat) :=
  (consulted fm n c).map fun nm => (c, idx nm)

theorem perm_flatMap_append {α β : Type} (l : List α) (f g : α → List β) :
    (l.flatMap fun a => f a ++ g a).Perm (l.flatMap f ++ l.flatMap g) := by
  induction l with
  | nil => exact .nil
  | cons a l ih =>
    simp only [List.flatMap_cons, List.append_assoc]
    refine List.Perm.append_left _ ?_
    refine (ih.append_left _).trans ?_
    rw [← List.append_assoc, ← List.append_assoc]
    exact List.Perm.append_right _ List.perm_append_comm

theorem flatMap_congr_mem {α β : Type} {l : List α} {f g : α → List β} (h : ∀ a ∈ l, f a = g a) :
    l.flatMap f = l.flatMap g := by
  induction l with
  | nil => rfl
  | cons a l ih =>
    rw [List.flatMap_cons, List.flatMap_cons, h a (by simp), ih fun b hb => h b (by simp [hb])]

theorem consulted_of_dir {fm : FeatureMatrix K} {coded : Option (Coded K)} {fi : Nat}
    {l r m : Node K} {pred : String} {spl : Option (Splitter K)} {c : Nat} {d : Dir}
    (h : caseDir fm coded fi spl c = some d) :
    consulted fm (.mk coded fi l r m pred spl) c =
      (spl.map (·.feature)).toList ++ consulted fm (pick d l r m) c := by
  rw [consulted, h]
  cases d <;> rfl

theorem recurse_calls (fm : FeatureMatrix K) (idx : String → Nat) (cases : List Nat) (n : Node K) :
    ∀ (cs : List Nat) (d : Nat) (vs : List (Visit K)) (out : List Nat), Usable fm cases n → (∀ c ∈ cs, c ∈ cases) →
    n.recurse fm cs d = some (vs, out) →
    (vs.flatMap (visitCalls idx)).Perm (cs.flatMap (caseCalls fm idx n)) := by
  induction n with
  | nil => intro cs d vs out h; exact h.elim
  | mk coded fi l r m pred spl ihl ihr ihm =>
    intro cs d vs out hu hcs hrec
    have hme : ∀ cs : List Nat, visitCalls idx (⟨.mk coded fi l r m pred spl, cs, d⟩ : Visit K) =
        cs.flatMap fun c => ((spl.map (·.feature)).toList.map fun nm => (c, idx nm)) := by
      intro cs
      cases spl with
      | none => simp [visitCalls]
      | some s =>
        simp only [visitCalls, Option.map_some, Option.toList_some, List.map_cons, List.map_nil]
        induction cs with
        | nil => rfl
        | cons c cs ih => simpa using ih
    by_cases hs : splits coded spl = true
    · obtain ⟨hn, hul, hur, hum⟩ := (usable_split hs).1 hu
      obtain ⟨sp, hsp, hok⟩ := nodeSplit_ok hn cs hcs
      have hmem : ∀ c, c ∈ sp.left ++ sp.missing ++ sp.right → c ∈ cases :=
        fun c hc => hcs c (hok.perm.mem_iff.1 hc)
      obtain ⟨vl, ol, hl, -⟩ := recurse_ok fm cases l sp.left (d + 1) hul (fun c hc => hmem c (by simp [hc]))
      obtain ⟨vr, orr, hr, -⟩ := recurse_ok fm cases r sp.right (d + 1) hur (fun c hc => hmem c (by simp [hc]))
      have hpl := ihl sp.left (d + 1) vl ol hul (fun c hc => hmem c (by simp [hc])) hl
      have hpr := ihr sp.right (d + 1) vr orr hur (fun c hc => hmem c (by simp [hc])) hr
      have hgoal : (cs.flatMap (caseCalls fm idx (.mk coded fi l r m pred spl))).Perm
          (visitCalls idx (⟨.mk coded fi l r m pred spl, cs, d⟩ : Visit K) ++
            (sp.left.flatMap (caseCalls fm idx l) ++ sp.right.flatMap (caseCalls fm idx r) ++
              sp.missing.flatMap (caseCalls fm idx m))) := by
        rw [hme]
        have hsplit : ∀ (d : Dir) (blk : List Nat), (∀ c ∈ blk, caseDir fm coded fi spl c = some d) →
            (blk.flatMap (caseCalls fm idx (.mk coded fi l r m pred spl))).Perm
              ((blk.flatMap fun c => (spl.map (·.feature)).toList.map fun nm => (c, idx nm)) ++
                blk.flatMap (caseCalls fm idx (pick d l r m))) := by
          intro d blk hb
          refine List.Perm.trans (List.Perm.of_eq (flatMap_congr_mem fun c hc => ?_)) (perm_flatMap_append _ _ _)
          rw [caseCalls, consulted_of_dir (hb c hc), List.map_append]
          rfl
        refine (hok.perm.symm.flatMap_right _).trans ?_
        rw [List.flatMap_append, List.flatMap_append]
        refine (((hsplit .L _ hok.left).append (hsplit .M _ hok.missing)).append (hsplit .R _ hok.right)).trans ?_
        refine List.Perm.trans ?_ ((hok.perm.flatMap_right _).append_right _)
        rw [List.flatMap_append, List.flatMap_append]
        simp only [pick]
        rw [List.perm_iff_count]
        intro x
        simp only [List.count_append]
        omega
      by_cases hc : (decide (sp.missing.length > 0) && !m.isNil) = true
      · have hm : Usable fm cases m := by
          rcases hum with h | h
          · subst h; simp [Node.isNil] at hc
          · exact h
        obtain ⟨vm, om, hvm, -⟩ := recurse_ok fm cases m sp.missing (d + 1) hm (fun c hc => hmem c (by simp [hc]))
        have hpm := ihm sp.missing (d + 1) vm om hm (fun c hc => hmem c (by simp [hc])) hvm
        simp only [Node.recurse, hsp, hl, hr, hvm, Option.bind_eq_bind, Option.bind_some, hc, if_true,
          Option.some.injEq, Prod.mk.injEq] at hrec
        obtain ⟨rfl, rfl⟩ := hrec
        refine List.Perm.trans ?_ hgoal.symm
        rw [List.flatMap_cons, List.flatMap_append, List.flatMap_append]
        exact ((hpl.append hpr).append hpm).append_left _
      · simp only [Node.recurse, hsp, hl, hr, Option.bind_eq_bind, Option.bind_some, hc, if_false,
          Option.some.injEq, Prod.mk.injEq] at hrec
        obtain ⟨rfl, rfl⟩ := hrec
        refine List.Perm.trans ?_ hgoal.symm
        have hnone : sp.missing.flatMap (caseCalls fm idx m) = [] := by
          cases hmis : sp.missing with
          | nil => rfl
          | cons c cs' =>
            have hmn : m = .nil := by
              cases m with
              | nil => rfl
              | mk => exfalso; apply hc; simp [Node.isNil, hmis]
            subst hmn
            rw [List.flatMap_eq_nil_iff]
            intro c _
            rfl
        rw [hnone, List.append_nil, List.flatMap_cons, List.flatMap_append]
        exact (hpl.append hpr).append_left _
    · have hn : coded = none ∧ spl = none := by
        cases coded <;> cases spl <;> simp [splits] at hs ⊢
      obtain ⟨rfl, rfl⟩ := hn
      simp only [Node.recurse, nodeSplit, Option.bind_eq_bind, Option.bind_some, Option.some.injEq,
        Prod.mk.injEq] at hrec
      obtain ⟨rfl, rfl⟩ := hrec
      have : cs.flatMap (caseCalls fm idx (.mk none fi l r m pred none)) = [] := by
        rw [List.flatMap_eq_nil_iff]
        intro c _
        rfl
      rw [this]
      simp [visitCalls]

/-! ## Pairs of cases -/

/-- A path leads to one prediction. -/
theorem landing_leaf (fm : FeatureMatrix K) (n : Node K) : ∀ (c : Nat) (p : List Dir) (x y : String),
    landing fm n c = some (p, x) → (p, y) ∈ leavesOf n → x = y := by
  induction n with
  | nil => intro c p x y h; cases h
  | mk coded fi l r m pred spl ihl ihr ihm =>
    intro c p x y h hy
    by_cases hs : splits coded spl = true
    · rw [leavesOf, if_pos hs] at hy
      rw [landing, if_pos hs] at h
      simp only [List.mem_append, List.mem_map, Prod.mk.injEq] at hy
      rcases hd : caseDir fm coded fi spl c with _ | d
      · rw [hd] at h; cases h
      · rw [hd] at h
        cases d with
        | L =>
          obtain ⟨u, hu, he⟩ := Option.map_eq_some_iff.1 h
          cases he
          rcases hy with (⟨v, hv, he, rfl⟩ | ⟨v, hv, he, rfl⟩) | ⟨v, hv, he, rfl⟩
          · injection he with _ he
            exact ihl c u.1 u.2 v.2 hu (by rw [← he]; exact hv)
          · cases he
          · cases he
        | R =>
          obtain ⟨u, hu, he⟩ := Option.map_eq_some_iff.1 h
          cases he
          rcases hy with (⟨v, hv, he, rfl⟩ | ⟨v, hv, he, rfl⟩) | ⟨v, hv, he, rfl⟩
          · cases he
          · injection he with _ he
            exact ihr c u.1 u.2 v.2 hu (by rw [← he]; exact hv)
          · cases he
        | M =>
          obtain ⟨u, hu, he⟩ := Option.map_eq_some_iff.1 h
          cases he
          rcases hy with (⟨v, hv, he, rfl⟩ | ⟨v, hv, he, rfl⟩) | ⟨v, hv, he, rfl⟩
          · cases he
          · cases he
          · injection he with _ he
            exact ihm c u.1 u.2 v.2 hu (by rw [← he]; exact hv)
    · rw [leavesOf, if_neg hs] at hy
      rw [landing, if_neg hs] at h
      simp only [List.mem_singleton, Prod.mk.injEq] at hy
      cases h
      exact hy.2.symm

theorem count_pairs (cs : List Nat) (a b : Nat) :
    (cs.flatMap fun x => cs.map fun y => (x, y)).count (a, b) = cs.count a * cs.count b := by
  have : ∀ l : List Nat, (l.flatMap fun x => cs.map fun y => (x, y)).count (a, b) = l.count a * cs.count b := by
    intro l
    induction l with
    | nil => simp
    | cons x l ih =>
      rw [List.flatMap_cons, List.count_append, ih, List.count_cons]
      by_cases h : x = a
      · subst h
        have : (cs.map fun y => (x, y)).count (x, b) = cs.count b := by
          rw [List.count, List.countP_map]
          congr 1
          funext y
          simp
        rw [this]
        simp [Nat.add_mul, Nat.add_comm]
      · have : (cs.map fun y => (x, y)).count (a, b) = 0 := by
          rw [List.count_eq_zero]
          intro hm
          obtain ⟨y, -, he⟩ := List.mem_map.1 hm
          cases he
          exact h rfl
        rw [this]
        simp [h]
  exact this cs

theorem sum_indicator {α : Type} [DecidableEq α] (L : List α) (hn : L.Nodup) (A B : Option α) :
    (L.map fun x => (if A = some x then 1 else 0) * (if B = some x then 1 else 0)).sum =
      if ∃ x ∈ L, A = some x ∧ B = some x then 1 else 0 := by
  induction L with
  | nil => simp
  | cons x L ih =>
    rw [List.map_cons, List.sum_cons, ih hn.of_cons]
    by_cases hA : A = some x
    · have hno : ¬ ∃ y ∈ L, A = some y ∧ B = some y := by
        rintro ⟨y, hy, h1, -⟩
        rw [hA] at h1
        cases h1
        exact (List.nodup_cons.1 hn).1 hy
      by_cases hB : B = some x
      · have hyes : ∃ y ∈ x :: L, A = some y ∧ B = some y := ⟨x, by simp, hA, hB⟩
        rw [if_pos hA, if_pos hB, if_neg hno, if_pos hyes]
      · have hno' : ¬ ∃ y ∈ x :: L, A = some y ∧ B = some y := by
          rintro ⟨y, hy, h1, h2⟩
          rcases List.mem_cons.1 hy with rfl | hy
          · exact hB h2
          · exact hno ⟨y, hy, h1, h2⟩
        rw [if_pos hA, if_neg hB, if_neg hno, if_neg hno']
    · have : (∃ y ∈ x :: L, A = some y ∧ B = some y) ↔ ∃ y ∈ L, A = some y ∧ B = some y := by
        constructor
        · rintro ⟨y, hy, h1, h2⟩
          rcases List.mem_cons.1 hy with rfl | hy
          · exact absurd h1 hA
          · exact ⟨y, hy, h1, h2⟩
        · rintro ⟨y, hy, h⟩
          exact ⟨y, List.mem_cons_of_mem _ hy, h⟩
      rw [if_neg hA, Nat.zero_mul, Nat.zero_add]
      simp only [this]

/-- The calls of one tree: every pair of cases that share a leaf once, and every case with every feature it is
split by. -/
theorem treeCalls_ok (fm : FeatureMatrix K) (t : Tree K) (n : Nat) (hc : fm.allCases = some (List.range n))
    (hu : Usable fm (List.range n) t.root) :
    ∃ ps fs, treeCalls fm t = some (ps, fs) ∧
      (∀ a b, ps.count (a, b) = if a < n ∧ b < n ∧ together fm t a b = true then 1 else 0) ∧
      fs.Perm ((List.range n).flatMap (caseCalls fm (fun nm => (fm.map nm).getD 0) t.root)) := by
  obtain ⟨groups, preds, counts, paths, -, h2, h3, h4, h5, h6, h7⟩ := c07_partition t fm _ hc hu
  obtain ⟨vs, out, hr, -⟩ := recurse_ok fm (List.range n) t.root (List.range n) 0 hu (fun _ h => h)
  have hcounts : counts = vs.flatMap (visitCalls fun nm => (fm.map nm).getD 0) := by
    simp only [Tree.getLeaves, hc, hr, Option.bind_eq_bind, Option.bind_some, Option.some.injEq,
      Prod.mk.injEq] at h2
    rw [← h2.2]
    rfl
  refine ⟨pairCalls (groups.zip preds), counts, by simp only [treeCalls, h2, Option.bind_eq_bind, Option.bind_some],
    ?_, ?_⟩
  · intro a b
    have hsum : (pairCalls (groups.zip preds)).count (a, b) =
        ((groups.zip preds).map fun l => l.1.count a * l.1.count b).sum := by
      unfold pairCalls
      rw [List.count_flatMap]
      congr 1
      apply List.map_congr_left
      intro l _
      exact count_pairs l.1 a b
    rw [hsum]
    have hL : (groups.zip preds).map (fun l => l.1.count a * l.1.count b) =
        (paths.zip preds).map fun x =>
          (if (if a < n then landing fm t.root a else none) = some x then 1 else 0) *
          (if (if b < n then landing fm t.root b else none) = some x then 1 else 0) := by
      apply List.ext_getElem
      · simp [h3, h4]
      · intro i hi hi'
        simp only [List.length_map, List.length_zip] at hi hi'
        have hcount : ∀ c, (groups[i]'(by omega)).count c =
            if (if c < n then landing fm t.root c else none) = some (paths[i]'(by omega), preds[i]'(by omega))
              then 1 else 0 := by
          intro c
          rw [(h6 i (by omega) (by omega) (by omega)).1.count_eq]
          by_cases hcn : c < n
          · rw [if_pos hcn]
            by_cases hl : landing fm t.root c = some (paths[i]'(by omega), preds[i]'(by omega))
            · rw [if_pos hl, List.count_filter (by simp [hl])]
              exact List.count_eq_one_of_mem List.nodup_range (List.mem_range.2 hcn)
            · rw [if_neg hl, List.count_eq_zero]
              intro hm
              have := (List.mem_filter.1 hm).2
              exact hl (by simpa using this)
          · rw [if_neg hcn, if_neg (by simp), List.count_eq_zero]
            intro hm
            exact hcn (List.mem_range.1 (List.mem_filter.1 hm).1)
        simp only [List.getElem_map, List.getElem_zip, hcount]
    rw [hL, sum_indicator]
    · congr 1
      apply propext
      constructor
      · rintro ⟨x, -, h8, h9⟩
        by_cases ha : a < n
        · by_cases hb : b < n
          · rw [if_pos ha] at h8
            rw [if_pos hb] at h9
            refine ⟨ha, hb, ?_⟩
            simp [together, h8, h9]
          · rw [if_neg hb] at h9; cases h9
        · rw [if_neg ha] at h8; cases h8
      · rintro ⟨ha, hb, hab⟩
        unfold together at hab
        cases h8 : landing fm t.root a with
        | none => rw [h8] at hab; simp at hab
        | some x =>
          cases h9 : landing fm t.root b with
          | none => rw [h8, h9] at hab; simp at hab
          | some y =>
            rw [h8, h9] at hab
            simp only [beq_iff_eq] at hab
            obtain ⟨i, hi, hp⟩ := List.getElem_of_mem (h7 a (List.mem_range.2 ha) x h8)
            have hleaf := (h6 i (by omega) (by omega) hi).2
            rw [hp] at hleaf
            have e1 := landing_leaf fm t.root a x.1 x.2 _ h8 hleaf
            have e2 := landing_leaf fm t.root b y.1 y.2 _ h9 (by rw [← hab]; exact hleaf)
            refine ⟨x, ?_, by rw [if_pos ha], ?_⟩
            · rw [List.mem_iff_getElem]
              refine ⟨i, by simp; omega, ?_⟩
              rw [List.getElem_zip, hp, ← e1]
            · rw [if_pos hb]
              congr 1
              exact (Prod.ext hab (by rw [e1, e2])).symm
    · have : ((paths.zip preds).map Prod.fst).Nodup := by
        rw [List.map_fst_zip (by omega)]
        exact h5
      exact this.of_map
  · rw [hcounts]
    exact recurse_calls fm _ (List.range n) t.root _ 0 vs out hu (fun _ h => h) hr

/-! ## The counter -/

theorem sparseAdd_keys (m : List ((Nat × Nat) × Int)) (k : Nat × Nat) (val : Int) :
    ∀ k', k' ∈ (sparseAdd val m k).map (·.1) ↔ k' = k ∨ k' ∈ m.map (·.1) := by
  induction m with
  | nil => intro k'; simp [sparseAdd]
  | cons e m ih =>
    intro k'
    obtain ⟨k0, v⟩ := e
    unfold sparseAdd
    by_cases h : k0 = k
    · rw [if_pos h]
      subst h
      simp
    · rw [if_neg h]
      simp only [List.map_cons, List.mem_cons, ih k']
      tauto

theorem sparseAdd_nodup (m : List ((Nat × Nat) × Int)) (k : Nat × Nat) (val : Int) (h : (m.map (·.1)).Nodup) :
    ((sparseAdd val m k).map (·.1)).Nodup := by
  induction m with
  | nil => simp [sparseAdd]
  | cons e m ih =>
    obtain ⟨k0, v⟩ := e
    rw [List.map_cons, List.nodup_cons] at h
    unfold sparseAdd
    by_cases hk : k0 = k
    · rw [if_pos hk]
      simpa using h
    · rw [if_neg hk, List.map_cons, List.nodup_cons]
      refine ⟨fun hm => ?_, ih h.2⟩
      rcases (sparseAdd_keys m k val k0).1 hm with h' | h'
      · exact hk h'
      · exact h.1 h'

theorem sparseAdd_mem (m : List ((Nat × Nat) × Int)) (k : Nat × Nat) (val : Int) (h : (m.map (·.1)).Nodup)
    (k' : Nat × Nat) (v : Int) :
    (k', v) ∈ sparseAdd val m k ↔
      (k' ≠ k ∧ (k', v) ∈ m) ∨ (k' = k ∧ ((∃ w, (k, w) ∈ m ∧ v = w + val) ∨ k ∉ m.map (·.1) ∧ v = val)) := by
  induction m with
  | nil => simp [sparseAdd]
  | cons e m ih =>
    obtain ⟨k0, v0⟩ := e
    rw [List.map_cons, List.nodup_cons] at h
    have ih := ih h.2
    unfold sparseAdd
    by_cases hk : k0 = k
    · subst hk
      rw [if_pos rfl]
      have hno : ∀ w, (k0, w) ∉ m := fun w hw => h.1 (List.mem_map.2 ⟨_, hw, rfl⟩)
      by_cases he : k' = k0
      · subst he
        simp [hno]
      · simp [he]
    · rw [if_neg hk, List.mem_cons, ih]
      by_cases he : k' = k
      · subst he
        have : ¬ (k' = k0) := fun e => hk e.symm
        simp [this]
      · simp only [he, false_and, or_false, ne_eq, not_false_eq_true, true_and, List.mem_cons]

/-- The counter holds the number of calls for each key that was called. -/
theorem sparseCount_ok (calls : List (Nat × Nat)) :
    ((sparseCount calls).map (·.1)).Nodup ∧
      ∀ k v, (k, v) ∈ sparseCount calls ↔ k ∈ calls ∧ v = (calls.count k : Int) := by
  induction calls using List.reverseRecOn with
  | nil => exact ⟨by simp [sparseCount], by simp [sparseCount]⟩
  | append_singleton calls k0 ih =>
    have e : sparseCount (calls ++ [k0]) = sparseAdd 1 (sparseCount calls) k0 := by
      simp [sparseCount]
    rw [e]
    refine ⟨sparseAdd_nodup _ _ _ ih.1, fun k v => ?_⟩
    rw [sparseAdd_mem _ _ _ ih.1]
    have hkeys : k0 ∈ (sparseCount calls).map (·.1) ↔ k0 ∈ calls := by
      constructor
      · intro h
        obtain ⟨⟨k1, w⟩, hw, rfl⟩ := List.mem_map.1 h
        exact ((ih.2 _ _).1 hw).1
      · intro h
        exact List.mem_map.2 ⟨_, (ih.2 k0 _).2 ⟨h, rfl⟩, rfl⟩
    rw [hkeys]
    simp only [ih.2]
    by_cases he : k = k0
    · subst he
      rw [List.count_append, List.count_singleton_self]
      simp only [ne_eq, not_true_eq_false, false_and, false_or, true_and, List.mem_append, List.mem_singleton, or_true]
      constructor
      · rintro (⟨w, ⟨-, rfl⟩, rfl⟩ | ⟨hk, rfl⟩)
        · omega
        · rw [List.count_eq_zero.2 hk]; rfl
      · intro hv
        by_cases hk : k ∈ calls
        · exact .inl ⟨_, ⟨hk, rfl⟩, by rw [hv]; omega⟩
        · refine .inr ⟨hk, ?_⟩
          rw [hv, List.count_eq_zero.2 hk]; rfl
    · rw [List.count_append]
      have : [k0].count k = 0 := by
        rw [List.count_eq_zero]; simpa using he
      rw [this]
      simp [he]

end CloudForest
