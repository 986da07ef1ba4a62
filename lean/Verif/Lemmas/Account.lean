import Verif.Lemmas.Fit
import Verif.Spec.Books
import Verif.Spec.Fit
import Mathlib.Tactic.LinearCombination
import Mathlib.Algebra.BigOperators.Ring.List
import Mathlib.Algebra.Order.BigOperators.Group.List

/-! # The account of impurity -/

set_option linter.unusedSectionVars false

namespace CloudForest
variable {K : Type} [Field K] [LinearOrder K] [IsStrictOrderedRing K] {σ τ : Type}

theorem dir_perm (dir : Nat → Option Dir) (cs : List Nat) (h : ∀ c ∈ cs, dir c ≠ none) :
    cs.Perm ((cs.filter fun c => dir c == some .L) ++ (cs.filter fun c => dir c == some .R) ++
      cs.filter fun c => dir c == some .M) := by
  induction cs with
  | nil => exact .refl _
  | cons c cs ih =>
    have ih := ih fun d hd => h d (List.mem_cons_of_mem _ hd)
    have hc := h c List.mem_cons_self
    cases hd : dir c with
    | none => exact absurd hd hc
    | some D =>
      cases D with
      | L => simpa [List.filter_cons, hd] using ih
      | R =>
        simp only [List.filter_cons, hd]
        simp only [beq_self_eq_true, if_true, show (some Dir.R == some Dir.L) = false from rfl,
          show (some Dir.R == some Dir.M) = false from rfl, Bool.false_eq_true, if_false]
        rw [List.append_assoc, List.cons_append]
        refine .trans ?_ List.perm_middle.symm
        rw [← List.append_assoc]
        exact ih.cons c
      | M =>
        simp only [List.filter_cons, hd]
        simp only [beq_self_eq_true, if_true, show (some Dir.M == some Dir.L) = false from rfl,
          show (some Dir.M == some Dir.R) = false from rfl, Bool.false_eq_true, if_false]
        exact .trans (ih.cons c) List.perm_middle.symm

theorem leafMates_step {fm : FeatureMatrix K} {code : Coded K} {fi : Nat} {l r m : Node K} {pred : String}
    {spl : Option (Splitter K)} {cs : List Nat} {c : Nat} {D : Dir}
    (hd : caseDir fm (some code) fi spl c = some D)
    (hl : landing fm ((Node.mk (some code) fi l r m pred spl).child D) c ≠ none) :
    leafMates fm (.mk (some code) fi l r m pred spl) cs c =
      leafMates fm ((Node.mk (some code) fi l r m pred spl).child D)
        (cs.filter fun e => caseDir fm (some code) fi spl e == some D) c := by
  have hland : ∀ e, landing fm (.mk (some code) fi l r m pred spl) e =
      match caseDir fm (some code) fi spl e with
      | some .L => (landing fm l e).map fun x => (.L :: x.1, x.2)
      | some .R => (landing fm r e).map fun x => (.R :: x.1, x.2)
      | some .M => (landing fm m e).map fun x => (.M :: x.1, x.2)
      | none => none := fun e => rfl
  unfold leafMates
  rw [List.filter_filter]
  refine List.filter_congr fun e _ => ?_
  rw [hland, hland, hd]
  obtain ⟨y, hy⟩ := Option.ne_none_iff_exists'.1 hl
  cases D <;> simp only [Node.child] at hy ⊢ <;> rw [hy] <;>
  · cases he : caseDir fm (some code) fi spl e with
    | none => simp
    | some D' =>
      cases D' <;> simp only <;>
        cases landing fm l e <;> cases landing fm r e <;> cases landing fm m e <;> rw [Bool.eq_iff_iff] <;> simp

/-- What the splits of a tree remove, each counted with the number of its cases, and what is left in the leaves add up
to what was there. -/
theorem account (fm : FeatureMatrix K) (imp : List Nat → K) (n : Node K) (hp : n.Plain) (cs : List Nat) (d : Nat)
    (hl : ∀ c ∈ cs, landing fm n c ≠ none) :
    ((usesOf fm (fun fi code S => S.length * threeWayDecrease fm imp fi code S) n cs d).map (·.dec)).sum +
      (cs.map fun c => imp (leafMates fm n cs c)).sum = cs.length * imp cs := by
  induction n generalizing cs d with
  | nil =>
    have : cs = [] := by
      by_contra h
      obtain ⟨c, hc⟩ := List.exists_mem_of_ne_nil _ h
      exact hl c hc rfl
    subst this
    simp [usesOf]
  | mk coded fi l r m pred spl ihl ihr ihm =>
    obtain ⟨hs, hpl, hpr, hpm⟩ := hp
    cases coded with
    | none =>
      cases hs rfl
      have hm : ∀ c, leafMates fm (.mk none fi l r m pred none) cs c = cs := by
        intro c
        unfold leafMates
        rw [List.filter_eq_self]
        intro e _
        simp [landing, splits]
      simp [usesOf, hm]
    | some code =>
      have hland : ∀ e, landing fm (.mk (some code) fi l r m pred spl) e =
          match caseDir fm (some code) fi spl e with
          | some .L => (landing fm l e).map fun x => (.L :: x.1, x.2)
          | some .R => (landing fm r e).map fun x => (.R :: x.1, x.2)
          | some .M => (landing fm m e).map fun x => (.M :: x.1, x.2)
          | none => none := fun e => rfl
      have hdir : ∀ c ∈ cs, caseDir fm (some code) fi spl c ≠ none := by
        intro c hc h
        refine hl c hc ?_
        rw [hland, h]
      have hchild : ∀ D, ∀ c ∈ cs.filter fun e => caseDir fm (some code) fi spl e == some D,
          landing fm ((Node.mk (some code) fi l r m pred spl).child D) c ≠ none := by
        intro D c hc h
        obtain ⟨hc, hd⟩ := List.mem_filter.1 hc
        refine hl c hc ?_
        rw [hland, show caseDir fm (some code) fi spl c = some D by simpa using hd]
        cases D <;> simp only [Node.child] at h ⊢ <;> rw [h] <;> rfl
      have hmates : ∀ D, ((cs.filter fun e => caseDir fm (some code) fi spl e == some D).map fun c =>
            imp (leafMates fm (.mk (some code) fi l r m pred spl) cs c)) =
          (cs.filter fun e => caseDir fm (some code) fi spl e == some D).map fun c =>
            imp (leafMates fm ((Node.mk (some code) fi l r m pred spl).child D)
              (cs.filter fun e => caseDir fm (some code) fi spl e == some D) c) := by
        intro D
        refine List.map_congr_left fun c hc => ?_
        rw [leafMates_step (by simpa using (List.mem_filter.1 hc).2) (hchild D c hc)]
      have eL := ihl hpl (cs.filter fun e => caseDir fm (some code) fi spl e == some .L) (d + 1) (hchild .L)
      have eR := ihr hpr (cs.filter fun e => caseDir fm (some code) fi spl e == some .R) (d + 1) (hchild .R)
      have eM := ihm hpm (cs.filter fun e => caseDir fm (some code) fi spl e == some .M) (d + 1) (hchild .M)
      have hsum := ((dir_perm _ cs hdir).map fun c =>
        imp (leafMates fm (.mk (some code) fi l r m pred spl) cs c)).sum_eq
      rw [List.map_append, List.map_append, hmates, hmates, hmates, List.sum_append, List.sum_append] at hsum
      simp only [Node.child] at hsum
      rw [hsum, usesOf, List.map_cons, List.sum_cons, List.map_append, List.map_append, List.sum_append, List.sum_append]
      have hdec : (cs.length : K) * threeWayDecrease fm imp fi code cs = cs.length * imp cs -
          (((cs.filter fun e => caseDir fm (some code) fi spl e == some .L).length : K) *
              imp (cs.filter fun e => caseDir fm (some code) fi spl e == some .L) +
            ((cs.filter fun e => caseDir fm (some code) fi spl e == some .R).length : K) *
              imp (cs.filter fun e => caseDir fm (some code) fi spl e == some .R) +
            ((cs.filter fun e => caseDir fm (some code) fi spl e == some .M).length : K) *
              imp (cs.filter fun e => caseDir fm (some code) fi spl e == some .M)) := by
        have hspl : ∀ c, caseDir fm (some code) fi none c = caseDir fm (some code) fi spl c := fun c => by
          cases spl <;> rfl
        unfold threeWayDecrease
        simp only [hspl]
        rcases eq_or_ne cs [] with rfl | hne
        · simp
        · have : (cs.length : K) ≠ 0 := (length_pos' hne).ne'
          rw [mul_sub, mul_div_cancel₀ _ this]
      simp only at hdec ⊢
      rw [hdec]
      linear_combination eL + eR + eM

/-! ## Sums by groups -/

theorem sum_comm_lists {α β : Type} (l : List α) (g : List β) (f : α → β → K) :
    (l.map fun a => (g.map fun b => f a b).sum).sum = (g.map fun b => (l.map fun a => f a b).sum).sum := by
  induction l with
  | nil => simp
  | cons a l ih => simp [ih, List.sum_map_add]

theorem sum_filter_ite {α : Type} (l : List α) (p : α → Bool) (f : α → K) :
    ((l.filter p).map f).sum = (l.map fun a => if p a then f a else 0).sum := by
  induction l with
  | nil => rfl
  | cons a l ih => cases h : p a <;> simp [h, ih]

/-- A sum is the sum of its averages over groups. -/
theorem sum_group_avg {κ : Type} [BEq κ] [LawfulBEq κ] (key : Nat → κ) (cs : List Nat) (w : Nat → K) :
    (cs.map fun c => ((cs.filter fun e => key e == key c).map w).sum / (cs.filter fun e => key e == key c).length).sum =
      (cs.map w).sum := by
  have h1 : ∀ c, ((cs.filter fun e => key e == key c).map w).sum / (cs.filter fun e => key e == key c).length =
      (cs.map fun e => if key c == key e then w e / (cs.filter fun x => key x == key e).length else 0).sum := by
    intro c
    rw [sum_filter_ite, div_eq_mul_inv, ← List.sum_map_mul_right]
    congr 1
    refine List.map_congr_left fun e _ => ?_
    by_cases h : key e = key c
    · simp [h, div_eq_mul_inv]
    · simp [h, Ne.symm h]
  simp only [h1]
  rw [sum_comm_lists]
  congr 1
  refine List.map_congr_left fun e he => ?_
  rw [← sum_filter_ite]
  have hpos : ((cs.filter fun x => key x == key e).length : K) ≠ 0 := by
    have : 0 < (cs.filter fun x => key x == key e).length :=
      List.length_pos_of_mem (List.mem_filter.2 ⟨he, by simp⟩)
    exact_mod_cast this.ne'
  rw [List.map_const', List.sum_replicate, nsmul_eq_mul, mul_div_cancel₀ _ hpos]

end CloudForest
