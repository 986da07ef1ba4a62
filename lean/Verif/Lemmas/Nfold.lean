import Verif.Model.Nfold
import Verif.Spec.Sampling
import Verif.Lemmas.Sampling
import Mathlib.Data.List.Nodup
import Mathlib.Data.List.Forall2
import Mathlib.Tactic.Linarith
import Mathlib.Tactic.Ring
import Mathlib.Algebra.BigOperators.Group.List.Basic

/-!
# Lemmas on cross-validation folds
-/

namespace CloudForest

/-- The block of fold `j`. -/
def blockOf (cases : List Nat) (size j : Nat) : List Nat := (cases.drop (j * size)).take size

theorem deal_inner (cases : List Nat) (folds j : Nat) (hj : j < folds) :
    ∀ (m a : Nat) (g : Nat → List Nat), a + m ≤ cases.length →
      (List.range' a m).foldlM (fun fs k => do
        let c ← cases[k]?
        appendAt fs j c) ((List.range folds).map g) =
      some ((List.range folds).map fun i => if i = j then g i ++ (cases.drop a).take m else g i) := by
  intro m
  induction m with
  | zero =>
    intro a g _
    simp
  | succ m ih =>
    intro a g h
    have ha : a < cases.length := by omega
    rw [List.range'_succ, List.foldlM_cons]
    simp only [List.getElem?_eq_getElem ha, Option.bind_eq_bind, Option.bind_some]
    have e : appendAt ((List.range folds).map g) j cases[a] =
        some ((List.range folds).map fun i => if i = j then g i ++ [cases[a]] else g i) := by
      unfold appendAt
      have : ((List.range folds).map g)[j]? = some (g j) := by simp [hj]
      simp only [this, Option.bind_eq_bind, Option.bind_some, Option.some.injEq]
      have := map_set_range g (fun i => if i = j then g i ++ [cases[a]] else g i) folds j hj
        (fun k hk => if_neg hk)
      simpa using this
    rw [e, Option.bind_some]
    have hI := ih (a + 1) (fun i => if i = j then g i ++ [cases[a]] else g i) (by omega)
    simp only [Option.bind_eq_bind] at hI
    rw [hI]
    congr 1
    apply List.map_congr_left
    intro i _
    by_cases hi : i = j
    · simp only [if_pos hi, List.append_assoc]
      rw [List.drop_eq_getElem_cons ha, List.take_succ_cons]; rfl
    · simp only [if_neg hi]

theorem dealFolds_ok (cases : List Nat) (folds size : Nat) (g : Nat → List Nat)
    (h : folds * size ≤ cases.length) :
    dealFolds cases folds size ((List.range folds).map g) =
      some ((List.range folds).map fun j => g j ++ blockOf cases size j) := by
  have key : ∀ m ≤ folds, (List.range m).foldlM (fun fs j =>
      (List.range' (j * size) ((j + 1) * size - j * size)).foldlM (fun fs k => do
        let c ← cases[k]?
        appendAt fs j c) fs) ((List.range folds).map g) =
      some ((List.range folds).map fun j => if j < m then g j ++ blockOf cases size j else g j) := by
    intro m
    induction m with
    | zero => intro _; simp
    | succ m ih =>
      intro hm
      rw [List.range_succ, List.foldlM_append, ih (by omega)]
      simp only [Option.bind_eq_bind, Option.bind_some, List.foldlM_cons, List.foldlM_nil]
      have hs : (m + 1) * size - m * size = size := by
        rw [Nat.succ_mul]; omega
      have hle : (m + 1) * size ≤ folds * size := Nat.mul_le_mul_right _ hm
      rw [hs]
      have hI := deal_inner cases folds m (by omega) size (m * size)
        (fun j => if j < m then g j ++ blockOf cases size j else g j)
        (by rw [Nat.succ_mul] at hle; omega)
      simp only [Option.bind_eq_bind] at hI
      rw [hI]
      simp only [Option.bind_some]
      congr 1
      apply List.map_congr_left
      intro i _
      by_cases hi : i = m
      · subst hi; simp [blockOf]
      · by_cases h2 : i < m
        · simp [hi, h2, show i < m + 1 by omega]
        · simp [hi, h2, show ¬ i < m + 1 by omega]
  have := key folds (le_refl _)
  unfold dealFolds
  rw [this]
  congr 1
  apply List.map_congr_left
  intro i hi
  rw [if_pos (List.mem_range.1 hi)]

theorem blocks_flat (cases : List Nat) (size : Nat) : ∀ folds,
    (List.range folds).flatMap (blockOf cases size) = cases.take (folds * size) := by
  intro folds
  induction folds with
  | zero => simp
  | succ m ih =>
    rw [List.range_succ, List.flatMap_append, ih, Nat.succ_mul, List.take_add]
    simp [blockOf]

theorem blockOf_length (cases : List Nat) (folds size j : Nat) (h : folds * size ≤ cases.length)
    (hj : j < folds) : (blockOf cases size j).length = size := by
  have : (j + 1) * size ≤ folds * size := Nat.mul_le_mul_right _ hj
  rw [Nat.succ_mul] at this
  rw [blockOf, List.length_take, List.length_drop]
  omega

theorem sampleFirstN_all (deck : List Nat) (rng : Rng) :
    ∃ deck' s rng', sampleFirstN deck deck.length 0 rng = some (deck', s, rng') ∧
      deck'.Perm deck := by
  obtain ⟨c, l, r, e, hp, _⟩ :=
    sampleLoop_ok deck deck.length (deck.length - 0) (by omega) deck.length 0 (by omega) deck 0 0 rng
      (List.Perm.refl _) rfl rfl (by omega) (by omega)
  exact ⟨c, _, r, by simp only [sampleFirstN, e]; rfl, hp⟩

theorem mul_div_le' (n folds : Nat) : folds * (n / folds) ≤ n := Nat.mul_div_le n folds

theorem replicate_map_range (folds : Nat) :
    (List.replicate folds ([] : List Nat)) = (List.range folds).map fun _ => [] := by
  rw [List.map_const', List.length_range]

theorem nfoldUnstratified_eq (ncases folds : Nat) (h0 : 0 < folds) (rng : Rng) :
    ∃ cases : List Nat, cases.Perm (List.range ncases) ∧
      nfoldUnstratified ncases folds rng =
        some ((List.range folds).map (blockOf cases (ncases / folds))) := by
  obtain ⟨c, s, r, e, hp⟩ := sampleFirstN_all (List.range ncases) rng
  refine ⟨c, hp, ?_⟩
  unfold nfoldUnstratified
  rw [if_neg (by omega), e]
  simp only [Option.bind_eq_bind, Option.bind_some]
  have hl := hp.length_eq
  rw [List.length_range] at hl
  rw [replicate_map_range, dealFolds_ok _ _ _ _ (by rw [hl]; exact mul_div_le' _ _)]
  simp

theorem strat_fold (folds : Nat) (bs : List (List Nat)) :
    ∀ (g : Nat → List Nat) (rng : Rng), ∃ (ds : List (List Nat)) (rng' : Rng),
      List.Forall₂ List.Perm ds bs ∧
      bs.foldlM (fun (s : List (List Nat) × Rng) b => do
        let (b, _, rng) ← sampleFirstN b b.length 0 s.2
        let fs ← dealFolds b folds (b.length / folds) s.1
        some (fs, rng)) ((List.range folds).map g, rng) =
      some ((List.range folds).map fun j => g j ++ ds.flatMap fun d =>
        blockOf d (d.length / folds) j, rng') := by
  induction bs with
  | nil => intro g rng; exact ⟨[], rng, .nil, by simp⟩
  | cons b bs ih =>
    intro g rng
    obtain ⟨d, s, r, e, hp⟩ := sampleFirstN_all b rng
    obtain ⟨ds, rng', hf, e2⟩ := ih (fun j => g j ++ blockOf d (d.length / folds) j) r
    refine ⟨d :: ds, rng', .cons hp hf, ?_⟩
    rw [List.foldlM_cons]
    simp only [e, Option.bind_eq_bind, Option.bind_some]
    rw [dealFolds_ok _ _ _ _ (mul_div_le' _ _)]
    simp only [Option.bind_some]
    simp only [Option.bind_eq_bind] at e2
    rw [e2]
    simp [List.append_assoc]

theorem nfoldStratified_eq (f : CatFeature) (hf : f.Known) (folds : Nat) (h0 : 0 < folds)
    (rng : Rng) :
    ∃ ds : List (List Nat), List.Forall₂ List.Perm ds ((List.range f.cm.nCats).map f.classCases) ∧
      nfoldStratified f folds rng = some ((List.range folds).map fun j =>
        ds.flatMap fun d => blockOf d (d.length / folds) j) := by
  obtain ⟨ds, rng', h, e⟩ := strat_fold folds ((List.range f.cm.nCats).map f.classCases)
    (fun _ => []) rng
  refine ⟨ds, h, ?_⟩
  unfold nfoldStratified
  rw [if_neg (by omega), newBalancedSampler_eq f hf]
  simp only [Option.bind_eq_bind, Option.bind_some, replicate_map_range]
  simp only [Option.bind_eq_bind] at e
  rw [e]
  simp

theorem flatMap_comm_perm {α β γ : Type} (g : α → β → List γ) (ys : List β) : ∀ xs : List α,
    (xs.flatMap fun x => ys.flatMap fun y => g x y).Perm
      (ys.flatMap fun y => xs.flatMap fun x => g x y) := by
  intro xs
  induction xs with
  | nil => simp
  | cons x xs ih =>
    simp only [List.flatMap_cons]
    exact (List.Perm.append_left _ ih).trans (List.flatMap_append_perm ys _ _)

theorem strat_flat (ds : List (List Nat)) (folds : Nat) :
    ((List.range folds).flatMap fun j => ds.flatMap fun d => blockOf d (d.length / folds) j).Perm
      (ds.flatMap fun d => d.take (folds * (d.length / folds))) := by
  refine (flatMap_comm_perm _ _ _).trans ?_
  rw [show (fun d : List Nat => (List.range folds).flatMap fun j => blockOf d (d.length / folds) j) =
    fun d => d.take (folds * (d.length / folds)) from funext fun d => blocks_flat d _ _]

theorem nfoldTrain_eq (foldis : List (List Nat)) (i : Nat) :
    ∃ tr, nfoldTrain foldis.length foldis i = some tr ∧
      tr = (List.range foldis.length).flatMap fun j =>
        if i ≠ j then foldis.getD j [] else [] := by
  refine ⟨_, ?_, rfl⟩
  unfold nfoldTrain
  have key : ∀ m ≤ foldis.length, (List.range m).foldlM (fun tr j =>
      if i ≠ j then do
        let f ← foldis[j]?
        some (tr ++ f)
      else some tr) [] = some ((List.range m).flatMap fun j =>
        if i ≠ j then foldis.getD j [] else []) := by
    intro m
    induction m with
    | zero => intro _; rfl
    | succ m ih =>
      intro hm
      rw [List.range_succ, List.foldlM_append, ih (by omega)]
      simp only [Option.bind_eq_bind, Option.bind_some, List.foldlM_cons, List.foldlM_nil,
        List.flatMap_append, List.flatMap_cons, List.flatMap_nil, List.append_nil]
      by_cases h : i ≠ m
      · rw [if_pos h, if_pos h]
        rw [List.getElem?_eq_getElem (by omega : m < foldis.length), List.getD_eq_getElem?_getD,
          List.getElem?_eq_getElem (by omega : m < foldis.length)]
        simp
      · rw [if_neg h, if_neg h]; simp
  exact key _ (le_refl _)

theorem forall2_range {n : Nat} {cls : Nat → List Nat} {ds : List (List Nat)}
    (h : List.Forall₂ List.Perm ds ((List.range n).map cls)) :
    ∃ D : Nat → List Nat, ds = (List.range n).map D ∧ ∀ i < n, (D i).Perm (cls i) := by
  have hl := h.length_eq
  rw [List.length_map, List.length_range] at hl
  refine ⟨fun i => ds.getD i [], ?_, ?_⟩
  · apply List.ext_getElem
    · simp [hl]
    · intro i h1 h2
      simp [List.getD_eq_getElem?_getD, h1]
  · intro i hi
    have := (List.forall₂_iff_get.1 h).2 i (by omega) (by simpa using hi)
    simp only [List.get_eq_getElem, List.getElem_map, List.getElem_range] at this
    simpa [List.getD_eq_getElem?_getD, hl, hi] using this

theorem flatMap_only {α : Type} (n k : Nat) (hk : k < n) (g : Nat → List α)
    (h : ∀ i < n, i ≠ k → g i = []) : (List.range n).flatMap g = g k := by
  have : ∀ m ≤ n, (List.range m).flatMap g = if k < m then g k else [] := by
    intro m
    induction m with
    | zero => intro _; simp
    | succ m ih =>
      intro hm
      rw [List.range_succ, List.flatMap_append, ih (by omega)]
      by_cases h1 : k < m
      · simp [h1, show k < m + 1 by omega, h m (by omega) (by omega)]
      · by_cases h2 : k = m
        · subst h2; simp
        · simp [h1, show ¬ k < m + 1 by omega, h m (by omega) (Ne.symm h2)]
  rw [this n (le_refl _), if_pos hk]

/-- Of a part of each class, put together, the cases of class `k` are the part of class `k`. -/
theorem filter_classes (f : CatFeature) (n k : Nat) (hk : k < n) (D : Nat → List Nat)
    (hD : ∀ i < n, (D i).Perm (f.classCases i)) (g : List Nat → List Nat)
    (hg : ∀ l, g l ⊆ l) :
    ((List.range n).flatMap fun i => g (D i)).filter (fun c => decide (f.catData[c]? = some k)) =
      g (D k) := by
  rw [List.filter_flatMap]
  rw [flatMap_only n k hk]
  · rw [List.filter_eq_self]
    intro c hc
    have := (hD k hk).mem_iff.1 (hg _ hc)
    simpa using (CatFeature.mem_classCases.1 this).2
  · intro i hi hne
    rw [List.filter_eq_nil_iff]
    intro c hc hd
    have := (hD i hi).mem_iff.1 (hg _ hc)
    have h2 := (CatFeature.mem_classCases.1 this).2
    simp only [decide_eq_true_eq] at hd
    rw [h2] at hd
    exact hne (Option.some.inj hd)

theorem classes_nodup (f : CatFeature) (n : Nat) (D : Nat → List Nat)
    (hD : ∀ i < n, (D i).Perm (f.classCases i)) (g : List Nat → List Nat)
    (hg : ∀ l, (g l).Sublist l) : ((List.range n).flatMap fun i => g (D i)).Nodup := by
  rw [List.nodup_flatMap]
  constructor
  · intro i hi
    have hi := List.mem_range.1 hi
    refine List.Nodup.sublist (hg _) ((hD i hi).nodup_iff.2 ?_)
    exact List.Nodup.filter _ List.nodup_range
  · refine List.Pairwise.imp_of_mem ?_ (List.nodup_range (n := n))
    intro a b ha hb hne c hca hcb
    have ha := List.mem_range.1 ha
    have hb := List.mem_range.1 hb
    have h1 := (CatFeature.mem_classCases.1 ((hD a ha).mem_iff.1 ((hg _).subset hca))).2
    have h2 := (CatFeature.mem_classCases.1 ((hD b hb).mem_iff.1 ((hg _).subset hcb))).2
    rw [h1] at h2
    exact hne (Option.some.inj h2)

end CloudForest
