import Verif.Spec.Boost
import Verif.Props.Tree
import Mathlib.Algebra.BigOperators.Group.List.Basic
import Mathlib.Tactic.Ring

/-!
# Lemmas for gradient boosting
-/

set_option linter.unusedSectionVars false

namespace CloudForest
variable {K : Type} [Field K] [LinearOrder K] [IsStrictOrderedRing K]

/-- Where a case ends is a leaf of the tree. -/
theorem landing_mem {fm : FeatureMatrix K} (n : Node K) (c : Nat) (x : List Dir × String)
    (h : landing fm n c = some x) : x ∈ leavesOf n := by
  induction n generalizing x with
  | nil => cases h
  | mk coded fi l r m pred spl ihl ihr ihm =>
    rw [landing] at h
    rw [leavesOf]
    split
    · rename_i hs
      rw [if_pos hs] at h
      split at h
      · obtain ⟨y, hy, rfl⟩ := Option.map_eq_some_iff.1 h
        simp [ihl y hy]
      · obtain ⟨y, hy, rfl⟩ := Option.map_eq_some_iff.1 h
        simp [ihr y hy]
      · obtain ⟨y, hy, rfl⟩ := Option.map_eq_some_iff.1 h
        simp [ihm y hy]
      · cases h
    · rename_i hs
      rw [if_neg hs] at h
      cases h; simp

theorem Tree.FinitePreds.for {parse : String → Option (XF K)} {t : Tree K} (h : t.FinitePreds parse)
    (fm : FeatureMatrix K) (n : Nat) : t.FiniteFor parse fm n :=
  fun _ _ x hx => h x (landing_mem _ _ x hx)

/-- The finite values of `n` cases. -/
def finList (n : Nat) (v : Nat → K) : List (XF K) := (List.range n).map fun i => .fin (v i)

@[simp] theorem finList_length (n : Nat) (v : Nat → K) : (finList n v).length = n := by simp [finList]

theorem finList_get {n : Nat} (v : Nat → K) {i : Nat} (h : i < n) : (finList n v)[i]? = some (.fin (v i)) := by
  simp [finList, List.getElem?_map, List.getElem?_range h]

theorem finList_set {n : Nat} (v : Nat → K) (i : Nat) (x : K) :
    (finList n v).set i (.fin x) = finList n (Function.update v i x) := by
  apply List.ext_getElem?
  intro j
  by_cases hj : j < n
  · rw [List.getElem?_set, finList_get _ hj, finList_length]
    by_cases hij : i = j
    · subst hij; rw [if_pos rfl, if_pos hj, finList_get _ hj, Function.update_self]
    · rw [if_neg hij, finList_get _ hj, Function.update_of_ne (Ne.symm hij)]
  · rw [List.getElem?_eq_none (by simp; omega), List.getElem?_eq_none (by simp; omega)]

theorem finList_congr {n : Nat} {v w : Nat → K} (h : ∀ i < n, v i = w i) : finList n v = finList n w := by
  unfold finList
  apply List.map_congr_left
  intro i hi
  rw [h i (List.mem_range.1 hi)]

theorem finList_eq {n : Nat} {l : List (XF K)} {v : Nat → K} (hl : l.length = n)
    (h : ∀ i < n, l[i]? = some (.fin (v i))) : l = finList n v := by
  apply List.ext_getElem?
  intro j
  by_cases hj : j < n
  · rw [h j hj, finList_get _ hj]
  · rw [List.getElem?_eq_none (by omega), List.getElem?_eq_none (by simp; omega)]

/-- The feature with these values, none missing. -/
def withValues (f : NumFeature K) (n : Nat) (v : Nat → K) : NumFeature K :=
  { f with numData := finList n v, missing := List.replicate n false }

theorem put_withValues (f : NumFeature K) {n : Nat} (v : Nat → K) {i : Nat} (h : i < n) (x : K) :
    (withValues f n v).put i (.fin x) = some (withValues f n (Function.update v i x)) := by
  unfold NumFeature.put withValues wr
  simp only [finList_length, if_pos h, finList_set, List.length_replicate, Option.bind_eq_bind, Option.bind_some]
  congr 2
  apply List.ext_getElem?
  intro j
  rw [List.getElem?_set]
  by_cases hij : i = j
  · subst hij; simp [h]
  · rw [if_neg hij]

/-- The update of one leaf. -/
theorem update_withValues (f : NumFeature K) {n : Nat} (lr p : K) (mean : XF K) (cases : List Nat) (v : Nat → K)
    (h : ∀ c ∈ cases, c < n) :
    GradBoost.update ⟨withValues f n v, .fin lr, mean⟩ cases (.fin p) =
      some ⟨withValues f n fun i => v i - lr * (cases.count i * p), .fin lr, mean⟩ := by
  unfold GradBoost.update
  induction cases generalizing v with
  | nil =>
    simp only [List.foldlM_nil, List.count_nil]
    congr 4
    funext i
    simp
  | cons c cs ih =>
    have hc := h c (by simp)
    have hstep : (do
        let m ← (withValues f n v).missing[c]?
        if m then some (⟨withValues f n v, .fin lr, mean⟩ : GradBoost K) else do
          let x ← (withValues f n v).numData[c]?
          let f ← (withValues f n v).put c (x - .fin lr * .fin p)
          some ⟨f, .fin lr, mean⟩) =
        some ⟨withValues f n (Function.update v c (v c - lr * p)), .fin lr, mean⟩ := by
      have h1 : (withValues f n v).missing[c]? = some false := by simp [withValues, hc]
      have h2 : (withValues f n v).numData[c]? = some (.fin (v c)) := finList_get v hc
      rw [h1, h2]
      simp only [Option.bind_eq_bind, Option.bind_some, Bool.false_eq_true, if_false]
      have h3 : (XF.fin (v c) - .fin lr * .fin p : XF K) = .fin (v c - lr * p) := by
        show XF.fin (v c + -(lr * p)) = _
        rw [sub_eq_add_neg]
      rw [h3, put_withValues f v hc]
      rfl
    rw [List.foldlM_cons]
    refine (congrArg (· >>= _) hstep).trans ?_
    refine (ih _ fun x hx => h x (by simp [hx])).trans ?_
    congr 3
    funext i
    rw [List.count_cons]
    by_cases hic : i = c
    · subst hic
      simp
      ring
    · rw [Function.update_of_ne hic]
      have : (c == i) = false := by simpa using Ne.symm hic
      simp [this]

theorem foldlM_zipIdx {α β : Type} (step : β → α × String → Option β) (as : List α) (ps : List String)
    (h : as.length = ps.length) (b : β) :
    as.zipIdx.foldlM (fun b ci => do let p ← ps[ci.2]?; step b (ci.1, p)) b = (as.zip ps).foldlM step b := by
  have key : ∀ (as : List α) (k : Nat) (qs : List String) (b : β), as.length = qs.length →
      (∀ j, ps[k + j]? = qs[j]?) →
      (as.zipIdx k).foldlM (fun b ci => do let p ← ps[ci.2]?; step b (ci.1, p)) b = (as.zip qs).foldlM step b := by
    intro as
    induction as with
    | nil => intro k qs b _ _; rfl
    | cons a as ih =>
      intro k qs b hl hq
      cases qs with
      | nil => simp at hl
      | cons q qs =>
        rw [List.zipIdx_cons, List.foldlM_cons, List.zip_cons_cons, List.foldlM_cons]
        have h0 : ps[k]? = some q := by simpa using hq 0
        simp only [h0, Option.bind_eq_bind, Option.bind_some]
        cases step b (a, q) with
        | none => rfl
        | some b' =>
          exact ih (k + 1) qs b' (by simpa using hl) fun j => by
            have := hq (j + 1)
            rw [List.getElem?_cons_succ] at this
            rw [← this]
            congr 1
            omega
  exact key as 0 ps b h fun j => by simp

/-- The sum of the predictions voted for a case. -/
def votedSum (parse : String → Option (XF K)) (votes : List (Ballot K)) (i : Nat) : K :=
  (votes.map fun b => if b.case = i then predVal parse b.pred else 0).sum

theorem votedSum_append (parse : String → Option (XF K)) (a b : List (Ballot K)) (i : Nat) :
    votedSum parse (a ++ b) i = votedSum parse a i + votedSum parse b i := by
  simp [votedSum]

theorem votedSum_group (parse : String → Option (XF K)) (cs : List Nat) (p : String) (w : XF K) (i : Nat) :
    votedSum parse (cs.map fun c => ⟨c, p, w⟩) i = cs.count i * predVal parse p := by
  unfold votedSum
  induction cs with
  | nil => simp
  | cons c cs ih =>
    rw [List.map_cons, List.map_cons, List.sum_cons, ih, List.count_cons]
    by_cases h : c = i
    · subst h; simp; ring
    · have : (c == i) = false := by simpa using h
      simp [h, this]

theorem parse_getD {parse : String → Option (XF K)} {p : String} (h : ∀ y, parse p = some y → ∃ z, y = .fin z) :
    (parse p).getD (.fin 0) = .fin (predVal parse p) := by
  unfold predVal
  cases hp : parse p with
  | none => rfl
  | some y =>
    obtain ⟨z, rfl⟩ := h y hp
    rfl

/-- Boosting by a partition. -/
theorem boost_withValues (parse : String → Option (XF K)) (f : NumFeature K) {n : Nat} (lr : K) (mean : XF K)
    (groups : List (List Nat)) (preds : List String) (w : XF K) (hl : groups.length = preds.length)
    (hg : ∀ g ∈ groups.zip preds, (∀ c ∈ g.1, c < n) ∧ (g.1 ≠ [] → ∀ y, parse g.2 = some y → ∃ z, y = .fin z)) (v : Nat → K) :
    GradBoost.boost parse ⟨withValues f n v, .fin lr, mean⟩ groups preds =
      some (⟨withValues f n fun i => v i - lr * votedSum parse
        ((groups.zip preds).flatMap fun g => g.1.map fun c => ⟨c, g.2, w⟩) i, .fin lr, mean⟩, .fin lr) := by
  unfold GradBoost.boost
  rw [foldlM_zipIdx (fun (g : GradBoost K) cp => g.update cp.1 ((parse cp.2).getD (.fin 0))) groups preds hl]
  have key : ∀ (gs : List (List Nat × String)) (v : Nat → K),
      (∀ g ∈ gs, (∀ c ∈ g.1, c < n) ∧ (g.1 ≠ [] → ∀ y, parse g.2 = some y → ∃ z, y = .fin z)) →
      gs.foldlM (fun (g : GradBoost K) cp => g.update cp.1 ((parse cp.2).getD (.fin 0)))
        ⟨withValues f n v, .fin lr, mean⟩ =
      some ⟨withValues f n fun i => v i - lr * votedSum parse
        (gs.flatMap fun g => g.1.map fun c => ⟨c, g.2, w⟩) i, .fin lr, mean⟩ := by
    intro gs
    induction gs with
    | nil =>
      intro v _
      simp [votedSum]
    | cons g gs ih =>
      intro v h
      obtain ⟨h1, h2⟩ := h g (by simp)
      rw [List.foldlM_cons]
      by_cases hnil : g.1 = []
      · rw [List.flatMap_cons, hnil, List.map_nil, List.nil_append]
        exact ih v fun x hx => h x (by simp [hx])
      rw [parse_getD (h2 hnil), update_withValues f lr _ mean g.1 v h1]
      refine (ih _ fun x hx => h x (by simp [hx])).trans ?_
      congr 3
      funext i
      rw [List.flatMap_cons, votedSum_append, votedSum_group]
      ring
  rw [key _ v hg]
  rfl

/-- Casting votes into a box of sums. -/
theorem castAll_finList (parse : String → Option (XF K)) {n : Nat} (w : K) (votes : List (Ballot K))
    (h : ∀ b ∈ votes, b.case < n ∧ b.weight = .fin w ∧ ∀ y, parse b.pred = some y → ∃ z, y = .fin z) (s : Nat → K) :
    castAll (SumBox.vote parse) (finList n s) votes = some (finList n fun i => s i + w * votedSum parse votes i) := by
  unfold castAll
  induction votes generalizing s with
  | nil => simp [votedSum]
  | cons b bs ih =>
    obtain ⟨h1, h2, h3⟩ := h b (by simp)
    have hstep : SumBox.vote parse (finList n s) b.case b.pred b.weight =
        some (finList n (Function.update s b.case (s b.case + predVal parse b.pred * w))) := by
      unfold SumBox.vote
      cases hp : parse b.pred with
      | none =>
        simp only
        congr 1
        apply finList_congr
        intro i _
        by_cases hi : i = b.case
        · subst hi; simp [predVal, hp]
        · rw [Function.update_of_ne hi]
      | some y =>
        obtain ⟨z, rfl⟩ := h3 y hp
        simp only [finList_get s h1, Option.bind_eq_bind, Option.bind_some, h2]
        have : (XF.fin (s b.case) + XF.fin z * XF.fin w : XF K) = .fin (s b.case + predVal parse b.pred * w) := by
          simp only [predVal, hp]
          rfl
        rw [this, finList_set]
    rw [List.foldlM_cons]
    rw [hstep]
    refine (ih (fun x hx => h x (by simp [hx])) _).trans ?_
    congr 1
    apply finList_congr
    intro i _
    have hv : votedSum parse (b :: bs) i = (if b.case = i then predVal parse b.pred else 0) + votedSum parse bs i := by
      simp [votedSum]
    rw [hv]
    by_cases hi : i = b.case
    · subst hi; simp; ring
    · rw [Function.update_of_ne hi, if_neg (Ne.symm hi)]; ring

/-- Changing a feature that a tree avoids changes nothing for the tree. -/
theorem recurse_avoids (fm : FeatureMatrix K) (ti : Nat) (F : Feature K) (n : Node K) (h : n.Avoids fm ti)
    (cs : List Nat) (d : Nat) :
    n.recurse { fm with data := fm.data.set ti F } cs d = n.recurse fm cs d := by
  induction n generalizing cs d with
  | nil => rfl
  | mk coded fi l r m pred spl ihl ihr ihm =>
    obtain ⟨h1, h2, hl, hr, hm⟩ := h
    have hs : nodeSplit { fm with data := fm.data.set ti F } coded fi spl cs = nodeSplit fm coded fi spl cs := by
      unfold nodeSplit
      cases coded with
      | some code =>
        simp only
        rw [List.getElem?_set_ne (Ne.symm (h1 (by simp)))]
      | none =>
        cases spl with
        | none => rfl
        | some s =>
          simp only [Splitter.split, FeatureMatrix.featureOf]
          rw [List.getElem?_set_ne (Ne.symm (h2 s rfl))]
    rw [Node.recurse, Node.recurse, hs]
    simp only [ihl hl, ihr hr, ihm hm]

theorem allCases_set (fm : FeatureMatrix K) (ti : Nat) (F G : Feature K) (hG : fm.data[ti]? = some G)
    (hF : F.length = G.length) :
    FeatureMatrix.allCases { fm with data := fm.data.set ti F } = fm.allCases := by
  unfold FeatureMatrix.allCases
  cases ti with
  | zero =>
    rw [List.getElem?_set]
    have : 0 < fm.data.length := (List.getElem?_eq_some_iff.1 hG).1
    rw [if_pos rfl, if_pos this, hG]
    simp only [Option.bind_eq_bind, Option.bind_some, hF]
  | succ k =>
    simp

end CloudForest
