import Verif.Model.Apply
import Verif.Spec.Apply
import Verif.Props.Tree
import Verif.Props.Ballot

/-!
# Lemmas about applyforest
-/

set_option linter.unusedSectionVars false

namespace CloudForest
variable {K : Type} [Field K] [LinearOrder K] [IsStrictOrderedRing K]

theorem Box.castVotes_append (nt : NumText K) (bb : Box K) (a b : List (Ballot K)) :
    bb.castVotes nt (a ++ b) = (bb.castVotes nt a).bind fun bb => bb.castVotes nt b := by
  cases bb with
  | sum bb =>
    simp only [Box.castVotes, castAll_append]
    cases castAll (SumBox.vote fun s => nt.parse s.toList) bb a <;> rfl
  | num bb =>
    simp only [Box.castVotes, castAll_append]
    cases castAll (NumBox.vote fun s => nt.parse s.toList) bb a <;> rfl
  | cat bb =>
    simp only [Box.castVotes, castAll_append]
    cases castAll CatBox.vote bb a <;> rfl

theorem Box.castVotes_nil (nt : NumText K) (bb : Box K) : bb.castVotes nt [] = some bb := by
  cases bb <;> rfl

/-- The votes that trees should cast. -/
def forestVotes (fm : FeatureMatrix K) (n : Nat) (trees : List (Tree K)) : List (FVote K) :=
  trees.flatMap fun t => (List.range n).filterMap fun c => (t.opinion fm c).map fun p => ⟨c, p, t.say⟩

theorem Tree.voteWeight_say {t : Tree K} (h : ∃ x, t.weight = .fin x) : t.voteWeight = .fin t.say := by
  obtain ⟨x, hx⟩ := h
  rw [c06_weight t x hx]
  simp only [Tree.say, hx]
  split <;> rfl

/-- What one tree casts. -/
theorem Tree.vote_fvotes {t : Tree K} {fm : FeatureMatrix K} {n : Nat} (hc : fm.allCases = some (List.range n))
    (hw : ∃ x, t.weight = .fin x) (hu : Usable fm (List.range n) t.root) :
    ∃ fv : List (FVote K), t.vote fm = some (fv.map FVote.ballot) ∧ fv.Perm (forestVotes fm n [t]) := by
  obtain ⟨votes, cs, h1, -, h3⟩ := c06_one_vote_per_case t fm (List.range n) hu
  have hv : t.vote fm = some votes := by
    simp only [Tree.vote, hc, Option.bind_eq_bind, Option.bind_some, h1]
  have hmap : (List.range n).filterMap (fun c => (landing fm t.root c).map fun x =>
      (⟨c, x.2, t.voteWeight⟩ : Ballot K)) = (forestVotes fm n [t]).map FVote.ballot := by
    simp only [forestVotes, List.flatMap_cons, List.flatMap_nil, List.append_nil, List.map_filterMap,
      Tree.voteWeight_say hw, Tree.opinion, Option.map_map]
    rfl
  rw [hmap] at h3
  have hback : ∀ b ∈ votes, ∃ v : FVote K, v.ballot = b := by
    intro b hb
    obtain ⟨v, -, hv⟩ := List.mem_map.1 (h3.mem_iff.1 hb)
    exact ⟨v, hv⟩
  obtain ⟨fv, rfl⟩ : ∃ fv : List (FVote K), fv.map FVote.ballot = votes := by
    clear h1 h3 hv
    induction votes with
    | nil => exact ⟨[], rfl⟩
    | cons b vs ih =>
      obtain ⟨v, rfl⟩ := hback b (by simp)
      obtain ⟨fv, rfl⟩ := ih fun b hb => hback b (List.mem_cons_of_mem _ hb)
      exact ⟨v :: fv, rfl⟩
  refine ⟨fv, hv, ?_⟩
  have hinj : Function.Injective (FVote.ballot (K := K)) := by
    rintro ⟨a, b, c⟩ ⟨a', b', c'⟩ h
    simp only [FVote.ballot, Ballot.mk.injEq, XF.fin.injEq] at h
    obtain ⟨rfl, rfl, rfl⟩ := h
    rfl
  exact (List.map_perm_map_iff hinj).1 h3

theorem forest_casts (nt : NumText K) {fm : FeatureMatrix K} {n : Nat} (hc : fm.allCases = some (List.range n)) :
    ∀ (trees : List (Tree K)), (∀ t ∈ trees, (∃ x, t.weight = .fin x) ∧ Usable fm (List.range n) t.root) →
    ∃ fv : List (FVote K), fv.Perm (forestVotes fm n trees) ∧ ∀ bb : Box K,
      trees.foldlM (fun (bb : Box K) t => do
        let votes ← t.vote fm
        bb.castVotes nt votes) bb = bb.castVotes nt (fv.map FVote.ballot) := by
  intro trees
  induction trees with
  | nil => intro _; exact ⟨[], .nil, fun bb => (Box.castVotes_nil nt bb).symm⟩
  | cons t trees ih =>
    intro h
    obtain ⟨fv, h1, h2⟩ := Tree.vote_fvotes hc (h t (by simp)).1 (h t (by simp)).2
    obtain ⟨fv', h3, h4⟩ := ih fun t ht => h t (by simp [ht])
    refine ⟨fv ++ fv', ?_, ?_⟩
    · have : forestVotes fm n (t :: trees) = forestVotes fm n [t] ++ forestVotes fm n trees := by
        simp [forestVotes]
      rw [this]
      exact h2.append h3
    · intro bb
      rw [List.foldlM_cons, h1, List.map_append, Box.castVotes_append]
      simp only [Option.bind_eq_bind, Option.bind_some]
      cases bb.castVotes nt (fv.map FVote.ballot) with
      | none => rfl
      | some bb => exact h4 bb

/-- Those of one case. -/
theorem filterMap_range_case {β : Type} (n i : Nat) (hi : i < n) (g : Nat → Option β) :
    (List.range n).filterMap (fun c => if c = i then g c else none) = (g i).toList := by
  induction n with
  | zero => omega
  | succ n ih =>
    rw [List.range_succ, List.filterMap_append]
    by_cases h : i < n
    · rw [ih h]
      have hn : n ≠ i := by omega
      simp [hn]
    · have : i = n := by omega
      subst this
      have : (List.range i).filterMap (fun c => if c = i then g c else none) = [] := by
        rw [List.filterMap_eq_nil_iff]
        intro c hc
        rw [if_neg (by have := List.mem_range.1 hc; omega)]
      rw [this]
      cases h : g i <;> simp [h]

theorem weightFor_perm {a b : List (FVote K)} (h : a.Perm b) (i : Nat) (p : String) :
    weightFor a i p = weightFor b i p := by
  unfold weightFor
  exact ((h.filter _).map _).sum_eq

theorem weightFor_app (a b : List (FVote K)) (i : Nat) (p : String) :
    weightFor (a ++ b) i p = weightFor a i p + weightFor b i p := by
  simp [weightFor]

theorem weightFor_tree (fm : FeatureMatrix K) (n : Nat) (t : Tree K) (i : Nat) (hi : i < n) (p : String) :
    weightFor (forestVotes fm n [t]) i p = if t.opinion fm i = some p then t.say else 0 := by
  unfold weightFor forestVotes
  rw [← List.filterMap_eq_filter, List.map_filterMap]
  simp only [List.flatMap_cons, List.flatMap_nil, List.append_nil, List.filterMap_filterMap]
  have : (fun c => ((t.opinion fm c).map fun p => (⟨c, p, t.say⟩ : FVote K)).bind fun x =>
      (Option.guard (fun v : FVote K => decide (v.case = i ∧ v.pred = p)) x).map (·.weight)) =
      fun c => if c = i then (if t.opinion fm c = some p then some t.say else none) else none := by
    funext c
    cases h : t.opinion fm c with
    | none => simp
    | some q =>
      by_cases h1 : c = i
      · by_cases h2 : q = p
        · simp [Option.guard, h1, h2]
        · simp [Option.guard, h1, h2]
      · simp [Option.guard, h1]
  rw [this, filterMap_range_case n i hi (fun c => if t.opinion fm c = some p then some t.say else none)]
  split <;> simp

theorem weightFor_forest (fm : FeatureMatrix K) (n : Nat) (trees : List (Tree K)) (i : Nat) (hi : i < n) (p : String) :
    weightFor (forestVotes fm n trees) i p = weightOf fm trees i p := by
  induction trees with
  | nil => rfl
  | cons t trees ih =>
    have : forestVotes fm n (t :: trees) = forestVotes fm n [t] ++ forestVotes fm n trees := by
      simp [forestVotes]
    rw [this, weightFor_app, ih, weightFor_tree fm n t i hi]
    unfold weightOf
    by_cases h : t.opinion fm i = some p
    · simp [h]
    · simp [h]

theorem numVotes_forest (nt : NumText K) (fm : FeatureMatrix K) (n : Nat) (trees : List (Tree K)) (i : Nat)
    (hi : i < n) :
    numVotes (fun s => nt.parse s.toList) (forestVotes fm n trees) i = numbersOf nt fm trees i := by
  induction trees with
  | nil => rfl
  | cons t trees ih =>
    have h1 : forestVotes fm n (t :: trees) = forestVotes fm n [t] ++ forestVotes fm n trees := by
      simp [forestVotes]
    have h2 : numbersOf nt fm (t :: trees) i = numbersOf nt fm [t] i ++ numbersOf nt fm trees i := by
      unfold numbersOf
      rw [show t :: trees = [t] ++ trees from rfl, List.filterMap_append]
    rw [h1, h2, numVotes, List.filterMap_append]
    congr 1
    · unfold forestVotes numbersOf
      simp only [List.flatMap_cons, List.flatMap_nil, List.append_nil, List.filterMap_filterMap]
      refine Eq.trans (List.filterMap_congr (g := fun c => if c = i then ((t.opinion fm c).bind fun p =>
          match nt.parse p.toList with
            | some (.fin y) => some (y, t.say)
            | _ => none) else none) ?_) ?_
      · intro c _
        cases t.opinion fm c <;> by_cases h : c = i <;> simp [h] <;> rfl
      rw [filterMap_range_case n i hi]
      cases h : t.opinion fm i with
      | none => simp [h]
      | some p =>
        simp only [h, Option.bind_some]
        rcases h3 : nt.parse p.toList with _ | x
        · simp [h, h3]
        · cases x <;> simp [h, h3]

/-- A vote of the forest is an opinion of one of its trees. -/
theorem mem_forestVotes {fm : FeatureMatrix K} {n : Nat} {trees : List (Tree K)} {v : FVote K}
    (h : v ∈ forestVotes fm n trees) :
    v.case < n ∧ ∃ t ∈ trees, t.opinion fm v.case = some v.pred ∧ v.weight = t.say := by
  simp only [forestVotes, List.mem_flatMap, List.mem_filterMap, List.mem_range, Option.map_eq_some_iff] at h
  obtain ⟨t, ht, c, hc, p, hp, rfl⟩ := h
  exact ⟨hc, t, ht, hp, rfl⟩

end CloudForest
