import Verif.Lemmas.Sf4
import Verif.Model.TreeFile

/-!
# The forest file of growforest, read back
-/

set_option linter.unusedSectionVars false

namespace CloudForest
variable {K : Type} [Field K] [LinearOrder K] [IsStrictOrderedRing K]

/-- Trees written with any numbers. -/
def numberedText (nt : NumText K) (ord : Splitter K → List String) : List (Nat × Tree K) → Text
  | [] => []
  | (i, t) :: ts => treeText nt ord i t ++ numberedText nt ord ts

theorem follows_numbered (nt : NumText K) (ord : Splitter K → List String) (ts : List (Nat × Tree K)) :
    Follows (numberedText nt ord ts) := by
  cases ts with
  | nil => exact .inl rfl
  | cons t ts =>
    obtain ⟨s, hs⟩ := treeText_head nt ord t.1 t.2
    exact .inr ⟨'T', s ++ numberedText nt ord ts, by rw [numberedText, hs]; rfl, .inl rfl⟩

theorem numberedText_nil {nt : NumText K} {ord : Splitter K → List String} {ts : List (Nat × Tree K)}
    (h : numberedText nt ord ts = []) : ts = [] := by
  cases ts with
  | nil => rfl
  | cons t ts =>
    obtain ⟨s, hs⟩ := treeText_head nt ord t.1 t.2
    rw [numberedText, hs] at h
    cases h

theorem length_numberedText (nt : NumText K) (ord : Splitter K → List String) (ts : List (Nat × Tree K)) :
    ts.length ≤ (numberedText nt ord ts).length := by
  induction ts with
  | nil => simp
  | cons t ts ih =>
    obtain ⟨s, hs⟩ := treeText_head nt ord t.1 t.2
    rw [numberedText, List.length_append, hs]
    simp only [List.length_cons]
    omega

/-- How reading goes on after a tree. -/
theorem readForestLoop_numbered {nt : NumText K} {ord : Splitter K → List String}
    (hord : ∀ s : Splitter K, (ord s).Perm s.left) (ts : List (Nat × Tree K)) (ht : ∀ t ∈ ts, t.2.Writable nt)
    (fuel : Nat) (hfuel : ts.length < fuel) (fo : Forest K) (hne : ts ≠ []) :
    readForestLoop nt fuel (some fo) (numberedText nt ord ts) =
      some ⟨some { fo with trees := fo.trees ++ ts.map fun t => backTree ord t.2 }, .ok, []⟩ := by
  induction ts generalizing fuel fo with
  | nil => exact absurd rfl hne
  | cons t ts ih =>
    cases fuel with
    | zero => simp at hfuel
    | succ fuel =>
      have hrd := readTree_tree hord (ht t (by simp)) t.1 (follows_numbered nt ord ts)
      obtain ⟨s, hs⟩ := treeText_head nt ord t.1 t.2
      rw [numberedText]
      rw [hs, List.cons_append] at hrd ⊢
      unfold readForestLoop
      rw [if_neg (by simp), hrd]
      simp only [Option.bind_eq_bind, Option.bind_some, Option.isSome_some, Option.isSome_none,
        Bool.and_false, Bool.false_eq_true, if_false, if_true, Forest.withTree]
      cases hend : numberedText nt ord ts with
      | nil =>
        rw [numberedText_nil hend]
        simp [endOf]
      | cons c s' =>
        simp only [endOf]
        rw [← hend, ih (fun x hx => ht x (by simp [hx])) fuel (by simp at hfuel; omega)]
        · simp
        · rintro rfl
          cases hend

/-- A forest without header, the trees numbered in any way. -/
theorem readForest_numbered {nt : NumText K} {ord : Splitter K → List String}
    (hord : ∀ s : Splitter K, (ord s).Perm s.left) (ts : List (Nat × Tree K)) (ht : ∀ t ∈ ts, t.2.Writable nt)
    (target : String) (hne : ts ≠ []) (htt : ∀ t ∈ ts, t.2.target = target) :
    readForest nt (numberedText nt ord ts) =
      some ⟨some ⟨target, ts.map fun t => backTree ord t.2, .fin 0⟩, .ok, []⟩ := by
  obtain ⟨t, ts, rfl⟩ := List.exists_cons_of_ne_nil hne
  have hrd := readTree_tree hord (ht t (by simp)) t.1 (follows_numbered nt ord ts)
  have hlen := length_numberedText nt ord ts
  have htt := htt t (by simp)
  obtain ⟨s, hs⟩ := treeText_head nt ord t.1 t.2
  rw [numberedText]
  rw [hs, List.cons_append] at hrd ⊢
  unfold readForest
  simp only
  rw [if_neg (by simp)]
  unfold readForestLoop
  rw [if_neg (by simp), hrd]
  simp only [Option.bind_eq_bind, Option.bind_some, Option.isSome_none,
      Bool.and_false, Bool.false_eq_true, if_false, Forest.withTree]
  cases hend : numberedText nt ord ts with
  | nil =>
    rw [numberedText_nil hend]
    simp [endOf, backTree, htt]
  | cons c s' =>
    simp only [endOf]
    rw [← hend, readForestLoop_numbered hord ts (fun x hx => ht x (by simp [hx]))]
    · simp [backTree, htt]
    · simp only [List.length_append, List.length_cons]
      omega
    · rintro rfl
      cases hend

/-- A forest with header. -/
theorem readForest_numbered_header {nt : NumText K} {ord : Splitter K → List String}
    (hord : ∀ s : Splitter K, (ord s).Perm s.left) (ts : List (Nat × Tree K)) (ht : ∀ t ∈ ts, t.2.Writable nt)
    (target : String) (htg : Plain target.toList) (x : XF K) (hx : ¬ x.feq (.fin 0) → nt.Faithful x) :
    readForest nt (writeForestHeader nt 0 target x ++ numberedText nt ord ts) =
      some ⟨some ⟨target, ts.map fun t => backTree ord t.2, x⟩, .ok, []⟩ := by
  obtain ⟨s, hs⟩ : ∃ s, writeForestHeader nt 0 target x = 'F' :: s := by
    unfold writeForestHeader; exact ⟨_, rfl⟩
  cases ts with
  | nil =>
    rw [numberedText, List.append_nil]
    have hrd := readTree_onlyHeader 0 target x htg hx
    rw [hs] at hrd ⊢
    unfold readForest
    simp only
    rw [if_neg (by simp)]
    unfold readForestLoop
    rw [if_neg (by simp), hrd]
    simp [Forest.withTree]
  | cons t ts =>
    have hrd := readTree_header hord (ht t (by simp)) t.1 0 target x htg hx (follows_numbered nt ord ts)
    have hlen := length_numberedText nt ord ts
    rw [numberedText]
    rw [hs, List.cons_append] at hrd ⊢
    unfold readForest
    simp only
    rw [if_neg (by simp)]
    unfold readForestLoop
    rw [if_neg (by simp), hrd]
    simp only [Option.bind_eq_bind, Option.bind_some, Option.isSome_none, Bool.false_and,
        Bool.false_eq_true, if_false, Forest.withTree]
    cases hend : numberedText nt ord ts with
    | nil =>
      rw [numberedText_nil hend]
      simp [endOf]
    | cons c s' =>
      simp only [endOf]
      rw [← hend, readForestLoop_numbered hord ts (fun x hx => ht x (by simp [hx]))]
      · simp
      · simp only [List.length_append, List.length_cons]
        omega
      · rintro rfl
        cases hend

/-- The numbers growforest gives. -/
def numberedBy (progress : Bool) : Nat → List (Tree K) → List (Nat × Tree K)
  | _, [] => []
  | i, t :: ts => (i, t) :: numberedBy progress (if progress then i + 1 else i) ts

theorem numberedBy_snd (progress : Bool) (i : Nat) (ts : List (Tree K)) :
    (numberedBy progress i ts).map (·.2) = ts := by
  induction ts generalizing i with
  | nil => rfl
  | cons t ts ih => simp [numberedBy, ih]

theorem numberedBy_mem {progress : Bool} {i : Nat} {ts : List (Tree K)} {x : Nat × Tree K}
    (h : x ∈ numberedBy progress i ts) : x.2 ∈ ts := by
  rw [← numberedBy_snd progress i ts]
  exact List.mem_map_of_mem h

theorem recordTrees_eq {nt : NumText K} {ord : Splitter K → List String} (progress : Bool) (ts : List (Tree K))
    (h : ∀ t ∈ ts, t.Writable nt) (i : Nat) :
    recordTrees nt ord progress i ts = some (numberedText nt ord (numberedBy progress i ts)) := by
  induction ts generalizing i with
  | nil => rfl
  | cons t ts ih =>
    unfold recordTrees
    rw [writeTree_eq (h t (by simp)), ih fun x hx => h x (by simp [hx])]
    rfl

/-- What growforest writes is read as the forest, however the trees are numbered. -/
theorem readForest_growforestFile {nt : NumText K} {ord : Splitter K → List String}
    (hord : ∀ s : Splitter K, (ord s).Perm s.left) (progress : Bool) (target : String) (x : Option (XF K))
    (trees : List (Tree K)) (ht : ∀ t ∈ trees, t.Writable nt ∧ t.target = target) (hne : trees ≠ [])
    (htg : Plain target.toList) (hx : ∀ y, x = some y → nt.Faithful y) :
    ∃ text, growforestFile nt ord progress target x trees = some text ∧
      readForest nt text = some ⟨some ⟨target, trees.map (backTree ord), x.getD (.fin 0)⟩, .ok, []⟩ := by
  have hmap : (numberedBy progress 0 trees).map (fun t => backTree ord t.2) = trees.map (backTree ord) := by
    conv_rhs => rw [← numberedBy_snd progress 0 trees]
    rw [List.map_map]
    rfl
  have hw : ∀ t ∈ numberedBy progress 0 trees, t.2.Writable nt := fun t h => (ht _ (numberedBy_mem h)).1
  refine ⟨_, by unfold growforestFile; rw [recordTrees_eq progress trees fun t h => (ht t h).1]; rfl, ?_⟩
  cases x with
  | none =>
    rw [List.nil_append, readForest_numbered hord _ hw target, hmap]
    · rfl
    · intro e
      apply hne
      rw [← numberedBy_snd progress 0 trees, e]
      rfl
    · exact fun t h => (ht _ (numberedBy_mem h)).2
  | some x =>
    rw [readForest_numbered_header hord _ hw target htg x fun _ => hx x rfl, hmap]
    rfl

end CloudForest
