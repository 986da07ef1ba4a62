import Verif.Lemmas.Books
import Mathlib.Tactic.FieldSimp
import Mathlib.Tactic.Ring

/-! # What the books say after noting a list of uses -/

set_option linter.unusedSectionVars false

namespace CloudForest
variable {K : Type} [Field K] [LinearOrder K] [IsStrictOrderedRing K] {σ : Type}
  {P : σ → Prop} {Q : Nat → Prop}

/-- The running mean of a list of numbers. -/
def RunningMean.ofList (xs : List K) : RunningMean K :=
  ⟨.fin (xs.sum / (xs.length : K)), .fin (xs.length : K)⟩

theorem RunningMean.new_eq : (RunningMean.new : RunningMean K) = .ofList [] := by
  simp [RunningMean.new, RunningMean.ofList]

theorem RunningMean.ofList_add (xs : List K) (x : K) :
    (RunningMean.ofList xs).add (.fin x) = .ofList (xs ++ [x]) := by
  unfold RunningMean.add RunningMean.ofList
  have hs : xs.sum / (xs.length : K) * (xs.length : K) = xs.sum := by
    cases xs with
    | nil => simp
    | cons y ys =>
      have : (((y :: ys).length : Nat) : K) ≠ 0 := by
        rw [List.length_cons]; push_cast; positivity
      field_simp
  have := weightedAdd_fin (K := K) (s := xs.sum) (c := (xs.length : K)) (y := x) (w := 1) hs
    (by positivity)
  rw [this]
  simp

/-- The numbers noted for feature `i`. -/
def decsOf (us : List (Use K)) (i : Nat) : List K := (us.filter (·.feature == i)).map (·.dec)

@[inherit_doc decsOf]
def depthsOf (us : List (Use K)) (i : Nat) : List Nat := (us.filter (·.feature == i)).map (·.depth)

/-- One update of `depthUsed`. -/
def depthStep (d depth : Nat) : Nat := if d = 0 ∨ depth < d then depth else d

theorem note_eq {imp : List (RunningMean K)} {du : List Nat} {u : Use K}
    (h1 : u.feature < imp.length) (h2 : u.feature < du.length) :
    (Books.mk (some imp) (some du)).note u.feature (.fin u.dec) u.depth =
      some ⟨some (imp.set u.feature ((imp[u.feature]).add (.fin u.dec))),
        some (du.set u.feature (depthStep du[u.feature] u.depth))⟩ := by
  simp only [Books.note, Books.addImportance, Books.useAt, List.getElem?_eq_getElem h1,
    List.getElem?_eq_getElem h2, Option.bind_eq_bind, Option.bind_some, depthStep]
  by_cases hd : du[u.feature] = 0 ∨ u.depth < du[u.feature]
  · rw [if_pos hd, if_pos hd]
  · rw [if_neg hd, if_neg hd, List.set_getElem_self]

theorem noteAll_eq : ∀ (us : List (Use K)) (imp : List (RunningMean K)) (du : List Nat),
    (∀ u ∈ us, u.feature < imp.length) → (∀ u ∈ us, u.feature < du.length) →
    ∃ imp' du', noteAll us ⟨some imp, some du⟩ = some ⟨some imp', some du'⟩ ∧
      imp'.length = imp.length ∧ du'.length = du.length ∧
      (∀ (i : Nat) (xs : List K), imp[i]? = some (.ofList xs) →
        imp'[i]? = some (.ofList (xs ++ decsOf us i))) ∧
      ∀ (i d : Nat), du[i]? = some d → du'[i]? = some ((depthsOf us i).foldl depthStep d) := by
  intro us
  induction us with
  | nil =>
    intro imp du _ _
    exact ⟨imp, du, rfl, rfl, rfl, fun i xs h => by simpa [decsOf] using h,
      fun i d h => by simpa [depthsOf] using h⟩
  | cons u us ih =>
    intro imp du h1 h2
    have e := note_eq (h1 u (by simp)) (h2 u (by simp))
    obtain ⟨imp', du', e', l1, l2, p1, p2⟩ := ih
      (imp.set u.feature ((imp[u.feature]'(h1 u (by simp))).add (.fin u.dec)))
      (du.set u.feature (depthStep (du[u.feature]'(h2 u (by simp))) u.depth))
      (fun v hv => by rw [List.length_set]; exact h1 v (by simp [hv]))
      (fun v hv => by rw [List.length_set]; exact h2 v (by simp [hv]))
    refine ⟨imp', du', ?_, by rw [l1, List.length_set], by rw [l2, List.length_set], ?_, ?_⟩
    · show (Books.note _ _ _ _).bind (noteAll us) = _
      rw [e]; exact e'
    · intro i xs hx
      by_cases hi : u.feature = i
      · subst hi
        have hg : imp[u.feature]'(h1 u (by simp)) = .ofList xs := by
          rw [List.getElem?_eq_getElem (h1 u (by simp))] at hx
          exact Option.some.inj hx
        have := p1 u.feature (xs ++ [u.dec]) (by
          rw [List.getElem?_set_self (h1 u (by simp)), hg, RunningMean.ofList_add])
        rw [this]
        simp [decsOf]
      · have := p1 i xs (by rw [List.getElem?_set_ne hi]; exact hx)
        rw [this]
        simp [decsOf, hi]
    · intro i d hx
      by_cases hi : u.feature = i
      · subst hi
        have hg : du[u.feature]'(h2 u (by simp)) = d := by
          rw [List.getElem?_eq_getElem (h2 u (by simp))] at hx
          exact Option.some.inj hx
        have := p2 u.feature _ (by rw [List.getElem?_set_self (h2 u (by simp))])
        rw [this, hg]
        simp [depthsOf]
      · have := p2 i d (by rw [List.getElem?_set_ne hi]; exact hx)
        rw [this]
        simp [depthsOf, hi]

theorem foldl_depthStep_pos : ∀ (ds : List Nat) (d : Nat), 0 < d → (∀ x ∈ ds, 0 < x) →
    ds.foldl depthStep d = ds.foldl min d := by
  intro ds
  induction ds with
  | nil => intros; rfl
  | cons x ds ih =>
    intro d hd h
    have hx := h x (by simp)
    have : depthStep d x = min d x := by unfold depthStep; split <;> omega
    rw [List.foldl_cons, List.foldl_cons, this]
    exact ih _ (by omega) (fun y hy => h y (by simp [hy]))

theorem foldl_depthStep (ds : List Nat) (h : ∀ x ∈ ds, 0 < x) :
    ds.foldl depthStep 0 = ds.min?.getD 0 := by
  cases ds with
  | nil => rfl
  | cons x ds =>
    rw [List.foldl_cons, show depthStep 0 x = x by simp [depthStep],
      foldl_depthStep_pos ds x (h x (by simp)) (fun y hy => h y (by simp [hy])), List.min?_cons']
    rfl

theorem usesOf_deep (fm : FeatureMatrix K) (dec : Nat → Coded K → List Nat → K) :
    ∀ (n : Node K) (cs : List Nat) (d : Nat), ∀ u ∈ usesOf fm dec n cs d, d ≤ u.depth := by
  intro n
  induction n with
  | nil => intro cs d u hu; simp [usesOf] at hu
  | mk coded fi l r m p spl ihl ihr ihm =>
    intro cs d u hu
    cases coded with
    | none => simp [usesOf] at hu
    | some code =>
      rw [usesOf, List.mem_cons] at hu
      rcases hu with rfl | hu
      · exact le_refl _
      · simp only [List.mem_append] at hu
        rcases hu with (hu | hu) | hu
        · exact le_trans (by omega) (ihl _ _ u hu)
        · exact le_trans (by omega) (ihr _ _ u hu)
        · exact le_trans (by omega) (ihm _ _ u hu)

/-- The first use of a tree is at the root, all others are below. -/
theorem usesOf_shape (fm : FeatureMatrix K) (dec : Nat → Coded K → List Nat → K)
    (n : Node K) (cs : List Nat) :
    usesOf fm dec n cs 0 = [] ∨ ∃ u us, usesOf fm dec n cs 0 = u :: us ∧ u.depth = 0 ∧
      ∀ v ∈ us, 0 < v.depth := by
  cases n with
  | nil => exact .inl rfl
  | mk coded fi l r m p spl =>
    cases coded with
    | none => exact .inl rfl
    | some code =>
      refine .inr ⟨_, _, by rw [usesOf], rfl, ?_⟩
      intro v hv
      simp only [List.mem_append] at hv
      rcases hv with (hv | hv) | hv <;> exact usesOf_deep fm dec _ _ _ v hv

/-- What `depthUsed` holds after a tree: the least depth of a use below the root. -/
theorem depthUsed_eq (fm : FeatureMatrix K) (dec : Nat → Coded K → List Nat → K)
    (n : Node K) (cs : List Nat) (i : Nat) :
    (depthsOf (usesOf fm dec n cs 0) i).foldl depthStep 0 =
      ((depthsOf (usesOf fm dec n cs 0) i).filter (0 < ·)).min?.getD 0 := by
  rcases usesOf_shape fm dec n cs with h | ⟨u, us, h, h0, hpos⟩
  · rw [h]; rfl
  · rw [h]
    have hp : ∀ x ∈ depthsOf us i, 0 < x := by
      intro x hx
      unfold depthsOf at hx
      rw [List.mem_map] at hx
      obtain ⟨v, hv, rfl⟩ := hx
      exact hpos v (List.mem_of_mem_filter hv)
    have hf : (depthsOf us i).filter (0 < ·) = depthsOf us i := by
      rw [List.filter_eq_self]; intro x hx; simpa using hp x hx
    by_cases hi : u.feature = i
    · have : depthsOf (u :: us) i = 0 :: depthsOf us i := by simp [depthsOf, hi, h0]
      rw [this, List.foldl_cons, show depthStep 0 0 = 0 by rfl, foldl_depthStep _ hp,
        List.filter_cons_of_neg (by simp), hf]
    · have : depthsOf (u :: us) i = depthsOf us i := by simp [depthsOf, hi]
      rw [this, foldl_depthStep _ hp, hf]

theorem countDepths_get : ∀ (du : List Nat) (mmd : List (RunningMean K)), du.length = mmd.length →
    ∀ (i d : Nat) (m : RunningMean K), du[i]? = some d → mmd[i]? = some m →
      (countDepths du mmd)[i]? = some (if d ≠ 0 then m.add (XF.ofNat d) else m) := by
  intro du
  induction du with
  | nil => intro mmd _ i d m h; simp at h
  | cons v du ih =>
    intro mmd hl i d m h1 h2
    cases mmd with
    | nil => simp at hl
    | cons m0 mmd =>
      rw [countDepths]
      cases i with
      | zero => simp at h1 h2 ⊢; subst h1 h2; rfl
      | succ i =>
        rw [List.getElem?_cons_succ] at h1 h2 ⊢
        exact ih mmd (by simpa using hl) i d m h1 h2

theorem countDepths_length : ∀ (du : List Nat) (mmd : List (RunningMean K)),
    (countDepths du mmd).length = mmd.length := by
  intro du
  induction du with
  | nil => intro mmd; cases mmd <;> rfl
  | cons v du ih =>
    intro mmd
    cases mmd with
    | nil => rfl
    | cons m mmd => simp [countDepths, ih]

end CloudForest
