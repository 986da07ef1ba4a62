import Verif.Spec.Density
import Verif.Lemmas.Regression

/-!
# Lemmas for density
-/

set_option linter.unusedSectionVars false

namespace CloudForest
variable {K : Type} [Field K] [LinearOrder K] [IsStrictOrderedRing K]

theorem knownOf_cons (missing : List Bool) (c : Nat) (cs : List Nat) :
    knownOf missing (c :: cs) = (if missing[c]? = some false then [c] else []) ++ knownOf missing cs := by
  unfold knownOf
  rw [List.filter_cons]
  by_cases h : missing[c]? = some false <;> simp [h]

theorem catSpanLoop_eq (f : CatFeature) (cases : List Nat) (h : ∀ c ∈ cases, c < f.missing.length)
    (hr : f.InRange f.cm.nCats (knownOf f.missing cases)) (counter : List Int) (hn : f.cm.nCats ≤ counter.length)
    (S : Finset Nat) (hS : ∀ k ∈ S, k < f.cm.nCats) (hlt : S.card < f.cm.nCats ∨ cases = [])
    (hc : ∀ k < f.cm.nCats, counter[k]? = some (if k ∈ S then 1 else 0)) :
    f.spanLoop cases counter S.card = some ((S ∪ f.catsOf (knownOf f.missing cases)).card) := by
  induction cases generalizing counter S with
  | nil => simp [CatFeature.spanLoop, CatFeature.catsOf, knownOf]
  | cons c cs ih =>
    have hlt' : S.card < f.cm.nCats := hlt.resolve_right (by simp)
    have hb : ∃ b, f.missing[c]? = some b := ⟨_, List.getElem?_eq_getElem (h c (by simp))⟩
    obtain ⟨b, hb⟩ := hb
    rw [CatFeature.spanLoop, hb, knownOf_cons, hb]
    rw [knownOf_cons, hb] at hr
    cases b with
    | true =>
      simp only [Option.bind_eq_bind, Option.bind_some, if_true]
      rw [if_neg (by simp), List.nil_append]
      rw [if_neg (by simp), List.nil_append] at hr
      exact ih (fun x hx => h x (by simp [hx])) hr counter hn S hS (.inl hlt') hc
    | false =>
      simp only [Option.bind_eq_bind, Option.bind_some, Bool.false_eq_true, if_false]
      rw [if_pos trivial]
      rw [if_pos rfl] at hr
      obtain ⟨k, hk, hkn⟩ := hr c (by simp)
      have hr' : f.InRange f.cm.nCats (knownOf f.missing cs) := fun x hx => hr x (by simp [hx])
      have hset : f.catsOf ([c] ++ knownOf f.missing cs) = insert k (f.catsOf (knownOf f.missing cs)) := by
        unfold CatFeature.catsOf
        simp [hk]
      rw [hk]
      simp only [Option.bind_some, hc k hkn]
      rw [hset]
      by_cases hkS : k ∈ S
      · rw [if_pos hkS]
        simp only [one_ne_zero, if_false]
        rw [ih (fun x hx => h x (by simp [hx])) hr' counter hn S hS (.inl hlt') hc]
        congr 2
        rw [Finset.union_insert, Finset.insert_eq_of_mem (Finset.mem_union_left _ hkS)]
      · rw [if_neg hkS]
        simp only [if_true]
        have hS' : ∀ j ∈ insert k S, j < f.cm.nCats := by
          intro j hj
          rcases Finset.mem_insert.1 hj with rfl | hj
          · exact hkn
          · exact hS j hj
        have hcard : (insert k S).card = S.card + 1 := Finset.card_insert_of_notMem hkS
        have hun : S ∪ insert k (f.catsOf (knownOf f.missing cs)) =
            insert k S ∪ f.catsOf (knownOf f.missing cs) := by
          rw [Finset.union_insert, Finset.insert_union]
        rw [hun]
        by_cases hfull : S.card + 1 = f.cm.nCats
        · rw [if_pos hfull]
          congr 1
          have hsub : insert k S ∪ f.catsOf (knownOf f.missing cs) ⊆ Finset.range f.cm.nCats := by
            intro j hj
            rw [Finset.mem_range]
            rcases Finset.mem_union.1 hj with hj | hj
            · exact hS' j hj
            · unfold CatFeature.catsOf at hj
              rw [List.mem_toFinset, List.mem_map] at hj
              obtain ⟨x, hx, rfl⟩ := hj
              obtain ⟨j, hj, hjn⟩ := hr' x hx
              rw [hj]
              exact hjn
          have h1 := Finset.card_le_card hsub
          rw [Finset.card_range] at h1
          have h2 := Finset.card_le_card (Finset.subset_union_left (s₁ := insert k S)
            (s₂ := f.catsOf (knownOf f.missing cs)))
          omega
        · rw [if_neg hfull, ← hcard]
          refine ih (fun x hx => h x (by simp [hx])) hr' _ (by simpa using hn) (insert k S) hS' (.inl (by omega)) ?_
          intro j hj
          rw [List.getElem?_set]
          by_cases hjk : k = j
          · subst hjk
            rw [if_pos rfl, if_pos (by omega), if_pos (Finset.mem_insert_self _ _)]
          · rw [if_neg hjk, hc j hj]
            congr 1
            by_cases hjS : j ∈ S
            · rw [if_pos hjS, if_pos (Finset.mem_insert_of_mem hjS)]
            · rw [if_neg hjS, if_neg]
              rw [Finset.mem_insert]
              rintro (rfl | h')
              · exact hjk rfl
              · exact hjS h'

theorem catSpan_eq (f : CatFeature) (cases : List Nat) (h : ∀ c ∈ cases, c < f.missing.length)
    (hr : f.InRange f.cm.nCats (knownOf f.missing cases)) (n : Nat) (hn : f.cm.nCats ≤ n) :
    (f.span cases n : Option (XF K)) = some (.ofNat (f.distinct cases)) := by
  unfold CatFeature.span CatFeature.distinct
  by_cases h0 : f.cm.nCats = 0
  · have hk : knownOf f.missing cases = [] := by
      cases hk : knownOf f.missing cases with
      | nil => rfl
      | cons c cs =>
        obtain ⟨k, -, hlt⟩ := hr c (by rw [hk]; simp)
        omega
    have : ∀ (cs : List Nat) (counter : List Int), (∀ c ∈ cs, c < f.missing.length) → knownOf f.missing cs = [] →
        f.spanLoop cs counter 0 = some 0 := by
      intro cs
      induction cs with
      | nil => intro counter _ _; rfl
      | cons c cs ih =>
        intro counter hlt hk
        rw [knownOf_cons] at hk
        have hb : ∃ b, f.missing[c]? = some b := ⟨_, List.getElem?_eq_getElem (hlt c (by simp))⟩
        obtain ⟨b, hb⟩ := hb
        rw [hb] at hk
        cases b with
        | false => simp at hk
        | true =>
          rw [CatFeature.spanLoop, hb]
          simp only [Option.bind_eq_bind, Option.bind_some, if_true]
          exact ih counter (fun x hx => hlt x (by simp [hx])) (by simpa using hk)
    rw [this cases _ h hk, hk]
    simp [CatFeature.catsOf]
  · have := catSpanLoop_eq f cases h hr (List.replicate n 0) (by simpa using hn) ∅ (by simp) (.inl (by simp; omega))
      (by intro k hk; rw [List.getElem?_replicate, if_pos (by omega)]; simp)
    rw [Finset.card_empty, Finset.empty_union] at this
    rw [this]
    rfl

theorem numSpanLoop_eq (f : NumFeature K) (hl : f.numData.length = f.missing.length) (cases : List Nat)
    (h : ∀ c ∈ cases, c < f.missing.length) (hfin : f.Finite (knownOf f.missing cases)) (x : K) :
    ∃ y, f.spanLoop cases (true, .fin x, .fin x) = some (true, .fin y, .fin y) := by
  induction cases generalizing x with
  | nil => exact ⟨x, rfl⟩
  | cons c cs ih =>
    have hb : ∃ b, f.missing[c]? = some b := ⟨_, List.getElem?_eq_getElem (h c (by simp))⟩
    obtain ⟨b, hb⟩ := hb
    rw [knownOf_cons, hb] at hfin
    rw [NumFeature.spanLoop, hb]
    cases b with
    | true =>
      simp only [Option.bind_eq_bind, Option.bind_some, if_true]
      exact ih (fun y hy => h y (by simp [hy])) (fun y hy => hfin y (by simpa using hy)) x
    | false =>
      simp only [Option.bind_eq_bind, Option.bind_some, Bool.false_eq_true, if_false]
      obtain ⟨y, hy⟩ := hfin c (by simp)
      rw [hy]
      simp only [Option.bind_some, if_true]
      exact ih (fun y hy => h y (by simp [hy])) (fun z hz => hfin z (by simp [hz])) y

theorem numSpan_eq (f : NumFeature K) (hl : f.numData.length = f.missing.length) (cases : List Nat)
    (h : ∀ c ∈ cases, c < f.missing.length) (hfin : f.Finite (knownOf f.missing cases)) :
    f.span cases = some (.fin 0) := by
  obtain ⟨y, hy⟩ := numSpanLoop_eq f hl cases h hfin 0
  unfold NumFeature.span
  rw [hy]
  simp only [Option.bind_eq_bind, Option.bind_some]
  congr 1
  show XF.fin (y + -y) = _
  rw [add_neg_cancel]

theorem le_maxCats (features : List (Feature K)) (f : Feature K) (h : f ∈ features) : f.nCats ≤ maxCats features := by
  have key : ∀ (fs : List (Feature K)) (m : Nat),
      m ≤ fs.foldl (fun m f => if m < f.nCats then f.nCats else m) m ∧
      ∀ f ∈ fs, f.nCats ≤ fs.foldl (fun m f => if m < f.nCats then f.nCats else m) m := by
    intro fs
    induction fs with
    | nil => intro m; simp
    | cons g gs ih =>
      intro m
      rw [List.foldl_cons]
      obtain ⟨h1, h2⟩ := ih (if m < g.nCats then g.nCats else m)
      have : m ≤ (if m < g.nCats then g.nCats else m) ∧ g.nCats ≤ (if m < g.nCats then g.nCats else m) := by
        split <;> omega
      refine ⟨le_trans this.1 h1, fun f hf => ?_⟩
      rcases List.mem_cons.1 hf with rfl | hf
      · exact le_trans this.2 h1
      · exact h2 f hf
  exact (key features 0).2 f h

end CloudForest
