import Verif.Model.SortCost
import Verif.Lemmas.SortBy3
import Mathlib.Data.Nat.Log
import Mathlib.Tactic.Ring

/-!
Counting the steps of the sort.
-/

set_option linter.unusedSectionVars false

namespace CloudForest
namespace SortBy
variable {K : Type} [LinearOrder K]

/-- The result is `x`, after at most `n` steps. -/
def Gives {α : Type} (m : Counted α) (x : α) (n : Nat) : Prop := ∃ k, k ≤ n ∧ m = some (x, k)

theorem Gives.mono {α : Type} {m : Counted α} {x : α} {n n' : Nat} (h : Gives m x n) (hn : n ≤ n') : Gives m x n' := by
  obtain ⟨k, hk, e⟩ := h
  exact ⟨k, by omega, e⟩

theorem gives_pure {α : Type} (x : α) (n : Nat) : Gives (pure x) x n := ⟨0, Nat.zero_le _, rfl⟩

theorem gives_bind {α β : Type} {m : Counted α} {f : α → Counted β} {x : α} {y : β} {n k : Nat} (h : Gives m x n)
    (h' : Gives (f x) y k) : Gives (m >>= f) y (n + k) := by
  obtain ⟨i, hi, rfl⟩ := h
  obtain ⟨j, hj, e⟩ := h'
  refine ⟨i + j, by omega, ?_⟩
  show (match f x with | none => none | some (y, k) => some (y, i + k)) = _
  rw [e]

theorem gives_read {s : SV K} {i : Nat} {x : XF K} (h : s.vs[i]? = some x) : Gives (readT s i) x 0 :=
  ⟨0, le_refl _, by unfold readT; rw [h]; rfl⟩

theorem gives_less (x y : XF K) : Gives (lessT x y) (decide (x < y)) 1 := ⟨1, le_refl _, rfl⟩
theorem gives_atLeast (x y : XF K) : Gives (atLeastT x y) (decide (y ≤ x)) 1 := ⟨1, le_refl _, rfl⟩
theorem gives_equal (x y : XF K) : Gives (equalT x y) (XF.feq x y) 1 := ⟨1, le_refl _, rfl⟩

theorem gives_swap {s s' : SV K} {i j : Nat} (h : swap s i j = some s') : Gives (swapT s i j) s' 1 :=
  ⟨1, le_refl _, by unfold swapT; rw [h]; rfl⟩

theorem insInner_gives (a : Nat) : ∀ (j : Nat) (s s' : SV K), insInner s a j = some s' →
    Gives (insInnerT s a j) s' (2 * (j - a)) := by
  intro j
  induction j with
  | zero => intro s s' h; cases h; exact gives_pure _ _
  | succ j ih =>
    intro s s' h
    unfold insInner at h
    unfold insInnerT
    split at h
    · rename_i ha
      rw [if_pos ha]
      split at h
      · rename_i x y hx hy
        split at h
        · rename_i hlt
          split at h
          · rename_i s1 hs
            refine (gives_bind (gives_read hx) (gives_bind (gives_read hy) (gives_bind (gives_less x y) (k := 1 + 2 * (j - a)) ?_))).mono
              (by omega)
            rw [if_pos (by simpa using hlt)]
            exact gives_bind (gives_swap hs) (ih _ _ h)
          · cases h
        · rename_i hlt
          cases h
          refine (gives_bind (gives_read hx) (gives_bind (gives_read hy) (gives_bind (gives_less x y) (k := 0) ?_))).mono
            (by omega)
          rw [if_neg (by simpa using hlt)]
          exact gives_pure _ _
      · cases h
    · rename_i ha
      rw [if_neg ha]
      cases h
      exact gives_pure _ _

theorem insOuter_gives (a b : Nat) : ∀ (n i : Nat) (s s' : SV K), b - i = n → a < b → insOuter s a b i = some s' →
    Gives (insOuterT s a i n) s' (n * (2 * (b - a))) := by
  intro n
  induction n with
  | zero =>
    intro i s s' hn hab h
    rw [insOuter, if_neg (by omega)] at h
    cases h
    exact gives_pure _ _
  | succ n ih =>
    intro i s s' hn hab h
    rw [insOuter, if_pos (by omega)] at h
    split at h
    · rename_i s1 h1
      unfold insOuterT
      refine (gives_bind (insInner_gives a i s s1 h1) (ih (i + 1) s1 s' (by omega) hab h)).mono ?_
      have : 2 * (i - a) ≤ 2 * (b - a) := by omega
      rw [Nat.succ_mul n (2 * (b - a))]
      omega
    · cases h

theorem insertionSort_gives {s s' : SV K} {a b : Nat} (h : insertionSort s a b = some s') (hab : a < b) (h7 : b - a ≤ 7) :
    Gives (insertionSortT s a b) s' (12 * (b - a)) := by
  refine (insOuter_gives a b (b - (a + 1)) (a + 1) s s' rfl hab h).mono ?_
  have h6 : b - (a + 1) ≤ 6 := by omega
  calc (b - (a + 1)) * (2 * (b - a)) ≤ 6 * (2 * (b - a)) := Nat.mul_le_mul_right _ h6
    _ = 12 * (b - a) := by ring

theorem pickChild_gives {s : SV K} {root hi first child : Nat} (h : pickChild s root hi first = some child) :
    Gives (pickChildT s root hi first) child 1 := by
  unfold pickChild at h
  unfold pickChildT
  split at h
  · rename_i hc
    rw [if_pos hc]
    split at h
    · rename_i x y hx hy
      simp only [Option.some.injEq] at h
      refine (gives_bind (gives_read hx) (gives_bind (gives_read hy) (gives_bind (gives_less x y) (k := 0) ?_))).mono
        (by omega)
      by_cases hlt : x < y
      · rw [if_pos hlt] at h
        rw [if_pos (by simpa using hlt), ← h]
        exact gives_pure _ _
      · rw [if_neg hlt] at h
        rw [if_neg (by simpa using hlt), ← h]
        exact gives_pure _ _
    · cases h
  · rename_i hc
    rw [if_neg hc]
    cases h
    exact gives_pure _ _

theorem pickChild_ge {s : SV K} {root hi first child : Nat} (h : pickChild s root hi first = some child) :
    2 * root + 1 ≤ child := by
  unfold pickChild at h
  split at h
  · split at h
    · cases h; split <;> omega
    · cases h
  · cases h; omega

theorem siftDown_gives (hi first : Nat) : ∀ (fuel root k : Nat) (s s' : SV K), hi - root < fuel →
    hi < (root + 1) * 2 ^ (k + 1) → siftDown s root hi first = some s' →
    Gives (siftDownT hi first fuel s root) s' (3 * k) := by
  intro fuel
  induction fuel with
  | zero => intro root k s s' hf; omega
  | succ fuel ih =>
    intro root k s s' hf hk h
    rw [siftDown] at h
    unfold siftDownT
    split at h
    · rename_i hc
      rw [if_pos hc]
      split at h
      · cases h
      · rename_i child hch
        have hge := pickChild_ge hch
        cases k with
        | zero => simp at hk; omega
        | succ k =>
          split at h
          · rename_i x y hx hy
            split at h
            · rename_i hle
              cases h
              refine (gives_bind (pickChild_gives hch) (gives_bind (gives_read hx) (gives_bind (gives_read hy)
                (gives_bind (gives_atLeast x y) (k := 0) ?_)))).mono (by omega)
              rw [if_pos (by simpa using hle)]
              exact gives_pure _ _
            · rename_i hle
              split at h
              · rename_i s1 hs
                refine (gives_bind (pickChild_gives hch) (gives_bind (gives_read hx) (gives_bind (gives_read hy)
                  (gives_bind (gives_atLeast x y) (k := 1 + 3 * k) ?_)))).mono (by omega)
                rw [if_neg (by simpa using hle)]
                refine gives_bind (gives_swap hs) (ih child k _ _ (by omega) ?_ h)
                calc hi < (root + 1) * 2 ^ (k + 1 + 1) := hk
                  _ = (2 * root + 1 + 1) * 2 ^ (k + 1) := by ring
                  _ ≤ (child + 1) * 2 ^ (k + 1) := Nat.mul_le_mul_right _ (by omega)
              · cases h
          · cases h
    · rename_i hc
      rw [if_neg hc]
      cases h
      exact gives_pure _ _

theorem buildHeap_gives (hi first L : Nat) (hL : hi < 2 ^ (L + 1)) : ∀ (k : Nat) (s s' : SV K),
    buildHeap s hi first k = some s' → Gives (buildHeapT s hi first k) s' (k * (3 * L)) := by
  intro k
  induction k with
  | zero => intro s s' h; cases h; exact gives_pure _ _
  | succ k ih =>
    intro s s' h
    unfold buildHeap at h
    unfold buildHeapT
    split at h
    · rename_i s1 h1
      refine (gives_bind (siftDown_gives hi first (hi + 1) k L s s1 (by omega) ?_ h1) (ih s1 s' h)).mono ?_
      · exact hL.trans_le (Nat.le_mul_of_pos_left _ (by omega))
      · rw [Nat.succ_mul k (3 * L)]; omega
    · cases h

theorem popHeap_gives (first L n : Nat) (hL : n < 2 ^ (L + 1)) : ∀ (k : Nat) (s s' : SV K), k ≤ n →
    popHeap s first k = some s' → Gives (popHeapT s first k) s' (k * (3 * L + 1)) := by
  intro k
  induction k with
  | zero => intro s s' _ h; cases h; exact gives_pure _ _
  | succ k ih =>
    intro s s' hk h
    unfold popHeap at h
    unfold popHeapT
    split at h
    · rename_i s1 h1
      split at h
      · rename_i s2 h2
        refine (gives_bind (gives_swap h1) (gives_bind (siftDown_gives k first (k + 1) 0 L s1 s2 (by omega) ?_ h2)
          (ih s2 s' (by omega) h))).mono ?_
        · omega
        · rw [Nat.succ_mul k (3 * L + 1)]; omega
      · cases h
    · cases h

theorem heapSort_gives {s s' : SV K} {a b L : Nat} (hab : a < b) (hL : b - a < 2 ^ (L + 1)) (h : heapSort s a b = some s') :
    Gives (heapSortT s a b) s' ((b - a) * (6 * L + 1)) := by
  unfold heapSort at h
  unfold heapSortT
  split at h
  · rename_i s1 h1
    refine (gives_bind (buildHeap_gives (b - a) a L hL _ _ _ h1)
      (popHeap_gives a L (b - a) hL _ _ _ (le_refl _) h)).mono ?_
    have : (b - a - 1) / 2 + 1 ≤ b - a := by omega
    calc ((b - a - 1) / 2 + 1) * (3 * L) + (b - a) * (3 * L + 1)
        ≤ (b - a) * (3 * L) + (b - a) * (3 * L + 1) := Nat.add_le_add_right (Nat.mul_le_mul_right _ this) _
      _ = (b - a) * (6 * L + 1) := by ring
  · cases h

theorem cmpSwap_gives {s s' : SV K} {i j : Nat} (h : cmpSwap s i j = some s') : Gives (cmpSwapT s i j) s' 2 := by
  unfold cmpSwap at h
  unfold cmpSwapT
  split at h
  · rename_i x y hx hy
    refine (gives_bind (gives_read hx) (gives_bind (gives_read hy) (gives_bind (gives_less x y) (k := 1) ?_))).mono (by omega)
    split at h
    · rename_i hlt
      rw [if_pos (by simpa using hlt)]
      exact gives_swap h
    · rename_i hlt
      cases h
      rw [if_neg (by simpa using hlt)]
      exact gives_pure _ _
  · cases h

theorem medianOfThree_gives {s s' : SV K} {a b c : Nat} (h : medianOfThree s a b c = some s') :
    Gives (medianOfThreeT s a b c) s' 6 := by
  unfold medianOfThree at h
  split at h
  · cases h
  · rename_i s1 h1
    split at h
    · cases h
    · rename_i s2 h2
      unfold medianOfThreeT
      refine (gives_bind (cmpSwap_gives h1) (k := 2 + 2) ?_).mono (by omega)
      exact gives_bind (cmpSwap_gives h2) (cmpSwap_gives h)

theorem choosePivot_gives {s s' : SV K} {lo hi : Nat} (h : choosePivot s lo hi = some s') :
    Gives (choosePivotT s lo hi) s' 24 := by
  unfold choosePivot at h
  unfold choosePivotT
  simp only at h ⊢
  split at h
  · rename_i hc
    rw [if_pos hc]
    split at h
    · cases h
    · rename_i s1 h1
      split at h
      · cases h
      · rename_i s2 h2
        split at h
        · cases h
        · rename_i s3 h3
          refine (gives_bind (medianOfThree_gives h1) (k := 6 + (6 + 6)) ?_).mono (by omega)
          refine gives_bind (medianOfThree_gives h2) ?_
          exact gives_bind (medianOfThree_gives h3) (medianOfThree_gives h)
  · rename_i hc
    rw [if_neg hc]
    exact (medianOfThree_gives h).mono (by omega)

theorem scanUp_gives (p : XF K) (c : Nat) : ∀ (fuel : Nat) (s : SV K) (a b : Nat) (s' : SV K) (a' b' : Nat),
    c - b < fuel → scanUp s p a b c = some (s', a', b') →
    Gives (scanUpT p c fuel s a b) (s', a', b') (3 * (b' - b) + if b' < c then 2 else 0) := by
  intro fuel
  induction fuel with
  | zero => intro s a b s' a' b' hf; omega
  | succ fuel ih =>
    intro s a b s' a' b' hf h
    rw [scanUp] at h
    unfold scanUpT
    split at h
    · rename_i hbc
      rw [if_pos hbc]
      split at h
      · cases h
      · rename_i x hx
        split at h
        · rename_i hlt
          have hge := scanUp_ge _ _ _ _ _ _ h
          simp only at hge
          refine (gives_bind (gives_read hx) (gives_bind (gives_less x p) (y := (s', a', b'))
            (k := 3 * (b' - (b + 1)) + if b' < c then 2 else 0) ?_)).mono (by omega)
          rw [if_pos (by simpa using hlt)]
          exact ih _ _ _ _ _ _ (by omega) h
        · rename_i hlt
          split at h
          · rename_i heq
            split at h
            · rename_i s1 hs
              have hge := scanUp_ge _ _ _ _ _ _ h
              simp only at hge
              refine (gives_bind (gives_read hx) (gives_bind (gives_less x p) (y := (s', a', b'))
                (k := 1 + (1 + (3 * (b' - (b + 1)) + if b' < c then 2 else 0))) ?_)).mono (by omega)
              rw [if_neg (by simpa using hlt)]
              refine gives_bind (gives_equal p x) ?_
              rw [if_pos (by simpa using heq)]
              exact gives_bind (gives_swap hs) (ih _ _ _ _ _ _ (by omega) h)
            · cases h
          · rename_i heq
            simp only [Option.some.injEq, Prod.mk.injEq] at h
            obtain ⟨rfl, rfl, rfl⟩ := h
            rw [if_pos hbc]
            refine (gives_bind (gives_read hx) (gives_bind (gives_less x p) (k := 1 + 0) ?_)).mono (by omega)
            rw [if_neg (by simpa using hlt)]
            refine gives_bind (gives_equal p x) ?_
            rw [if_neg (by simpa using heq)]
            exact gives_pure _ _
    · rename_i hbc
      rw [if_neg hbc]
      simp only [Option.some.injEq, Prod.mk.injEq] at h
      obtain ⟨rfl, rfl, rfl⟩ := h
      exact gives_pure _ _

theorem scanDown_gives (p : XF K) (b : Nat) : ∀ (fuel : Nat) (s : SV K) (c d : Nat) (s' : SV K) (c' d' : Nat),
    c - b < fuel → scanDown s p b c d = some (s', c', d') →
    Gives (scanDownT p b fuel s c d) (s', c', d') (3 * (c - c') + if b < c' then 2 else 0) := by
  intro fuel
  induction fuel with
  | zero => intro s c d s' c' d' hf; omega
  | succ fuel ih =>
    intro s c d s' c' d' hf h
    rw [scanDown] at h
    unfold scanDownT
    split at h
    · rename_i hbc
      rw [if_pos hbc]
      split at h
      · cases h
      · rename_i x hx
        split at h
        · rename_i hlt
          have hle := scanDown_le _ _ _ _ _ _ h
          simp only at hle
          refine (gives_bind (gives_read hx) (gives_bind (gives_less p x) (y := (s', c', d'))
            (k := 3 * (c - 1 - c') + if b < c' then 2 else 0) ?_)).mono (by omega)
          rw [if_pos (by simpa using hlt)]
          exact ih _ _ _ _ _ _ (by omega) h
        · rename_i hlt
          split at h
          · rename_i heq
            split at h
            · rename_i s1 hs
              have hle := scanDown_le _ _ _ _ _ _ h
              simp only at hle
              refine (gives_bind (gives_read hx) (gives_bind (gives_less p x) (y := (s', c', d'))
                (k := 1 + (1 + (3 * (c - 1 - c') + if b < c' then 2 else 0))) ?_)).mono (by omega)
              rw [if_neg (by simpa using hlt)]
              refine gives_bind (gives_equal x p) ?_
              rw [if_pos (by simpa using heq)]
              exact gives_bind (gives_swap hs) (ih _ _ _ _ _ _ (by omega) h)
            · cases h
          · rename_i heq
            simp only [Option.some.injEq, Prod.mk.injEq] at h
            obtain ⟨rfl, rfl, rfl⟩ := h
            rw [if_pos hbc]
            refine (gives_bind (gives_read hx) (gives_bind (gives_less p x) (k := 1 + 0) ?_)).mono (by omega)
            rw [if_neg (by simpa using hlt)]
            refine gives_bind (gives_equal x p) ?_
            rw [if_neg (by simpa using heq)]
            exact gives_pure _ _
    · rename_i hbc
      rw [if_neg hbc]
      simp only [Option.some.injEq, Prod.mk.injEq] at h
      obtain ⟨rfl, rfl, rfl⟩ := h
      exact gives_pure _ _

theorem scanUp_max (s : SV K) (p : XF K) (a b c : Nat) (r : SV K × Nat × Nat)
    (h : scanUp s p a b c = some r) : r.2.2 ≤ max b c := by
  fun_induction scanUp s p a b c with
  | case1 => simp at h
  | case2 s a b hlt x hx hp ih => have := ih h; omega
  | case3 s a b hlt x hx hp he s1 hs ih => have := ih h; omega
  | case4 => simp at h
  | case5 => cases h; simp
  | case6 => cases h; simp

theorem scanDown_min (s : SV K) (p : XF K) (b c d : Nat) (r : SV K × Nat × Nat)
    (h : scanDown s p b c d = some r) : min b c ≤ r.2.1 := by
  fun_induction scanDown s p b c d with
  | case1 => simp at h
  | case2 s c d hlt x hx hp ih => have := ih h; omega
  | case3 s c d hlt x hx hp he s1 hs ih => have := ih h; omega
  | case4 => simp at h
  | case5 => cases h; simp
  | case6 => cases h; simp

theorem pivotLoop_gives (p : XF K) : ∀ (fuel : Nat) (s : SV K) (a b c d : Nat) (s' : SV K) (a' b' c' d' : Nat),
    c - b < fuel → b ≤ c + 1 → pivotLoop s p a b c d = some (s', a', b', c', d') →
    Gives (pivotLoopT p fuel s a b c d) (s', a', b', c', d') (5 * (c - b)) ∧ b' ≤ c' + 1 := by
  intro fuel
  induction fuel with
  | zero => intro s a b c d s' a' b' c' d' hf; omega
  | succ fuel ih =>
    intro s a b c d s' a' b' c' d' hf hb1 h
    rw [pivotLoop] at h
    unfold pivotLoopT
    split at h
    · cases h
    · rename_i s1 a1 b1 h1
      have hge := scanUp_ge _ _ _ _ _ _ h1
      have hmax := scanUp_max _ _ _ _ _ _ h1
      simp only at hge hmax
      split at h
      · cases h
      · rename_i s2 c1 d1 h2
        have hle := scanDown_le _ _ _ _ _ _ h2
        have hmin := scanDown_min _ _ _ _ _ _ h2
        simp only at hle hmin
        have g1 := scanUp_gives p c (c - b + 1) s a b s1 a1 b1 (by omega) h1
        have g2 := scanDown_gives p b1 (c - b1 + 1) s1 c d s2 c1 d1 (by omega) h2
        split at h
        · rename_i hlt
          split at h
          · rename_i s3 hs
            obtain ⟨g, hbc⟩ := ih s3 a1 (b1 + 1) (c1 - 1) d1 s' a' b' c' d' (by omega) (by omega) h
            refine ⟨(gives_bind g1 (gives_bind g2 (k := 1 + 5 * (c1 - 1 - (b1 + 1))) ?_)).mono ?_, hbc⟩
            · simp only
              rw [if_pos hlt]
              exact gives_bind (gives_swap hs) g
            · rw [if_pos (by omega), if_pos hlt]
              omega
          · cases h
        · rename_i hlt
          simp only [Option.some.injEq, Prod.mk.injEq] at h
          obtain ⟨rfl, rfl, rfl, rfl, rfl⟩ := h
          refine ⟨(gives_bind g1 (gives_bind g2 (k := 0) ?_)).mono ?_, by omega⟩
          · simp only
            rw [if_neg hlt]
            exact gives_pure _ _
          · rw [if_neg hlt]
            split_ifs <;> omega

theorem swapRange_gives : ∀ (n a b : Nat) (s s' : SV K), swapRange s a b n = some s' →
    Gives (swapRangeT s a b n) s' n := by
  intro n
  induction n with
  | zero => intro a b s s' h; cases h; exact gives_pure _ _
  | succ n ih =>
    intro a b s s' h
    unfold swapRange at h
    unfold swapRangeT
    split at h
    · rename_i s1 h1
      exact (gives_bind (gives_swap h1) (ih _ _ _ _ h)).mono (by omega)
    · cases h

theorem doPivot_gives {s : SV K} {lo hi : Nat} (hok : Ok s) (hb : hi ≤ s.cs.length) (hlt : 7 < hi - lo) :
    ∃ s' mlo mhi, doPivot s lo hi = some (s', mlo, mhi) ∧ Gives (doPivotT s lo hi) (s', mlo, mhi) (10 * (hi - lo)) ∧
      Sw lo hi s s' ∧ lo ≤ mlo ∧ mlo ≤ hi ∧ lo ≤ mhi ∧ mhi ≤ hi ∧ (mlo - lo) + (hi - mhi) ≤ hi - lo := by
  obtain ⟨s1, h1, w1⟩ := choosePivot_spec s lo hi hok hb (by omega)
  have ok1 := w1.ok hok
  have l1 : hi ≤ s1.cs.length := by rw [w1.lens.1]; exact hb
  have hg : s1.vs[lo]? = some (val s1 lo) := get_val (by unfold Ok at ok1; omega)
  obtain ⟨s2, a, b, c, d, h2, w2, i1, i2, i3, i4, i5, i6, -⟩ := pivotLoop_spec (val s1 lo) lo hi
    (hi - (lo + 1)) (lo + 1) (lo + 1) hi hi s1 (le_refl _) ok1 l1 (by omega) (le_refl _) (by omega)
    (by omega) (by omega) (le_refl _) (le_refl _)
  obtain ⟨g2, hbc⟩ := pivotLoop_gives (val s1 lo) (hi - lo + 1) s1 (lo + 1) (lo + 1) hi hi s2 a b c d (by omega) (by omega) h2
  have ok2 := w2.ok ok1
  have l2 : hi ≤ s2.cs.length := by rw [w2.lens.1]; exact l1
  obtain ⟨s3, h3, w3, -⟩ := swapRange_spec lo hi (min (b - a) (a - lo)) lo
    (b - min (b - a) (a - lo)) s2 ok2 l2 (by omega) (by omega) (by omega) (by omega)
  have ok3 := w3.ok ok2
  have l3 : hi ≤ s3.cs.length := by rw [w3.lens.1]; exact l2
  obtain ⟨s4, h4, w4, -⟩ := swapRange_spec lo hi (min (hi - d) (d - c)) c
    (hi - min (hi - d) (d - c)) s3 ok3 l3 (by omega) (by omega) (by omega) (by omega)
  refine ⟨s4, lo + b - a, hi - (d - c), by simp only [doPivot, h1, hg, h2, h3, h4], ?_,
    w1.trans (w2.trans (w3.trans w4)), by omega, by omega, by omega, by omega, by omega⟩
  unfold doPivotT
  have hk : min (b - a) (a - lo) + min (hi - d) (d - c) ≤ hi - lo := by omega
  refine (gives_bind (choosePivot_gives h1)
    (k := 0 + (5 * (hi - (lo + 1)) + (min (b - a) (a - lo) + (min (hi - d) (d - c) + 0)))) ?_).mono (by omega)
  refine gives_bind (gives_read hg) (gives_bind g2 ?_)
  simp only
  exact gives_bind (swapRange_gives _ _ _ _ _ h3) (gives_bind (swapRange_gives _ _ _ _ _ h4) (gives_pure _ _))

theorem quickSort_gives (N L : Nat) (hL : N < 2 ^ (L + 1)) : ∀ (dep a b : Nat) (s : SV K), Ok s → b ≤ s.cs.length → a ≤ b →
    b - a ≤ N → ∃ s' o, quickSort s a b dep = some s' ∧ Sw a b s s' ∧
      Gives (quickSortT s a b dep) (s', o) (10 * (b - a) * dep + (6 * L + 12) * (b - a)) ∧
      2 ^ o ≤ max 1 (b - a) := by
  have small : ∀ (a b X : Nat) (s : SV K), Ok s → b ≤ s.cs.length → a ≤ b → b - a ≤ 7 →
      ∃ s', (if 1 < b - a then insertionSort s a b else some s) = some s' ∧ Sw a b s s' ∧
        Gives (if 1 < b - a then (do let s' ← insertionSortT s a b; pure (s', 0)) else pure (s, 0)) (s', 0)
          (X + (6 * L + 12) * (b - a)) := by
    intro a b X s hok hb hab h7
    split
    · obtain ⟨s', h, w, -⟩ := insertionSort_spec s a b hok hb (by omega)
      refine ⟨s', h, w, (gives_bind (y := (s', 0)) (insertionSort_gives h (by omega) h7) (gives_pure _ 0)).mono ?_⟩
      have : 12 * (b - a) ≤ (6 * L + 12) * (b - a) := Nat.mul_le_mul_right _ (by omega)
      omega
    · exact ⟨s, rfl, Sw.refl _, gives_pure _ _⟩
  have pow0 : ∀ x : Nat, 2 ^ 0 ≤ max 1 x := fun x => by simp
  intro dep
  induction dep with
  | zero =>
    intro a b s hok hb hab hN
    rw [quickSort]
    unfold quickSortT
    split
    · obtain ⟨s', h, w, -⟩ := heapSort_spec s a b hok hb hab
      refine ⟨s', 0, h, w, (gives_bind (y := (s', 0)) (heapSort_gives (L := L) (by omega) (by omega) h) (gives_pure _ 0)).mono ?_, pow0 _⟩
      have : (b - a) * (6 * L + 1) ≤ (b - a) * (6 * L + 12) := Nat.mul_le_mul_left _ (by omega)
      rw [Nat.mul_comm (6 * L + 12)]
      omega
    · obtain ⟨s', h, w, g⟩ := small a b (10 * (b - a) * 0) s hok hb hab (by omega)
      exact ⟨s', 0, h, w, g, pow0 _⟩
  | succ dep ih =>
    intro a b s hok hb hab hN
    rw [quickSort]
    unfold quickSortT
    split
    · rename_i h7
      obtain ⟨s1, mlo, mhi, h1, g1, w1, i1, i2, i3, i4, i5⟩ := doPivot_gives hok hb h7
      have ok1 := w1.ok hok
      have l1 := w1.lens.1
      have total : ∀ x y : Nat, x + y ≤ b - a → 10 * (b - a) + ((10 * x * dep + (6 * L + 12) * x) +
          ((10 * y * dep + (6 * L + 12) * y) + 0)) ≤ 10 * (b - a) * (dep + 1) + (6 * L + 12) * (b - a) := by
        intro x y hxy
        calc 10 * (b - a) + ((10 * x * dep + (6 * L + 12) * x) + ((10 * y * dep + (6 * L + 12) * y) + 0))
            = 10 * (b - a) + (10 * dep + (6 * L + 12)) * (x + y) := by ring
          _ ≤ 10 * (b - a) + (10 * dep + (6 * L + 12)) * (b - a) := Nat.add_le_add_left (Nat.mul_le_mul_left _ hxy) _
          _ = _ := by ring
      have deep : ∀ x y o1 o2 : Nat, x + y ≤ b - a → x ≤ y → 2 ^ o1 ≤ max 1 x → 2 ^ o2 ≤ max 1 y →
          2 ^ max (o1 + 1) o2 ≤ max 1 (b - a) := by
        intro x y o1 o2 hxy hle hx hy
        rcases le_total (o1 + 1) o2 with ho | ho
        · rw [max_eq_right ho]; omega
        · rw [max_eq_left ho, pow_succ]; omega
      rw [h1]
      simp only
      split
      · rename_i hlt
        obtain ⟨s2, o2, h2, w2, g2, d2⟩ := ih a mlo s1 ok1 (by omega) i1 (by omega)
        have l2 := w2.lens.1
        obtain ⟨s3, o3, h3, w3, g3, d3⟩ := ih mhi b s2 (w2.ok ok1) (by omega) i4 (by omega)
        refine ⟨s3, max (o2 + 1) o3, by rw [h2]; exact h3, w1.trans ((w2.mono (le_refl _) i2).trans
          (w3.mono i3 (le_refl _))), ?_, deep _ _ _ _ i5 (by omega) d2 d3⟩
        refine (gives_bind g1 (k := _ + (_ + 0)) ?_).mono (total _ _ i5)
        simp only
        rw [if_pos hlt]
        exact gives_bind g2 (gives_bind g3 (gives_pure _ _))
      · rename_i hlt
        obtain ⟨s2, o2, h2, w2, g2, d2⟩ := ih mhi b s1 ok1 (by omega) i4 (by omega)
        have l2 := w2.lens.1
        obtain ⟨s3, o3, h3, w3, g3, d3⟩ := ih a mlo s2 (w2.ok ok1) (by omega) i1 (by omega)
        refine ⟨s3, max (o2 + 1) o3, by rw [h2]; exact h3, w1.trans ((w2.mono i3 (le_refl _)).trans
          (w3.mono (le_refl _) i2)), ?_, deep _ _ _ _ (by omega) (by omega) d2 d3⟩
        refine (gives_bind g1 (k := _ + (_ + 0)) ?_).mono (total (b - mhi) (mlo - a) (by omega))
        simp only
        rw [if_neg hlt]
        exact gives_bind g2 (gives_bind g3 (gives_pure _ _))
    · obtain ⟨s', h, w, g⟩ := small a b (10 * (b - a) * (dep + 1)) s hok hb hab (by omega)
      exact ⟨s', 0, h, w, g, pow0 _⟩

theorem bitLen_eq (n : Nat) : bitLen n = Nat.clog 2 (n + 1) := by
  induction n using Nat.strongRecOn with
  | ind n ih =>
    rw [bitLen]
    split
    · rename_i hn
      rw [ih (n / 2) (by omega), Nat.clog_of_two_le (b := 2) (n := n + 1) (by omega) (by omega),
        show n / 2 + 1 = (n + 1 + 2 - 1) / 2 by omega]
    · rw [show n = 0 by omega]
      simp

theorem bitLen_log {n : Nat} (hn : n ≠ 0) : bitLen n = Nat.log 2 n + 1 := by
  induction n using Nat.strongRecOn with
  | ind n ih =>
    rw [bitLen, if_pos (by omega)]
    by_cases h : n = 1
    · subst h; rw [bitLen]; simp
    · rw [ih (n / 2) (by omega) (by omega), Nat.log_of_one_lt_of_le (by omega) (show 2 ≤ n by omega)]

end SortBy
end CloudForest
