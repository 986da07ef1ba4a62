import Verif.Lemmas.SortBy1

/-!
Insertion sort and heap sort.
-/

set_option linter.unusedSectionVars false

namespace CloudForest
namespace SortBy
variable {K : Type} [LinearOrder K]

/-- No NaN in `[lo, hi)`. -/
def NN (s : SV K) (lo hi : Nat) : Prop := ∀ k, lo ≤ k → k < hi → val s k ≠ .nan

/-- Ascending on `[lo, hi)`. -/
def Asc (s : SV K) (lo hi : Nat) : Prop :=
  ∀ p q, lo ≤ p → p < q → q < hi → val s p ≤ val s q

theorem Sw.nn {lo hi : Nat} {s s1 : SV K} (h : Sw lo hi s s1) (hn : NN s lo hi) : NN s1 lo hi :=
  h.all (fun x => x ≠ .nan) hn

theorem insInner_spec (a hi : Nat) : ∀ (j : Nat) (s : SV K), Ok s → hi ≤ s.cs.length → j < hi →
    a ≤ j →
    ∃ s', insInner s a j = some s' ∧ Sw a hi s s' ∧
      (NN s a hi →
        (∀ p q, a ≤ p → p < q → q < hi → p ≠ j → q ≠ j → val s p ≤ val s q) →
        (∀ q, j < q → q < hi → val s j ≤ val s q) → Asc s' a hi) := by
  intro j
  induction j with
  | zero =>
    intro s _ _ _ ha
    refine ⟨s, rfl, Sw.refl _, ?_⟩
    intro _ h1 h2 p q hp hpq hq
    by_cases hp0 : p = 0
    · subst hp0; exact h2 q hpq hq
    · exact h1 p q hp hpq hq hp0 (by omega)
  | succ j ih =>
    intro s hok hhi hj ha
    unfold insInner
    have hok' := hok
    unfold Ok at hok'
    by_cases haj : a < j + 1
    · rw [if_pos haj]
      rw [get_val (show j + 1 < s.vs.length by omega), get_val (show j < s.vs.length by omega)]
      simp only
      by_cases hlt : val s (j + 1) < val s j
      · rw [if_pos hlt]
        obtain ⟨s1, hs1, hsw⟩ := swap_sw (lo := a) (hi := hi) (i := j + 1) (j := j) hok hhi
          (by omega) hj (by omega) (by omega)
        rw [hs1]
        obtain ⟨s', hs', hsw', hpost⟩ := ih s1 (hsw.ok hok) (by rw [hsw.lens.1]; exact hhi)
          (by omega) (by omega)
        refine ⟨s', hs', hsw.trans hsw', ?_⟩
        intro hn h1 h2
        apply hpost (hsw.nn hn)
        · intro p q hp hpq hq hpj hqj
          rw [swap_val hs1 p, swap_val hs1 q, if_neg hpj, if_neg hqj]
          by_cases hpj1 : p = j + 1
          · subst hpj1
            rw [if_pos rfl, if_neg (by omega)]
            exact h1 j q (by omega) (by omega) hq (by omega) (by omega)
          · rw [if_neg hpj1]
            by_cases hqj1 : q = j + 1
            · subst hqj1
              rw [if_pos rfl]
              exact h1 p j hp (by omega) (by omega) hpj1 (by omega)
            · rw [if_neg hqj1]
              exact h1 p q hp hpq hq hpj1 hqj1
        · intro q hjq hq
          rw [swap_val hs1 j, swap_val hs1 q, if_pos rfl, if_neg (by omega)]
          by_cases hqj1 : q = j + 1
          · subst hqj1; rw [if_pos rfl]; exact XF.le_of_lt' hlt
          · rw [if_neg hqj1]; exact h2 q (by omega) hq
      · rw [if_neg hlt]
        refine ⟨s, rfl, Sw.refl _, ?_⟩
        intro hn h1 h2 p q hp hpq hq
        have hle : val s j ≤ val s (j + 1) :=
          XF.le_of_not_lt' (hn _ (by omega) hj) (hn _ (by omega) (by omega)) hlt
        by_cases hpj : p = j + 1
        · subst hpj; exact h2 q hpq hq
        · by_cases hqj : q = j + 1
          · subst hqj
            by_cases hpj' : p = j
            · subst hpj'; exact hle
            · exact XF.le_trans' (h1 p j hp (by omega) (by omega) hpj (by omega)) hle
          · exact h1 p q hp hpq hq hpj hqj
    · rw [if_neg haj]
      refine ⟨s, rfl, Sw.refl _, ?_⟩
      intro _ h1 h2 p q hp hpq hq
      have : a = j + 1 := by omega
      subst this
      by_cases hp0 : p = j + 1
      · subst hp0; exact h2 q hpq hq
      · exact h1 p q hp hpq hq hp0 (by omega)

theorem insOuter_spec (a b : Nat) : ∀ (n i : Nat) (s : SV K), b - i = n → Ok s →
    b ≤ s.cs.length → a < i → i ≤ b →
    ∃ s', insOuter s a b i = some s' ∧ Sw a b s s' ∧ (NN s a b → Asc s a i → Asc s' a b) := by
  intro n
  induction n with
  | zero =>
    intro i s hn hok hb hai hib
    have : i = b := by omega
    subst this
    refine ⟨s, by rw [insOuter, if_neg (by omega)], Sw.refl _, fun _ h => h⟩
  | succ n ih =>
    intro i s hn hok hb hai hib
    obtain ⟨s1, h1, hsw, hpost⟩ := insInner_spec a (i + 1) i s hok (by omega) (by omega) (by omega)
    have hsw1 : Sw a b s s1 := hsw.mono (le_refl _) (by omega)
    obtain ⟨s', h', hsw', hpost'⟩ := ih (i + 1) s1 (by omega) (hsw.ok hok)
      (by rw [hsw.lens.1]; exact hb) (by omega) (by omega)
    refine ⟨s', ?_, hsw1.trans hsw', ?_⟩
    · rw [insOuter, if_pos (by omega), h1]; exact h'
    · intro hnn hasc
      apply hpost' (hsw1.nn hnn)
      apply hpost (fun k h1 h2 => hnn k h1 (by omega))
      · intro p q hp hpq hq _ hqi; exact hasc p q hp hpq (by omega)
      · intro q h1 h2; omega

theorem insertionSort_spec (s : SV K) (a b : Nat) (hok : Ok s) (hb : b ≤ s.cs.length)
    (hab : a < b) :
    ∃ s', insertionSort s a b = some s' ∧ Sw a b s s' ∧ (NN s a b → Asc s' a b) := by
  obtain ⟨s', h, hsw, hp⟩ := insOuter_spec a b (b - (a + 1)) (a + 1) s rfl hok hb (by omega)
    (by omega)
  exact ⟨s', h, hsw, fun hn => hp hn (fun p q h1 h2 h3 => by omega)⟩

/-! ### Heap sort -/

/-- Edge `(parent, child)` of the implicit heap below `hi`. -/
def Edge (hi p c : Nat) : Prop := (c = 2 * p + 1 ∨ c = 2 * p + 2) ∧ c < hi

/-- Every edge with parent at or after `lo` is ordered. -/
def Heap (s : SV K) (first lo hi : Nat) : Prop :=
  ∀ p c, lo ≤ p → Edge hi p c → val s (first + c) ≤ val s (first + p)

theorem pickChild_spec (s : SV K) (root hi first : Nat) (hb : first + hi ≤ s.vs.length)
    (hc : 2 * root + 1 < hi) :
    ∃ child, pickChild s root hi first = some child ∧ Edge hi root child ∧
      (NN s first (first + hi) →
        ∀ c, Edge hi root c → val s (first + c) ≤ val s (first + child)) := by
  unfold pickChild Edge
  by_cases h : 2 * root + 1 + 1 < hi
  · rw [if_pos h, get_val (show first + (2 * root + 1) < s.vs.length by omega),
      get_val (show first + (2 * root + 1) + 1 < s.vs.length by omega)]
    simp only
    refine ⟨_, rfl, ?_, ?_⟩
    · split <;> omega
    · intro hn c hc'
      have e : first + (2 * root + 1) + 1 = first + (2 * root + 1 + 1) := by omega
      have n1 := hn (first + (2 * root + 1)) (by omega) (by omega)
      have n2 := hn (first + (2 * root + 1 + 1)) (by omega) (by omega)
      rw [e]
      split
      · rename_i hlt
        obtain ⟨hc1 | hc1, _⟩ := hc'
        · subst hc1; exact XF.le_of_lt' hlt
        · subst hc1; exact XF.le_refl' n2
      · rename_i hlt
        obtain ⟨hc1 | hc1, _⟩ := hc'
        · subst hc1; exact XF.le_refl' n1
        · subst hc1; exact XF.le_of_not_lt' n1 n2 hlt
  · rw [if_neg h]
    refine ⟨_, rfl, by omega, ?_⟩
    intro hn c hc'
    obtain ⟨hc1 | hc1, _⟩ := hc'
    · subst hc1; exact XF.le_refl' (hn _ (by omega) (by omega))
    · omega

/-- `siftDown` from `root`, when the only broken edges are those leaving `root`, and the
edge into `root` stays good if a grandchild moves up. -/
theorem siftDown_spec (first hi lo : Nat) : ∀ (n root : Nat) (s : SV K), hi - root ≤ n → Ok s →
    first + hi ≤ s.cs.length → lo ≤ root →
    ∃ s', siftDown s root hi first = some s' ∧ Sw first (first + hi) s s' ∧
      (NN s first (first + hi) →
        (∀ p c, lo ≤ p → Edge hi p c → p ≠ root → val s (first + c) ≤ val s (first + p)) →
        (∀ g c, lo ≤ g → Edge hi g root → Edge hi root c →
          val s (first + c) ≤ val s (first + g)) →
        Heap s' first lo hi) := by
  intro n
  induction n with
  | zero =>
    intro root s hn hok hb hlo
    refine ⟨s, by rw [siftDown, if_neg (by omega)], Sw.refl _, ?_⟩
    intro _ h1 _ p c hp he
    exact h1 p c hp he (by unfold Edge at he; omega)
  | succ n ih =>
    intro root s hn hok hb hlo
    have hok' := hok
    unfold Ok at hok'
    rw [siftDown]
    by_cases hc : 2 * root + 1 < hi
    · rw [if_pos hc]
      obtain ⟨child, hpc, hedge, hmax⟩ := pickChild_spec s root hi first (by omega) hc
      have hcl : child < hi := hedge.2
      have hcr : root < child := by unfold Edge at hedge; omega
      split
      · rename_i heq; rw [hpc] at heq; cases heq
      · rename_i ch heq
        rw [hpc] at heq
        cases heq
        rw [get_val (show first + root < s.vs.length by omega),
          get_val (show first + child < s.vs.length by omega)]
        simp only
        by_cases hle : val s (first + child) ≤ val s (first + root)
        · rw [if_pos hle]
          refine ⟨s, rfl, Sw.refl _, ?_⟩
          intro hnn h1 _ p c hp he
          by_cases hpr : p = root
          · subst hpr; exact XF.le_trans' (hmax hnn c he) hle
          · exact h1 p c hp he hpr
        · rw [if_neg hle]
          obtain ⟨s1, hs1, hsw⟩ := swap_sw (lo := first) (hi := first + hi) (i := first + root)
            (j := first + child) hok hb (by omega) (by omega) (by omega) (by omega)
          rw [hs1]
          obtain ⟨s', h', hsw', hpost⟩ := ih child s1 (by omega) (hsw.ok hok)
            (by rw [hsw.lens.1]; exact hb) (by omega)
          refine ⟨s', h', hsw.trans hsw', ?_⟩
          intro hnn h1 h2
          have hlt : val s (first + root) < val s (first + child) :=
            XF.lt_of_not_le' (hnn _ (by omega) (by omega)) (hnn _ (by omega) (by omega)) hle
          have hv : ∀ k, val s1 (first + k) = if k = child then val s (first + root)
              else if k = root then val s (first + child) else val s (first + k) := by
            intro k
            rw [swap_val hs1]
            by_cases e1 : k = child
            · subst e1; simp
            · rw [if_neg (by omega), if_neg e1]
              by_cases e2 : k = root
              · subst e2; simp
              · rw [if_neg (by omega), if_neg e2]
          apply hpost (hsw.nn hnn)
          · intro p c hp he hpc'
            rw [hv p, hv c, if_neg hpc']
            by_cases hpr : p = root
            · subst hpr
              rw [if_pos rfl]
              by_cases hcc : c = child
              · rw [if_pos hcc]; exact XF.le_of_lt' hlt
              · rw [if_neg hcc, if_neg (by unfold Edge at he; omega)]
                exact hmax hnn c he
            · rw [if_neg hpr]
              have hcc : c ≠ child := by unfold Edge at he hedge; omega
              rw [if_neg hcc]
              by_cases hcr' : c = root
              · subst hcr'
                rw [if_pos rfl]
                exact h2 p child hp he hedge
              · rw [if_neg hcr']; exact h1 p c hp he hpr
          · intro g c hg heg hec
            have hgr : g = root := by unfold Edge at heg hedge; omega
            subst hgr
            have hcc : c ≠ child := by unfold Edge at hec; omega
            have hcg : c ≠ g := by unfold Edge at hec; omega
            have hgc : g ≠ child := by omega
            rw [hv g, hv c, if_neg hcc, if_neg hcg, if_neg hgc, if_pos rfl]
            exact h1 child c (by omega) hec (by omega)
    · rw [if_neg hc]
      refine ⟨s, rfl, Sw.refl _, ?_⟩
      intro _ h1 _ p c hp he
      exact h1 p c hp he (by unfold Edge at he; omega)

theorem buildHeap_spec (first hi : Nat) : ∀ (k : Nat) (s : SV K), Ok s →
    first + hi ≤ s.cs.length →
    ∃ s', buildHeap s hi first k = some s' ∧ Sw first (first + hi) s s' ∧
      (NN s first (first + hi) → Heap s first k hi → Heap s' first 0 hi) := by
  intro k
  induction k with
  | zero => intro s _ _; exact ⟨s, rfl, Sw.refl _, fun _ h => h⟩
  | succ k ih =>
    intro s hok hb
    obtain ⟨s1, h1, hsw, hp⟩ := siftDown_spec first hi k (hi - k) k s (le_refl _) hok hb (le_refl _)
    obtain ⟨s', h', hsw', hp'⟩ := ih s1 (hsw.ok hok) (by rw [hsw.lens.1]; exact hb)
    refine ⟨s', by simp only [buildHeap, h1]; exact h', hsw.trans hsw', ?_⟩
    intro hnn hheap
    apply hp' (hsw.nn hnn)
    apply hp hnn
    · intro p c hpk he hpk'
      exact hheap p c (by omega) he
    · intro g c hg heg _
      unfold Edge at heg; omega

theorem heap_root_max {s : SV K} {first hi : Nat} (h : Heap s first 0 hi)
    (hn : NN s first (first + hi)) : ∀ k, k < hi → val s (first + k) ≤ val s first := by
  intro k
  induction k using Nat.strong_induction_on with
  | _ k ih =>
    intro hk
    by_cases h0 : k = 0
    · subst h0; exact XF.le_refl' (hn _ (by omega) (by omega))
    · have h1 := h ((k - 1) / 2) k (by omega) ⟨by omega, hk⟩
      exact XF.le_trans' h1 (ih _ (by omega) (by omega))

theorem popHeap_spec (first n : Nat) : ∀ (k : Nat) (s : SV K), Ok s → k ≤ n →
    first + n ≤ s.cs.length →
    ∃ s', popHeap s first k = some s' ∧ Sw first (first + k) s s' ∧
      (NN s first (first + n) → Heap s first 0 k → Asc s (first + k) (first + n) →
        (∀ p q, first ≤ p → p < first + k → first + k ≤ q → q < first + n → val s p ≤ val s q) →
        Asc s' first (first + n)) := by
  intro k
  induction k with
  | zero =>
    intro s _ _ _
    exact ⟨s, rfl, Sw.refl _, fun _ _ h _ => by simpa using h⟩
  | succ k ih =>
    intro s hok hkn hb
    obtain ⟨s1, h1, hsw1⟩ := swap_sw (lo := first) (hi := first + (k + 1)) (i := first)
      (j := first + k) hok (by omega) (by omega) (by omega) (by omega) (by omega)
    have hl1 := hsw1.lens.1
    obtain ⟨s2, h2, hsw2, hp2⟩ := siftDown_spec first k 0 (k - 0) 0 s1 (le_refl _) (hsw1.ok hok)
      (by omega) (le_refl _)
    have hl2 := hsw2.lens.1
    obtain ⟨s', h', hsw', hp'⟩ := ih s2 (hsw2.ok (hsw1.ok hok)) (by omega) (by omega)
    refine ⟨s', by simp only [popHeap, h1, h2]; exact h', ?_, ?_⟩
    · exact hsw1.trans ((hsw2.mono (le_refl _) (by omega)).trans (hsw'.mono (le_refl _) (by omega)))
    · intro hnn hheap hasc hle
      have hv : ∀ j, val s1 j = if j = first + k then val s first
          else if j = first then val s (first + k) else val s j := fun j => swap_val h1 j
      have hmax := heap_root_max hheap (fun j h1 h2 => hnn j h1 (by omega))
      have hn1 : NN s1 first (first + n) := (hsw1.mono (le_refl _) (by omega)).nn hnn
      -- everything left in the heap is at most the popped value
      have hpop : ∀ j, first ≤ j → j < first + k → val s1 j ≤ val s first := by
        intro j hj1 hj2
        rw [hv j, if_neg (by omega)]
        split
        · exact hmax k (by omega)
        · have := hmax (j - first) (by omega)
          rwa [show first + (j - first) = j by omega] at this
      have hpop2 := hsw2.all (fun x => x ≤ val s first) hpop
      have hout : ∀ j, first + k ≤ j → val s2 j = val s1 j :=
        fun j hj => hsw2.outside_val j (Or.inr hj)
      have hrest : ∀ q, first + k < q → q < first + n → val s2 q = val s q := by
        intro q h1 h2
        rw [hout q (by omega), hv q, if_neg (by omega), if_neg (by omega)]
      have htop : val s2 (first + k) = val s first := by
        rw [hout _ (le_refl _), hv, if_pos rfl]
      apply hp' ((hsw2.mono (le_refl _) (by omega)).nn hn1)
      · apply hp2 (fun j h1 h2 => hn1 j h1 (by omega))
        · intro p c _ he hp0
          unfold Edge at he
          rw [hv, hv, if_neg (by omega), if_neg (by omega), if_neg (by omega), if_neg (by omega)]
          exact hheap p c (by omega) ⟨he.1, by omega⟩
        · intro g c _ heg _
          unfold Edge at heg; omega
      · intro p q hp hpq hq
        by_cases hpk : p = first + k
        · subst hpk
          rw [htop, hrest q hpq hq]
          exact hle first q (le_refl _) (by omega) (by omega) hq
        · rw [hrest p (by omega) (by omega), hrest q (by omega) hq]
          exact hasc p q (by omega) hpq hq
      · intro p q hp1 hp2 hq1 hq2
        by_cases hqk : q = first + k
        · subst hqk; rw [htop]; exact hpop2 p hp1 hp2
        · rw [hrest q (by omega) hq2]
          exact XF.le_trans' (hpop2 p hp1 hp2) (hle first q (le_refl _) (by omega) (by omega) hq2)

theorem heapSort_spec (s : SV K) (a b : Nat) (hok : Ok s) (hb : b ≤ s.cs.length) (hab : a ≤ b) :
    ∃ s', heapSort s a b = some s' ∧ Sw a b s s' ∧ (NN s a b → Asc s' a b) := by
  have e : a + (b - a) = b := by omega
  obtain ⟨s1, h1, hsw1, hp1⟩ := buildHeap_spec a (b - a) ((b - a - 1) / 2 + 1) s hok (by omega)
  have hl := hsw1.lens.1
  obtain ⟨s', h', hsw', hp'⟩ := popHeap_spec a (b - a) (b - a) s1 (hsw1.ok hok) (le_refl _)
    (by omega)
  rw [e] at hsw1 hsw' hp1 hp'
  refine ⟨s', by simp only [heapSort, h1]; exact h', hsw1.trans hsw', ?_⟩
  intro hnn
  apply hp' (hsw1.nn hnn)
  · apply hp1 hnn
    intro p c hp he
    unfold Edge at he; omega
  · intro p q; omega
  · intro p q; omega

end SortBy
end CloudForest
