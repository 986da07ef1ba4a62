import Verif.Lemmas.SortBy2

/-!
Pivoting and quicksort.
-/

set_option linter.unusedSectionVars false

namespace CloudForest
namespace SortBy
variable {K : Type} [LinearOrder K]

theorem cmpSwap_spec (s : SV K) (lo hi i j : Nat) (hok : Ok s) (hb : hi ≤ s.cs.length)
    (h1 : lo ≤ i) (h2 : i < hi) (h3 : lo ≤ j) (h4 : j < hi) :
    ∃ s', cmpSwap s i j = some s' ∧ Sw lo hi s s' := by
  have hok' := hok
  unfold Ok at hok'
  unfold cmpSwap
  rw [get_val (show i < s.vs.length by omega), get_val (show j < s.vs.length by omega)]
  simp only
  split
  · exact swap_sw hok hb h1 h2 h3 h4
  · exact ⟨s, rfl, Sw.refl _⟩

theorem medianOfThree_spec (s : SV K) (lo hi a b c : Nat) (hok : Ok s) (hb : hi ≤ s.cs.length)
    (a1 : lo ≤ a) (a2 : a < hi) (b1 : lo ≤ b) (b2 : b < hi) (c1 : lo ≤ c) (c2 : c < hi) :
    ∃ s', medianOfThree s a b c = some s' ∧ Sw lo hi s s' := by
  obtain ⟨s1, h1, w1⟩ := cmpSwap_spec s lo hi a b hok hb a1 a2 b1 b2
  obtain ⟨s2, h2, w2⟩ := cmpSwap_spec s1 lo hi c a (w1.ok hok) (by rw [w1.lens.1]; exact hb)
    c1 c2 a1 a2
  obtain ⟨s3, h3, w3⟩ := cmpSwap_spec s2 lo hi a b (w2.ok (w1.ok hok))
    (by rw [w2.lens.1, w1.lens.1]; exact hb) a1 a2 b1 b2
  exact ⟨s3, by simp only [medianOfThree, h1, h2, h3], w1.trans (w2.trans w3)⟩

theorem choosePivot_spec (s : SV K) (lo hi : Nat) (hok : Ok s) (hb : hi ≤ s.cs.length)
    (hlt : lo < hi) : ∃ s', choosePivot s lo hi = some s' ∧ Sw lo hi s s' := by
  unfold choosePivot
  simp only
  split
  · obtain ⟨s1, h1, w1⟩ := medianOfThree_spec s lo hi lo (lo + (hi - lo) / 8)
      (lo + 2 * ((hi - lo) / 8)) hok hb (by omega) (by omega) (by omega) (by omega) (by omega)
      (by omega)
    have l1 := w1.lens.1
    obtain ⟨s2, h2, w2⟩ := medianOfThree_spec s1 lo hi (lo + (hi - lo) / 2)
      (lo + (hi - lo) / 2 - (hi - lo) / 8) (lo + (hi - lo) / 2 + (hi - lo) / 8) (w1.ok hok)
      (by omega) (by omega) (by omega) (by omega) (by omega) (by omega) (by omega)
    have l2 := w2.lens.1
    obtain ⟨s3, h3, w3⟩ := medianOfThree_spec s2 lo hi (hi - 1)
      (hi - 1 - (hi - lo) / 8) (hi - 1 - 2 * ((hi - lo) / 8)) (w2.ok (w1.ok hok))
      (by omega) (by omega) (by omega) (by omega) (by omega) (by omega) (by omega)
    have l3 := w3.lens.1
    obtain ⟨s4, h4, w4⟩ := medianOfThree_spec s3 lo hi lo (lo + (hi - lo) / 2) (hi - 1)
      (w3.ok (w2.ok (w1.ok hok)))
      (by omega) (by omega) (by omega) (by omega) (by omega) (by omega) (by omega)
    exact ⟨s4, by simp only [h1, h2, h3, h4], w1.trans (w2.trans (w3.trans w4))⟩
  · exact medianOfThree_spec s lo hi lo (lo + (hi - lo) / 2) (hi - 1) hok hb
      (by omega) (by omega) (by omega) (by omega) (by omega) (by omega)

/-- The invariant stated in the comment at sortby/sortby.go:76-82. -/
structure PInv (s : SV K) (p : XF K) (lo hi a b c d : Nat) : Prop where
  eqL : ∀ k, lo ≤ k → k < a → val s k = p
  ltL : ∀ k, a ≤ k → k < b → val s k < p
  gtR : ∀ k, c ≤ k → k < d → p < val s k
  eqR : ∀ k, d ≤ k → k < hi → val s k = p

theorem scanUp_spec (p : XF K) (lo hi c d : Nat) : ∀ (n a b : Nat) (s : SV K), c - b ≤ n → Ok s →
    hi ≤ s.cs.length → lo < a → a ≤ b → b ≤ hi → c ≤ d → d ≤ hi →
    ∃ s' a' b', scanUp s p a b c = some (s', a', b') ∧ Sw lo hi s s' ∧ a ≤ a' ∧ a' ≤ b' ∧
      b ≤ b' ∧ b' ≤ max b c ∧
      (NN s lo hi → p ≠ .nan → PInv s p lo hi a b c d →
        PInv s' p lo hi a' b' c d ∧ (b' < c → p < val s' b')) := by
  intro n
  induction n with
  | zero =>
    intro a b s hn hok hb ha hab hbhi hcd hdhi
    refine ⟨s, a, b, by rw [scanUp, if_neg (by omega)], Sw.refl _, le_refl _, hab, le_refl _,
      by omega, fun _ _ h => ⟨h, fun h => by omega⟩⟩
  | succ n ih =>
    intro a b s hn hok hb ha hab hbhi hcd hdhi
    have hok' := hok
    unfold Ok at hok'
    rw [scanUp]
    by_cases hbc : b < c
    · rw [if_pos hbc, get_val (show b < s.vs.length by omega)]
      simp only
      by_cases hlt : val s b < p
      · rw [if_pos hlt]
        obtain ⟨s', a', b', he, hsw, h1, h2, h3, h4, h5⟩ := ih a (b + 1) s (by omega) hok hb ha
          (by omega) (by omega) hcd hdhi
        refine ⟨s', a', b', he, hsw, h1, h2, by omega, by omega, ?_⟩
        intro hnn hp hinv
        apply h5 hnn hp
        refine ⟨hinv.eqL, ?_, hinv.gtR, hinv.eqR⟩
        intro k hk1 hk2
        by_cases hkb : k = b
        · subst hkb; exact hlt
        · exact hinv.ltL k hk1 (by omega)
      · rw [if_neg hlt]
        by_cases heq : XF.feq p (val s b)
        · rw [if_pos heq]
          obtain ⟨s1, hs1, hsw1⟩ := swap_sw (lo := lo) (hi := hi) (i := a) (j := b) hok hb
            (by omega) (by omega) (by omega) (by omega)
          rw [hs1]
          obtain ⟨s', a', b', he, hsw, h1, h2, h3, h4, h5⟩ := ih (a + 1) (b + 1) s1 (by omega)
            (hsw1.ok hok) (by rw [hsw1.lens.1]; exact hb) (by omega) (by omega) (by omega) hcd hdhi
          refine ⟨s', a', b', he, hsw1.trans hsw, by omega, h2, by omega, by omega, ?_⟩
          intro hnn hp hinv
          apply h5 (hsw1.nn hnn) hp
          have hvb : val s b = p := heq.2.symm
          refine ⟨?_, ?_, ?_, ?_⟩
          · intro k hk1 hk2
            rw [swap_val hs1]
            by_cases hkb : k = b
            · rw [if_pos hkb]
              have : a = b := by omega
              rw [this]; exact hvb
            · rw [if_neg hkb]
              by_cases hka : k = a
              · rw [if_pos hka]; exact hvb
              · rw [if_neg hka]; exact hinv.eqL k hk1 (by omega)
          · intro k hk1 hk2
            rw [swap_val hs1]
            by_cases hkb : k = b
            · rw [if_pos hkb]; exact hinv.ltL a (le_refl _) (by omega)
            · rw [if_neg hkb, if_neg (by omega)]; exact hinv.ltL k (by omega) (by omega)
          · intro k hk1 hk2
            rw [swap_val hs1, if_neg (by omega), if_neg (by omega)]
            exact hinv.gtR k hk1 hk2
          · intro k hk1 hk2
            rw [swap_val hs1, if_neg (by omega), if_neg (by omega)]
            exact hinv.eqR k hk1 hk2
        · rw [if_neg heq]
          refine ⟨s, a, b, rfl, Sw.refl _, le_refl _, hab, le_refl _, by omega, ?_⟩
          intro hnn hp hinv
          exact ⟨hinv, fun _ => XF.lt_of_not_lt_of_not_eq (hnn b (by omega) (by omega)) hp hlt heq⟩
    · rw [if_neg hbc]
      exact ⟨s, a, b, rfl, Sw.refl _, le_refl _, hab, le_refl _, by omega,
        fun _ _ h => ⟨h, fun h => by omega⟩⟩

theorem scanDown_spec (p : XF K) (lo hi a b : Nat) : ∀ (n c d : Nat) (s : SV K), c - b ≤ n → Ok s →
    hi ≤ s.cs.length → lo < a → a ≤ b → b ≤ hi → c ≤ d → d ≤ hi →
    ∃ s' c' d', scanDown s p b c d = some (s', c', d') ∧ Sw lo hi s s' ∧ c' ≤ c ∧ c' ≤ d' ∧
      d' ≤ d ∧ min b c ≤ c' ∧ (∀ k, k < c' → val s' k = val s k) ∧
      (NN s lo hi → p ≠ .nan → PInv s p lo hi a b c d →
        PInv s' p lo hi a b c' d' ∧ (b < c' → val s' (c' - 1) < p)) := by
  intro n
  induction n with
  | zero =>
    intro c d s hn hok hb ha hab hbhi hcd hdhi
    refine ⟨s, c, d, by rw [scanDown, if_neg (by omega)], Sw.refl _, le_refl _, hcd, le_refl _,
      by omega, fun _ _ => rfl, fun _ _ h => ⟨h, fun h => by omega⟩⟩
  | succ n ih =>
    intro c d s hn hok hb ha hab hbhi hcd hdhi
    have hok' := hok
    unfold Ok at hok'
    rw [scanDown]
    by_cases hbc : b < c
    · rw [if_pos hbc, get_val (show c - 1 < s.vs.length by omega)]
      simp only
      by_cases hlt : p < val s (c - 1)
      · rw [if_pos hlt]
        obtain ⟨s', c', d', he, hsw, h1, h2, h3, h4, h6, h5⟩ := ih (c - 1) d s (by omega) hok hb ha
          hab hbhi (by omega) hdhi
        refine ⟨s', c', d', he, hsw, by omega, h2, by omega, by omega, h6, ?_⟩
        intro hnn hp hinv
        apply h5 hnn hp
        refine ⟨hinv.eqL, hinv.ltL, ?_, hinv.eqR⟩
        intro k hk1 hk2
        by_cases hkb : k = c - 1
        · subst hkb; exact hlt
        · exact hinv.gtR k (by omega) hk2
      · rw [if_neg hlt]
        by_cases heq : XF.feq (val s (c - 1)) p
        · rw [if_pos heq]
          obtain ⟨s1, hs1, hsw1⟩ := swap_sw (lo := lo) (hi := hi) (i := c - 1) (j := d - 1) hok hb
            (by omega) (by omega) (by omega) (by omega)
          rw [hs1]
          obtain ⟨s', c', d', he, hsw, h1, h2, h3, h4, h6, h5⟩ := ih (c - 1) (d - 1) s1 (by omega)
            (hsw1.ok hok) (by rw [hsw1.lens.1]; exact hb) ha hab hbhi (by omega) (by omega)
          refine ⟨s', c', d', he, hsw1.trans hsw, by omega, h2, by omega, by omega, ?_, ?_⟩
          · intro k hk
            rw [h6 k hk, swap_val hs1, if_neg (by omega), if_neg (by omega)]
          intro hnn hp hinv
          apply h5 (hsw1.nn hnn) hp
          have hvb : val s (c - 1) = p := heq.2
          refine ⟨?_, ?_, ?_, ?_⟩
          · intro k hk1 hk2
            rw [swap_val hs1, if_neg (by omega), if_neg (by omega)]
            exact hinv.eqL k hk1 hk2
          · intro k hk1 hk2
            rw [swap_val hs1, if_neg (by omega), if_neg (by omega)]
            exact hinv.ltL k hk1 hk2
          · intro k hk1 hk2
            rw [swap_val hs1, if_neg (by omega)]
            by_cases hkb : k = c - 1
            · rw [if_pos hkb]; exact hinv.gtR (d - 1) (by omega) (by omega)
            · rw [if_neg hkb]; exact hinv.gtR k (by omega) (by omega)
          · intro k hk1 hk2
            rw [swap_val hs1]
            by_cases hkd : k = d - 1
            · rw [if_pos hkd]; exact hvb
            · rw [if_neg hkd]
              by_cases hkb : k = c - 1
              · omega
              · rw [if_neg hkb]; exact hinv.eqR k (by omega) hk2
        · rw [if_neg heq]
          refine ⟨s, c, d, rfl, Sw.refl _, le_refl _, hcd, le_refl _, by omega,
            fun _ _ => rfl, ?_⟩
          intro hnn hp hinv
          exact ⟨hinv, fun _ => XF.lt_of_not_lt_of_not_eq hp (hnn (c - 1) (by omega) (by omega))
            hlt heq⟩
    · rw [if_neg hbc]
      exact ⟨s, c, d, rfl, Sw.refl _, le_refl _, hcd, le_refl _, by omega, fun _ _ => rfl,
        fun _ _ h => ⟨h, fun h => by omega⟩⟩

theorem pivotLoop_spec (p : XF K) (lo hi : Nat) : ∀ (n a b c d : Nat) (s : SV K), c - b ≤ n → Ok s →
    hi ≤ s.cs.length → lo < a → a ≤ b → b ≤ c + 1 → b ≤ hi → lo < c → c ≤ d → d ≤ hi →
    ∃ s' a' b' c' d', pivotLoop s p a b c d = some (s', a', b', c', d') ∧ Sw lo hi s s' ∧
      lo < a' ∧ a' ≤ b' ∧ b' ≤ hi ∧ c' ≤ d' ∧ d' ≤ hi ∧ lo < c' ∧
      (NN s lo hi → p ≠ .nan → b ≤ c → PInv s p lo hi a b c d →
        b' = c' ∧ PInv s' p lo hi a' b' c' d') := by
  intro n
  induction n with
  | zero =>
    intro a b c d s hn hok hb ha hab hbc hbhi hlc hcd hdhi
    obtain ⟨s1, a1, b1, he1, hsw1, i1, i2, i3, i4, i5⟩ := scanUp_spec p lo hi c d (c - b) a b s
      (le_refl _) hok hb ha hab hbhi hcd hdhi
    obtain ⟨s2, c1, d1, he2, hsw2, j1, j2, j3, j4, j6, j5⟩ := scanDown_spec p lo hi a1 b1 (c - b1) c d
      s1 (le_refl _) (hsw1.ok hok) (by rw [hsw1.lens.1]; exact hb) (by omega) i2 (by omega) hcd hdhi
    refine ⟨s2, a1, b1, c1, d1, ?_, hsw1.trans hsw2, by omega, i2, by omega, j2, by omega, by omega,
      ?_⟩
    · rw [pivotLoop]
      split
      · rename_i h; rw [he1] at h; cases h
      · rename_i h; rw [he1] at h; cases h
        split
        · rename_i h; rw [he2] at h; cases h
        · rename_i h; rw [he2] at h; cases h
          rw [if_neg (by omega)]
    · intro hnn hp hbc' hinv
      have k1 := (i5 hnn hp hinv).1
      exact ⟨by omega, (j5 (hsw1.nn hnn) hp k1).1⟩
  | succ n ih =>
    intro a b c d s hn hok hb ha hab hbc hbhi hlc hcd hdhi
    obtain ⟨s1, a1, b1, he1, hsw1, i1, i2, i3, i4, i5⟩ := scanUp_spec p lo hi c d (c - b) a b s
      (le_refl _) hok hb ha hab hbhi hcd hdhi
    obtain ⟨s2, c1, d1, he2, hsw2, j1, j2, j3, j4, j6, j5⟩ := scanDown_spec p lo hi a1 b1 (c - b1) c d
      s1 (le_refl _) (hsw1.ok hok) (by rw [hsw1.lens.1]; exact hb) (by omega) i2 (by omega) hcd hdhi
    have hl2 : hi ≤ s2.cs.length := by rw [hsw2.lens.1, hsw1.lens.1]; exact hb
    by_cases hlt : b1 < c1
    · obtain ⟨s3, hs3, hsw3⟩ := swap_sw (lo := lo) (hi := hi) (i := c1 - 1) (j := b1)
        (hsw2.ok (hsw1.ok hok)) hl2 (by omega) (by omega) (by omega) (by omega)
      obtain ⟨s', a', b', c', d', he, hsw, k1, k2, k3, k4, k5, k6, k7⟩ := ih a1 (b1 + 1) (c1 - 1) d1
        s3 (by omega) (hsw3.ok (hsw2.ok (hsw1.ok hok))) (by rw [hsw3.lens.1]; exact hl2)
        (by omega) (by omega) (by omega) (by omega) (by omega) (by omega) (by omega)
      refine ⟨s', a', b', c', d', ?_, hsw1.trans (hsw2.trans (hsw3.trans hsw)), k1, k2, k3, k4, k5,
        k6, ?_⟩
      · rw [pivotLoop]
        split
        · rename_i h; rw [he1] at h; cases h
        · rename_i h; rw [he1] at h; cases h
          split
          · rename_i h; rw [he2] at h; cases h
          · rename_i h; rw [he2] at h; cases h
            rw [if_pos hlt, hs3]
            exact he
      · intro hnn hp hbc' hinv
        obtain ⟨q1, q2⟩ := i5 hnn hp hinv
        obtain ⟨r1, r2⟩ := j5 (hsw1.nn hnn) hp q1
        have hgt : p < val s2 b1 := by rw [j6 b1 hlt]; exact q2 (by omega)
        have hltc := r2 hlt
        have hne : b1 ≠ c1 - 1 := by
          intro he'
          rw [← he'] at hltc
          exact XF.lt_irrefl' _ (XF.lt_trans' hgt hltc)
        apply k7 (hsw3.nn (hsw2.nn (hsw1.nn hnn))) hp (by omega)
        refine ⟨?_, ?_, ?_, ?_⟩
        · intro k hk1 hk2
          rw [swap_val hs3, if_neg (by omega), if_neg (by omega)]
          exact r1.eqL k hk1 hk2
        · intro k hk1 hk2
          rw [swap_val hs3]
          by_cases hkb : k = b1
          · rw [if_pos hkb]; exact hltc
          · rw [if_neg hkb, if_neg (by omega)]; exact r1.ltL k hk1 (by omega)
        · intro k hk1 hk2
          rw [swap_val hs3, if_neg (by omega)]
          by_cases hkc : k = c1 - 1
          · rw [if_pos hkc]; exact hgt
          · rw [if_neg hkc]; exact r1.gtR k (by omega) hk2
        · intro k hk1 hk2
          rw [swap_val hs3, if_neg (by omega), if_neg (by omega)]
          exact r1.eqR k hk1 hk2
    · refine ⟨s2, a1, b1, c1, d1, ?_, hsw1.trans hsw2, by omega, i2, by omega, j2, by omega,
        by omega, ?_⟩
      · rw [pivotLoop]
        split
        · rename_i h; rw [he1] at h; cases h
        · rename_i h; rw [he1] at h; cases h
          split
          · rename_i h; rw [he2] at h; cases h
          · rename_i h; rw [he2] at h; cases h
            rw [if_neg hlt]
      · intro hnn hp hbc' hinv
        have k1 := (i5 hnn hp hinv).1
        exact ⟨by omega, (j5 (hsw1.nn hnn) hp k1).1⟩

theorem swapRange_spec (lo hi : Nat) : ∀ (n a b : Nat) (s : SV K), Ok s → hi ≤ s.cs.length →
    lo ≤ a → lo ≤ b → a + n ≤ hi → b + n ≤ hi →
    ∃ s', swapRange s a b n = some s' ∧ Sw lo hi s s' ∧
      (a + n ≤ b → ∀ k, val s' k = if a ≤ k ∧ k < a + n then val s (b + (k - a))
        else if b ≤ k ∧ k < b + n then val s (a + (k - b)) else val s k) := by
  intro n
  induction n with
  | zero =>
    intro a b s _ _ _ _ _ _
    refine ⟨s, rfl, Sw.refl _, fun _ k => ?_⟩
    rw [if_neg (by omega), if_neg (by omega)]
  | succ n ih =>
    intro a b s hok hb h1 h2 h3 h4
    obtain ⟨s1, hs1, hsw1⟩ := swap_sw (lo := lo) (hi := hi) (i := a) (j := b) hok hb
      (by omega) (by omega) (by omega) (by omega)
    obtain ⟨s', he, hsw, hv⟩ := ih (a + 1) (b + 1) s1 (hsw1.ok hok)
      (by rw [hsw1.lens.1]; exact hb) (by omega) (by omega) (by omega) (by omega)
    refine ⟨s', by simp only [swapRange, hs1]; exact he, hsw1.trans hsw, ?_⟩
    intro hdis k
    rw [hv (by omega) k]
    by_cases e1 : k = a
    · subst e1
      rw [if_neg (by omega), if_neg (by omega), if_pos (by omega), swap_val hs1, if_neg (by omega),
        if_pos rfl]
      simp
    · by_cases e2 : k = b
      · subst e2
        rw [if_neg (by omega), if_neg (by omega), if_neg (by omega), if_pos (by omega),
          swap_val hs1, if_pos rfl]
        simp
      · by_cases e3 : a + 1 ≤ k ∧ k < a + 1 + n
        · rw [if_pos e3, if_pos (by omega), swap_val hs1, if_neg (by omega), if_neg (by omega)]
          congr 1; omega
        · have ea : ¬(a ≤ k ∧ k < a + (n + 1)) := by omega
          rw [if_neg e3, if_neg ea]
          by_cases e4 : b + 1 ≤ k ∧ k < b + 1 + n
          · rw [if_pos e4, if_pos (by omega), swap_val hs1, if_neg (by omega), if_neg (by omega)]
            congr 1; omega
          · rw [if_neg e4, if_neg (by omega), swap_val hs1, if_neg e2, if_neg e1]

theorem doPivot_spec (s : SV K) (lo hi : Nat) (hok : Ok s) (hb : hi ≤ s.cs.length)
    (hlt : lo < hi) :
    ∃ s' mlo mhi, doPivot s lo hi = some (s', mlo, mhi) ∧ Sw lo hi s s' ∧ lo ≤ mlo ∧ mlo ≤ hi ∧
      lo ≤ mhi ∧ mhi ≤ hi ∧
      (NN s lo hi → mlo ≤ mhi ∧ ∃ p, p ≠ .nan ∧ (∀ k, lo ≤ k → k < mlo → val s' k < p) ∧
        (∀ k, mlo ≤ k → k < mhi → val s' k = p) ∧ (∀ k, mhi ≤ k → k < hi → p < val s' k)) := by
  obtain ⟨s1, h1, w1⟩ := choosePivot_spec s lo hi hok hb hlt
  have ok1 := w1.ok hok
  have l1 : hi ≤ s1.cs.length := by rw [w1.lens.1]; exact hb
  have hg : s1.vs[lo]? = some (val s1 lo) := get_val (by unfold Ok at ok1; omega)
  obtain ⟨s2, a, b, c, d, h2, w2, i1, i2, i3, i4, i5, i6, i7⟩ := pivotLoop_spec (val s1 lo) lo hi
    (hi - (lo + 1)) (lo + 1) (lo + 1) hi hi s1 (le_refl _) ok1 l1 (by omega) (le_refl _) (by omega)
    (by omega) (by omega) (le_refl _) (le_refl _)
  have ok2 := w2.ok ok1
  have l2 : hi ≤ s2.cs.length := by rw [w2.lens.1]; exact l1
  obtain ⟨s3, h3, w3, v3⟩ := swapRange_spec lo hi (min (b - a) (a - lo)) lo
    (b - min (b - a) (a - lo)) s2 ok2 l2 (by omega) (by omega) (by omega) (by omega)
  have ok3 := w3.ok ok2
  have l3 : hi ≤ s3.cs.length := by rw [w3.lens.1]; exact l2
  obtain ⟨s4, h4, w4, v4⟩ := swapRange_spec lo hi (min (hi - d) (d - c)) c
    (hi - min (hi - d) (d - c)) s3 ok3 l3 (by omega) (by omega) (by omega) (by omega)
  refine ⟨s4, lo + b - a, hi - (d - c), by simp only [doPivot, h1, hg, h2, h3, h4],
    w1.trans (w2.trans (w3.trans w4)), by omega, by omega, by omega, by omega, ?_⟩
  intro hnn
  have hp : val s1 lo ≠ .nan := w1.nn hnn lo (le_refl _) hlt
  obtain ⟨hbc, hinv⟩ := i7 (w1.nn hnn) hp (by omega)
    ⟨fun k h1 h2 => by rw [show k = lo by omega], fun k h1 h2 => by omega,
     fun k h1 h2 => by omega, fun k h1 h2 => by omega⟩
  subst hbc
  refine ⟨by omega, val s1 lo, hp, ?_, ?_, ?_⟩
  · intro k hk1 hk2
    rw [v4 (by omega) k, if_neg (by omega), if_neg (by omega), v3 (by omega) k]
    split_ifs
    · exact hinv.ltL _ (by omega) (by omega)
    · omega
    · exact hinv.ltL _ (by omega) (by omega)
  · intro k hk1 hk2
    rw [v4 (by omega) k]
    split_ifs
    · rw [v3 (by omega), if_neg (by omega), if_neg (by omega)]
      exact hinv.eqR _ (by omega) (by omega)
    · omega
    · rw [v3 (by omega) k]
      split_ifs
      · omega
      · exact hinv.eqL _ (by omega) (by omega)
      · by_cases hkb : k < b
        · exact hinv.eqL _ (by omega) (by omega)
        · exact hinv.eqR _ (by omega) (by omega)
  · intro k hk1 hk2
    rw [v4 (by omega) k]
    split_ifs
    · omega
    · rw [v3 (by omega), if_neg (by omega), if_neg (by omega)]
      exact hinv.gtR _ (by omega) (by omega)
    · rw [v3 (by omega), if_neg (by omega), if_neg (by omega)]
      exact hinv.gtR _ (by omega) (by omega)

/-- Two sorted outer parts around a block equal to the pivot. -/
theorem asc_join {s : SV K} {a b mlo mhi : Nat} {p : XF K} (hp : p ≠ .nan)
    (h1 : Asc s a mlo) (h2 : Asc s mhi b) (l : ∀ k, a ≤ k → k < mlo → val s k < p)
    (e : ∀ k, mlo ≤ k → k < mhi → val s k = p) (g : ∀ k, mhi ≤ k → k < b → p < val s k) :
    Asc s a b := by
  have hle : ∀ k, a ≤ k → k < mhi → val s k ≤ p := by
    intro k h h'
    by_cases hk : k < mlo
    · exact XF.le_of_lt' (l k h hk)
    · rw [e k (by omega) h']; exact XF.le_refl' hp
  have hge : ∀ k, mlo ≤ k → k < b → p ≤ val s k := by
    intro k h h'
    by_cases hk : k < mhi
    · rw [e k h hk]; exact XF.le_refl' hp
    · exact XF.le_of_lt' (g k (by omega) h')
  intro i j hi hij hj
  by_cases c1 : j < mlo
  · exact h1 i j hi hij c1
  · by_cases c2 : mhi ≤ i
    · exact h2 i j c2 hij hj
    · exact XF.le_trans' (hle i hi (by omega)) (hge j (by omega) hj)

theorem quickSort_spec : ∀ (dep : Nat) (a b : Nat) (s : SV K), Ok s → b ≤ s.cs.length → a ≤ b →
    ∃ s', quickSort s a b dep = some s' ∧ Sw a b s s' ∧ (NN s a b → Asc s' a b) := by
  have small : ∀ (a b : Nat) (s : SV K), Ok s → b ≤ s.cs.length → a ≤ b →
      ∃ s', (if 1 < b - a then insertionSort s a b else some s) = some s' ∧ Sw a b s s' ∧
        (NN s a b → Asc s' a b) := by
    intro a b s hok hb hab
    split
    · exact insertionSort_spec s a b hok hb (by omega)
    · exact ⟨s, rfl, Sw.refl _, fun _ p q h1 h2 h3 => by omega⟩
  intro dep
  induction dep with
  | zero =>
    intro a b s hok hb hab
    rw [quickSort]
    split
    · exact heapSort_spec s a b hok hb hab
    · exact small a b s hok hb hab
  | succ dep ih =>
    intro a b s hok hb hab
    rw [quickSort]
    split
    · obtain ⟨s1, mlo, mhi, h1, w1, i1, i2, i3, i4, i5⟩ := doPivot_spec s a b hok hb (by omega)
      rw [h1]
      simp only
      have ok1 := w1.ok hok
      have l1 := w1.lens.1
      split
      · obtain ⟨s2, h2, w2, p2⟩ := ih a mlo s1 ok1 (by omega) i1
        have l2 := w2.lens.1
        obtain ⟨s3, h3, w3, p3⟩ := ih mhi b s2 (w2.ok ok1) (by omega) i4
        refine ⟨s3, by rw [h2]; exact h3, w1.trans ((w2.mono (le_refl _) i2).trans
          (w3.mono i3 (le_refl _))), ?_⟩
        intro hnn
        obtain ⟨hm, p, hp, q1, q2, q3⟩ := i5 hnn
        have n1 := w1.nn hnn
        have n2 := (w2.mono (le_refl _) i2).nn n1
        have lt2 := w2.all (fun x => x < p) q1
        have gt3 := w3.all (fun x => p < x)
          (fun k h1 h2 => by rw [w2.outside_val k (by omega)]; exact q3 k h1 h2)
        have a3 := p3 (fun k h1 h2 => n2 k (by omega) h2)
        have a2 := p2 (fun k h1 h2 => n1 k h1 (by omega))
        apply asc_join hp (mlo := mlo) (mhi := mhi) _ a3 _ _ gt3
        · intro x y hx hxy hy
          rw [w3.outside_val x (by omega), w3.outside_val y (by omega)]
          exact a2 x y hx hxy hy
        · intro k h1 h2
          rw [w3.outside_val k (by omega)]; exact lt2 k h1 h2
        · intro k h1 h2
          rw [w3.outside_val k (by omega), w2.outside_val k (by omega)]; exact q2 k h1 h2
      · obtain ⟨s2, h2, w2, p2⟩ := ih mhi b s1 ok1 (by omega) i4
        have l2 := w2.lens.1
        obtain ⟨s3, h3, w3, p3⟩ := ih a mlo s2 (w2.ok ok1) (by omega) i1
        refine ⟨s3, by rw [h2]; exact h3, w1.trans ((w2.mono i3 (le_refl _)).trans
          (w3.mono (le_refl _) i2)), ?_⟩
        intro hnn
        obtain ⟨hm, p, hp, q1, q2, q3⟩ := i5 hnn
        have n1 := w1.nn hnn
        have n2 := (w2.mono i3 (le_refl _)).nn n1
        have gt2 := w2.all (fun x => p < x) q3
        have lt3 := w3.all (fun x => x < p)
          (fun k h1 h2 => by rw [w2.outside_val k (by omega)]; exact q1 k h1 h2)
        have a3 := p3 (fun k h1 h2 => n2 k h1 (by omega))
        have a2 := p2 (fun k h1 h2 => n1 k (by omega) h2)
        apply asc_join hp (mlo := mlo) (mhi := mhi) a3 _ lt3
        · intro k h1 h2
          rw [w3.outside_val k (by omega), w2.outside_val k (by omega)]; exact q2 k h1 h2
        · intro k h1 h2
          rw [w3.outside_val k (by omega)]; exact gt2 k h1 h2
        · intro x y hx hxy hy
          rw [w3.outside_val x (by omega), w3.outside_val y (by omega)]
          exact a2 x y hx hxy hy
    · exact small a b s hok hb hab

end SortBy
end CloudForest
