import Verif.Lemmas.Rounding2
import Verif.Props.Search

/-!
# C125: thresholds in floating point

Everywhere else numbers are exact. Here the comparisons and the thresholds of the search of a numerical feature are
rounded to double precision, as they are in Go.
-/

set_option linter.unusedSectionVars false

namespace CloudForest
variable {K : Type} [Field K] [LinearOrder K] [IsStrictOrderedRing K]

/-- **C125.** The modelled rounding is to the nearest number of double precision, and overflows only beyond all of
them. -/
theorem c125_rounds : RoundsTo Rep64 F64.round := F64.rounds

/-- One third, rounded, is below one third; 2⁵³ + 1 goes to the even 2⁵³; 2¹⁰²⁴ overflows. -/
example : F64.round (1 / 3) = .fin (6004799503160661 / 2 ^ 54) ∧ F64.round (2 ^ 53 + 1) = .fin (2 ^ 53) ∧
    F64.round (2 ^ 1024) = .pinf := by decide +kernel

/-- **C125.** A search that reports a decrease has judged two groups of cases, all of them, the left one of at least
`leafSize` and the right one of more; the decrease is that of the two groups, and the rounded threshold is no less than
any value of the left group and no more than any of the right group. If it is not the least value of the right group,
then it sends exactly the left group to the left. No division into smaller and larger values with as many cases on either
side would have been judged better, unless the search was told to try only one. Values whose double overflows, and values
that differ but that the search takes for equal, are excluded. -/
theorem c125_found_partial {rep : K → Prop} {r : K → XF K} (hr : RoundsTo rep r) {cut : K} (hcut : 0 ≤ cut)
    (f : NumFeature K) {T : Target K} {cases : List Nat} (L : TargetLaws T cases) (parentImp : XF K) {leafSize : Nat}
    (hls : 1 ≤ leafSize) (rs : Bool) (w : Work K) (hcs : ∀ c ∈ w.cases, c ∈ cases) (hfin : f.Finite w.cases)
    (hrep : ∀ c ∈ w.cases, rep (f.value c) ∧ rep (2 * f.value c)) (hties : f.NoRoundedTies r (.fin cut) w.cases)
    (hok : L.Ok w.allocs) :
    ∃ res w', f.bestNumSplitR r (.fin cut) T parentImp leafSize rs w = some (res, w') ∧ w'.cases.Perm w.cases ∧
      (res.imp = minImp ∨ minImp < res.imp ∧ ∃ t lefts rights, res.code = some (.num (.fin t)) ∧
        (lefts ++ rights).Perm w.cases ∧ leafSize ≤ lefts.length ∧ leafSize < rights.length ∧
        res.imp = decrease parentImp (L.S lefts rights) ∧
        (∀ c ∈ lefts, f.value c ≤ t) ∧ (∀ c ∈ rights, t ≤ f.value c) ∧
        ((∀ c ∈ rights, f.value c ≠ t) →
          (∀ c ∈ lefts, (Feature.num f).codedLeft (.num (.fin t)) c = some true) ∧
            ∀ c ∈ rights, (Feature.num f).codedLeft (.num (.fin t)) c = some false)) ∧
      (rs = false → ∀ lefts rights, (lefts ++ rights).Perm w.cases → leafSize ≤ lefts.length →
        leafSize < rights.length → (∀ c ∈ lefts, ∀ d ∈ rights, f.value c < f.value d) →
        ¬ res.imp < decrease parentImp (L.S lefts rights)) := by
  obtain ⟨res, w', e, h⟩ := bestNumSplitR_ok hr hcut f L parentImp hls rs hcs hfin hrep hties hok
  refine ⟨res, w', e, h.perm, ?_, h.opt⟩
  rcases h.found with h1 | ⟨h1, t, l, g, h2, h3, h4, h5, h6, h7, h8, -⟩
  · exact .inl h1
  refine .inr ⟨h1, t, l, g, h2, h3, h4, h5, h6, h7, h8, fun hne => ⟨fun c hc => ?_, fun c hc => ?_⟩⟩
  · obtain ⟨v, hv⟩ := hfin c (h3.mem_iff.1 (List.mem_append_left _ hc))
    rw [codedLeft_num hv, decide_eq_true (h7 c hc)]
  · obtain ⟨v, hv⟩ := hfin c (h3.mem_iff.1 (List.mem_append_right _ hc))
    rw [codedLeft_num hv, decide_eq_false (not_le.2 (lt_of_le_of_ne (h8 c hc) (hne c hc).symm))]

theorem exSplit_rep : ∀ c ∈ exWork.cases, Rep64 (exSplit.value c) ∧ Rep64 (2 * exSplit.value c) := by
  intro c hc
  have h : ∀ n : ℤ, |n| ≤ 5 → Rep64 (n : ℚ) ∧ Rep64 (2 * (n : ℚ)) := by
    intro n hn
    have h1 := rep64_frac (m := n) (k := 0) (hn.trans (by norm_num)) (by omega)
    have h2 := rep64_frac (m := 2 * n) (k := 0) (by rw [abs_mul]; norm_num; omega) (by omega)
    refine ⟨by simpa using h1, by simpa using h2⟩
  have : ∃ n : ℤ, |n| ≤ 5 ∧ exSplit.value c = n := by
    fin_cases hc
    · exact ⟨3, by decide, rfl⟩
    · exact ⟨1, by decide, rfl⟩
    · exact ⟨2, by decide, rfl⟩
    · exact ⟨5, by decide, rfl⟩
    · exact ⟨4, by decide, rfl⟩
    · exact ⟨2, by decide, rfl⟩
  obtain ⟨n, hn, e⟩ := this
  rw [e]
  exact h n hn

example : ∃ res w', exSplit.bestNumSplitR F64.round F64.cutoff (giniTarget exSplitT) (.fin (1 / 2)) 1 false exWork =
    some (res, w') ∧ w'.cases.Perm exWork.cases := by
  obtain ⟨c, h1, h2, -⟩ := f64_cutoff
  obtain ⟨res, w', h3, h4, -⟩ := c125_found_partial c125_rounds h2 exSplit
    (giniLaws exSplitT 2 exWork.cases exSplitT_inRange) (.fin (1 / 2)) (le_refl 1) false exWork (fun _ h => h)
    exSplit_finite exSplit_rep
    (by rw [← h1]
        exact show ∀ c ∈ [0, 1, 2, 3, 4, 5], ∀ d ∈ [0, 1, 2, 3, 4, 5], exSplit.value c < exSplit.value d →
          ¬ XF.fin (exSplit.value d) ≤ XF.plusCut F64.round (.fin (exSplit.value c)) F64.cutoff by decide +kernel)
    ⟨rfl, rfl, rfl⟩
  exact ⟨res, w', by rw [h1]; exact h3, h4⟩

/-- **C125.** For values that are multiples of 2⁻ᵏ with `k ≤ 22`, less than 2⁵²⁻ᵏ, rounding changes nothing: the search
in double precision is the search in exact numbers. -/
theorem c125_exact_partial (f : NumFeature ℚ) (T : Target ℚ) (parentImp : XF ℚ) (leafSize : Nat) (rs : Bool)
    (w : Work ℚ) {k : Nat} (hk : k ≤ 22) (hgrid : f.OnGrid k w.cases) :
    f.bestNumSplitR F64.round F64.cutoff T parentImp leafSize rs w = f.bestNumSplit T parentImp leafSize rs w := by
  have hval : ∀ c ∈ w.cases, ∃ n : ℤ, |n| < 2 ^ 52 ∧ f.value c = n / 2 ^ k := by
    intro c hc
    obtain ⟨n, h1, h2⟩ := hgrid c hc
    exact ⟨n, h1, by unfold NumFeature.value; rw [h2]⟩
  refine bestNumSplitR_eq F64.round F64.cutoff f T parentImp leafSize rs w ?_ ?_ ?_
  · intro c hc
    obtain ⟨n, -, h⟩ := hgrid c hc
    exact ⟨_, h⟩
  · intro c hc d hd
    obtain ⟨n, -, e⟩ := hval c hc
    obtain ⟨m, hm, e'⟩ := hval d hd
    rw [e, e']
    exact grid_gap hk hm
  · intro c hc d hd
    obtain ⟨n, hn, e⟩ := hval c hc
    obtain ⟨m, hm, e'⟩ := hval d hd
    rw [e, e']
    exact grid_mid hk hn hm

theorem exSplit_grid : exSplit.OnGrid 3 exWork.cases := by
  intro c hc
  fin_cases hc
  · exact ⟨24, by decide, by decide +kernel⟩
  · exact ⟨8, by decide, by decide +kernel⟩
  · exact ⟨16, by decide, by decide +kernel⟩
  · exact ⟨40, by decide, by decide +kernel⟩
  · exact ⟨32, by decide, by decide +kernel⟩
  · exact ⟨16, by decide, by decide +kernel⟩

example : (exSplit.bestNumSplitR F64.round F64.cutoff (giniTarget exSplitT) (.fin (1 / 2)) 1 false exWork).map Prod.fst =
    some ⟨some (.num (.fin (5 / 2))), .fin (1 / 2), false⟩ := by
  rw [c125_exact_partial exSplit _ _ 1 false exWork (by decide : 3 ≤ 22) exSplit_grid]
  decide +kernel

/-- **C125.** So for such values a reported decrease is the decrease of the division that the threshold makes, with
the smallest size of a leaf respected on either side. -/
theorem c125_grid_partial (f : NumFeature ℚ) {T : Target ℚ} {cases : List Nat} (L : TargetLaws T cases)
    (parentImp : XF ℚ) {leafSize : Nat} (hls : 1 ≤ leafSize) (rs : Bool) (w : Work ℚ) (hcs : ∀ c ∈ w.cases, c ∈ cases)
    {k : Nat} (hk : k ≤ 22) (hgrid : f.OnGrid k w.cases) (hok : L.Ok w.allocs) :
    ∃ res w', f.bestNumSplitR F64.round F64.cutoff T parentImp leafSize rs w = some (res, w') ∧
      w'.cases.Perm w.cases ∧
      (res.imp = minImp ∨ minImp < res.imp ∧ ∃ t : ℚ, res.code = some (.num (.fin t)) ∧
        leafSize ≤ ((Feature.num f).lefts (.num (.fin t)) w.cases).length ∧
        leafSize < ((Feature.num f).rights (.num (.fin t)) w.cases).length ∧
        res.imp = decrease parentImp (L.S ((Feature.num f).lefts (.num (.fin t)) w.cases)
          ((Feature.num f).rights (.num (.fin t)) w.cases))) := by
  rw [c125_exact_partial f T parentImp leafSize rs w hk hgrid]
  have hties : (Feature.num f).NoNearTies w.cases := by
    intro c hc d hd hlt
    obtain ⟨n, -, h1⟩ := hgrid c hc
    obtain ⟨m, -, h2⟩ := hgrid d hd
    have e1 : f.value c = n / 2 ^ k := by unfold NumFeature.value; rw [h1]
    have e2 : f.value d = m / 2 ^ k := by unfold NumFeature.value; rw [h2]
    rw [e1, e2] at hlt ⊢
    have hpos : (0 : ℚ) < 2 ^ k := by positivity
    have hnm : n < m := by
      have := (div_lt_div_iff_of_pos_right hpos).1 hlt
      exact_mod_cast this
    have h3 : (n : ℚ) + 1 ≤ m := by exact_mod_cast hnm
    have h4 : ((n : ℚ) + 1) / 2 ^ k ≤ m / 2 ^ k := div_le_div_of_nonneg_right h3 hpos.le
    have h5 : (1 : ℚ) / 2 ^ 22 ≤ 1 / 2 ^ k :=
      one_div_le_one_div_of_le hpos (pow_le_pow_right₀ (by norm_num) hk)
    rw [add_div] at h4
    have h6 : (1 : ℚ) / 10000000 < 1 / 2 ^ 22 := by norm_num
    linarith
  obtain ⟨res, w', e, h1, h2, -⟩ := c10_num_search f (L.mono hcs)
    (fun c hc => let ⟨n, _, h⟩ := hgrid c hc; ⟨_, h⟩) hties parentImp hls rs w (fun _ h => h) hok
  exact ⟨res, w', e, h1, h2⟩

example : ∃ res w', exSplit.bestNumSplitR F64.round F64.cutoff (giniTarget exSplitT) (.fin (1 / 2)) 1 false exWork =
    some (res, w') ∧ w'.cases.Perm exWork.cases := by
  obtain ⟨res, w', h1, h2, -⟩ := c125_grid_partial exSplit (giniLaws exSplitT 2 exWork.cases exSplitT_inRange)
    (.fin (1 / 2)) (le_refl 1) false exWork (fun _ h => h) (by decide : 3 ≤ 22) exSplit_grid ⟨rfl, rfl, rfl⟩
  exact ⟨res, w', h1, h2⟩

/-! ## Where it fails -/

/-- Four cases whose values are two neighbouring numbers of double precision: 2⁵³ + 2 and 2⁵³ + 4. -/
def exClose : NumFeature ℚ :=
  ⟨[.fin (2 ^ 53 + 2), .fin (2 ^ 53 + 4), .fin (2 ^ 53 + 4), .fin (2 ^ 53 + 2)], List.replicate 4 false, "x", false⟩
/-- Their classes: 0, 1, 1, 0. -/
def exCloseT : CatFeature := ⟨.empty, [0, 1, 1, 0], List.replicate 4 false, "t", false, false⟩

/-- **C125 is false of the code.** Between two neighbouring numbers there is none; the mean is rounded, and the
threshold may be the larger of the two. The search reports that the classes are parted perfectly, with two cases on
either side, but the threshold it returns sends all four cases to the left and none to the right. In exact numbers it
would have parted them. -/
theorem c125_neighbours :
    (exClose.bestNumSplitR F64.round F64.cutoff (giniTarget exCloseT) (.fin (1 / 2)) 1 false
      { exWork with cases := [0, 1, 2, 3] }).map Prod.fst =
        some ⟨some (.num (.fin (2 ^ 53 + 4))), .fin (1 / 2), false⟩ ∧
    (Feature.num exClose).lefts (.num (.fin (2 ^ 53 + 4))) [0, 1, 2, 3] = [0, 1, 2, 3] ∧
    (Feature.num exClose).rights (.num (.fin (2 ^ 53 + 4))) [0, 1, 2, 3] = [] ∧
    (exClose.bestNumSplit (giniTarget exCloseT) (.fin (1 / 2)) 1 false
      { exWork with cases := [0, 1, 2, 3] }).map Prod.fst =
        some ⟨some (.num (.fin (2 ^ 53 + 3))), .fin (1 / 2), false⟩ := by
  decide +kernel

/-- Four cases with values 2¹⁰²³ and 2¹⁰²³ + 2¹⁰²². -/
def exHuge : NumFeature ℚ :=
  ⟨[.fin (2 ^ 1023), .fin (2 ^ 1023 + 2 ^ 1022), .fin (2 ^ 1023 + 2 ^ 1022), .fin (2 ^ 1023)], List.replicate 4 false,
    "x", false⟩

/-- **C125 is false of the code.** The sum of two large values overflows before it is halved: the threshold is +∞, and
all cases go left. -/
theorem c125_overflow :
    (exHuge.bestNumSplitR F64.round F64.cutoff (giniTarget exCloseT) (.fin (1 / 2)) 1 false
      { exWork with cases := [0, 1, 2, 3] }).map Prod.fst = some ⟨some (.num .pinf), .fin (1 / 2), false⟩ ∧
    (Feature.num exHuge).lefts (.num .pinf) [0, 1, 2, 3] = [0, 1, 2, 3] := by
  decide +kernel

/-- Four cases whose values are less than 10⁻⁷. -/
def exSmallValues : NumFeature ℚ :=
  ⟨[.fin (1 / 2 ^ 30), .fin (1 / 2 ^ 27), .fin (1 / 2 ^ 27), .fin (1 / 2 ^ 30)], List.replicate 4 false, "x", false⟩

/-- **C125 is false of the code.** Values that differ by less than `constant_cutoff` are taken for equal, here all of
them: the feature is called constant, though eight-fold differences part the classes. -/
theorem c125_small_values :
    (exSmallValues.bestNumSplitR F64.round F64.cutoff (giniTarget exCloseT) (.fin (1 / 2)) 1 false
      { exWork with cases := [0, 1, 2, 3] }).map Prod.fst = some ⟨none, minImp, true⟩ := by
  decide +kernel

end CloudForest
