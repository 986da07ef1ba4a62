import Verif.Lemmas.Rounding4
import Verif.Props.Splitter

/-!
# C126, C127: a numerical target in floating point

The sums, sums of squares and quotients by which a numerical target judges a node are rounded to double precision after
every operation, as they are in Go.
-/

set_option linter.unusedSectionVars false

namespace CloudForest

/-- 98.6 in double precision. -/
def exFever : ℚ := 3469179087958835 / 35184372088832

/-- Five cases, all of them with the target 98.6. -/
def exFevers : NumFeature ℚ :=
  { name := "N:temperature", numData := List.replicate 5 (.fin exFever), missing := List.replicate 5 false,
    hasMissing := false }

/-- Small whole numbers. -/
def exCounts : NumFeature ℚ :=
  { name := "N:counts", numData := [.fin 3, .fin 1, .fin 4, .fin 1, .fin 5], missing := List.replicate 5 false,
    hasMissing := false }

/-- Two neighbouring seconds, counted from 1970. -/
def exSeconds : NumFeature ℚ :=
  { name := "N:seconds", numData := [.fin (2 ^ 30), .fin (2 ^ 30 + 1)], missing := [false, false], hasMissing := false }

/-- Two large values and two small ones. -/
def exOutlier : NumFeature ℚ :=
  { name := "N:outlier", numData := [.fin (2 ^ 53), .fin (2 ^ 53), .fin 1, .fin 3], missing := List.replicate 4 false,
    hasMissing := false }

/-! ## The impurity (C126) -/

/-- **C126.** The rounded impurity of a node, when it is finite, differs from the sum of squared deviations from the
mean by at most n·(2⁻⁴⁸·Σv² + 2⁻¹⁰⁷¹), n being the number of cases and Σv² the sum of the squares of their targets. -/
theorem c126_error {f : NumFeature ℚ} {cs : List Nat} (hd : f.Doubles cs) (hne : cs ≠ []) (hn : cs.length ≤ 2 ^ 52)
    {a a' : Allocs ℚ} {e : ℚ} (h : f.impurityR F64.round a cs = some (.fin e, a')) :
    |e - f.sse cs| ≤ cs.length * ((1 / 2 ^ 48) * (cs.map fun c => f.value c ^ 2).sum + 1 / 2 ^ 1071) := by
  refine (impurityR_err f hd hne (by exact_mod_cast hn) h).trans (le_of_eq ?_)
  congr 1
  have h1 : 32 * ulp64 = 1 / 2 ^ 48 := by unfold ulp64; norm_num
  have h2 : 16 * tiny64 = 1 / 2 ^ 1071 := by
    unfold tiny64
    rw [show (2 : ℚ) ^ 1075 = 2 ^ 4 * 2 ^ 1071 by rw [← pow_add], ← div_div]
    ring
  rw [← mul_assoc, h1, h2]

theorem exFevers_doubles : exFevers.Doubles [0, 1, 2, 3, 4] := by
  have h : Rep64 exFever := by
    have := rep64_frac (m := 3469179087958835) (k := 45) (by norm_num) (by omega)
    unfold exFever
    convert this using 1
    norm_num
  intro c hc
  refine ⟨exFever, ?_, h⟩
  fin_cases hc <;> rfl

/-- Five temperatures. -/
example : exFevers.Doubles [0, 1, 2, 3, 4] ∧
    exFevers.impurityR F64.round exWork.allocs [0, 1, 2, 3, 4] = some (.fin (-1 / 137438953472), exWork.allocs) :=
  ⟨exFevers_doubles, by kernel_refl⟩

/-- **C126.** For small whole numbers, or multiples of a power of two, the rounded impurity of a node is not negative,
and it is zero for equal targets and for no others. Not for all doubles: `c126_negative`, `c126_seconds`. -/
theorem c126_sign_partial {f : NumFeature ℚ} {k : Nat} (hk : k ≤ 400) {cs : List Nat} (hne : cs ≠ [])
    (h : f.SmallNumbers k cs) (a : Allocs ℚ) :
    ∃ e, f.impurityR F64.round a cs = some (.fin e, a) ∧ 0 ≤ e ∧
      (e = 0 ↔ ∀ c ∈ cs, ∀ d ∈ cs, f.value c = f.value d) := by
  obtain ⟨e, h1, h2, h3⟩ := impurityR_small hk hne h a
  exact ⟨e, h1, h2, h3.trans (sse_eq_zero f cs)⟩

/-- **C126.** For small whole numbers, or multiples of a power of two, the impurity of a division that the search has
kept up to date through any number of cuts is the one that would be computed anew. Not for all doubles:
`c126_drift`. -/
theorem c126_scan_partial {f : NumFeature ℚ} {k : Nat} (hk : k ≤ 400) {cs : List Nat} (h : f.SmallNumbers k cs)
    {a b a1 : Allocs ℚ} {i : Nat} {js : List Nat} (hs : (i :: js).Pairwise (· ≤ ·)) {x : XF ℚ}
    (h0 : f.splitImpurityR F64.round a (cs.take i) (cs.drop i) none = some (x, a1)) :
    ∃ y a2 a3, f.scan F64.round cs i js (x, a1) = some (y, a2) ∧
      f.splitImpurityR F64.round b (cs.take ((i :: js).getLast (by simp))) (cs.drop ((i :: js).getLast (by simp))) none =
        some (y, a3) := by
  obtain ⟨n, hdata, hb⟩ := h
  have hsm : SmallWith f k n cs := by
    refine ⟨hdata, ?_⟩
    by_cases hne : cs = []
    · subst hne; simp
    have hlen1 : (1 : ℤ) ≤ cs.length := by exact_mod_cast List.length_pos_iff.2 hne
    have hq0 : 0 ≤ (cs.map fun c => n c ^ 2).sum := by
      have := list_sq_sum_nonneg (cs.map n)
      rwa [List.map_map] at this
    nlinarith
  have hb : ∃ b1, f.splitImpurityR F64.round b (cs.take i) (cs.drop i) none = some (x, b1) ∧ a1.lsum = b1.lsum ∧
      a1.rsum = b1.rsum ∧ a1.lsumSqr = b1.lsumSqr ∧ a1.rsumSqr = b1.rsumSqr := by
    unfold NumFeature.splitImpurityR at h0 ⊢
    simp only [Option.bind_eq_bind] at h0 ⊢
    obtain ⟨p, e1, h0⟩ := Option.bind_eq_some_iff.1 h0
    obtain ⟨q, e2, h0⟩ := Option.bind_eq_some_iff.1 h0
    cases h0
    rw [e1, e2]
    exact ⟨_, rfl, rfl, rfl, rfl, rfl⟩
  obtain ⟨b1, hb1, h1, h2, h3, h4⟩ := hb
  exact scan_eq (by omega) hsm b js i hs x b1 a1 hb1 h1 h2 h3 h4

theorem exCounts_small : exCounts.SmallNumbers 0 [0, 1, 2, 3, 4] := by
  refine ⟨fun c => [3, 1, 4, 1, 5].getD c 0, ?_, by decide⟩
  intro c hc
  fin_cases hc <;> simp [exCounts]

/-- The targets 3, 1, 4, 1, 5, whose squared deviations are 12.8 in all. -/
example : exCounts.SmallNumbers 0 [0, 1, 2, 3, 4] ∧
    exCounts.impurityR F64.round exWork.allocs [0, 1, 2, 3, 4] =
      some (.fin (7205759403792792 / 2 ^ 49), exWork.allocs) ∧
    ∃ x a1, exCounts.splitImpurityR F64.round exWork.allocs [0] [1, 2, 3, 4] none = some (x, a1) :=
  ⟨exCounts_small, by kernel_refl, _, _, rfl⟩

/-- **C126 is false of the code.** Five cases all have the target 98.6, and their impurity is negative. -/
theorem c126_negative : exFevers.Doubles [0, 1, 2, 3, 4] ∧ exFevers.sse [0, 1, 2, 3, 4] = 0 ∧
    ∃ e, exFevers.impurityR F64.round exWork.allocs [0, 1, 2, 3, 4] = some (.fin e, exWork.allocs) ∧ e < 0 := by
  refine ⟨exFevers_doubles, (sse_eq_zero _ _).2 ?_, -1 / 137438953472, by kernel_refl, by norm_num⟩
  intro c hc d hd
  fin_cases hc <;> fin_cases hd <;> rfl

/-- Nine cases that all cost 19999.95, and a feature that counts them. -/
def exPrices : NumFeature ℚ :=
  { name := "N:price", numData := List.replicate 9 (.fin (5497544394984653 / 274877906944)),
    missing := List.replicate 9 false, hasMissing := false }

@[inherit_doc exPrices]
def exPriceFM : FeatureMatrix ℚ :=
  ⟨[.num { name := "N:day", numData := [.fin 0, .fin 1, .fin 2, .fin 3, .fin 4, .fin 5, .fin 6, .fin 7, .fin 8],
           missing := List.replicate 9 false, hasMissing := false }], fun _ => some 0, []⟩

/-- **C126 is false of the code.** With the usual leaf size of four the search divides nine equal cases: a negative
impurity of the parent tells it to take the impurity of the division itself for its worth (densenumfeature.go:334-352),
and rounding has made that one positive. -/
theorem c126_divides_equal : ((treeGrower exPriceFM (sseTargetR F64.round exPrices) (numContrast exPrices)
      ⟨1, 4, false, false, false, false⟩ (fun _ => "19999.95") 0 false).best
      ⟨exWork.allocs, fun _ => 0, [0], []⟩ [0, 1, 2, 3, 4, 5, 6, 7, 8] 0).map Prod.snd =
    some ⟨[0, 1, 2, 3, 4, 5, 6, 7, 8], 0, some (.num (.fin (7 / 2))), 0⟩ := by kernel_refl

/-- With exact numbers the nine cases stay together. -/
example : ((treeGrower exPriceFM (sseTarget exPrices) (numContrast exPrices)
      ⟨1, 4, false, false, false, false⟩ (fun _ => "19999.95") 0 false).best
      ⟨exWork.allocs, fun _ => 0, [0], []⟩ [0, 1, 2, 3, 4, 5, 6, 7, 8] 0).map Prod.snd =
    some ⟨[0, 1, 2, 3, 4, 5, 6, 7, 8], 0, none, 0⟩ := by kernel_refl

/-- **C126 is false of the code.** Two different targets, the seconds 2³⁰ and 2³⁰ + 1, have impurity zero, and no
division of the two is worth anything. -/
theorem c126_seconds : exSeconds.sse [0, 1] = 1 / 2 ∧
    exSeconds.impurityR F64.round exWork.allocs [0, 1] = some (.fin 0, exWork.allocs) ∧
    (exSeconds.splitImpurityR F64.round exWork.allocs [0] [1] none).map Prod.fst = some (.fin 0) := by
  refine ⟨?_, by kernel_refl, by kernel_refl⟩
  norm_num [NumFeature.sse, NumFeature.meanOf, exSeconds, NumFeature.value]

/-- **C126 is false of the code.** Targets 2⁵³, 2⁵³, 1 and 3 in this order: once the large ones have moved to the left,
the two on the right are judged by sums in which they had been lost. The search takes their squared deviations for −8;
computed anew they are 2. -/
theorem c126_drift : ∃ x a1, exOutlier.splitImpurityR F64.round exWork.allocs [0] [1, 2, 3] none = some (x, a1) ∧
    ∃ y a2 z a3, exOutlier.scan F64.round [0, 1, 2, 3] 1 [2] (x, a1) = some (y, a2) ∧
      exOutlier.splitImpurityR F64.round exWork.allocs [0, 1] [2, 3] none = some (z, a3) ∧
      a2.rsum = .fin 4 ∧ a2.rsumSqr = .fin 0 ∧ sseFromR F64.round 2 a2.rsum a2.rsumSqr = .fin (-8) ∧
      a3.rsum = .fin 4 ∧ a3.rsumSqr = .fin 10 ∧ sseFromR F64.round 2 a3.rsum a3.rsumSqr = .fin 2 ∧
      y = .fin (-4) ∧ z = .fin 1 :=
  ⟨_, _, rfl, _, _, _, _, rfl, rfl, by decide +kernel, by decide +kernel, by decide +kernel, by decide +kernel,
    by decide +kernel, by decide +kernel, by decide +kernel, by decide +kernel⟩

/-! ## The mean (C127) -/

/-- **C127.** The rounded mean of the known values of the listed cases, when it is finite, differs from their mean by at
most 2⁻⁵¹ times the sum of their sizes, plus 2⁻¹⁰⁷⁵. -/
theorem c127_error {f : NumFeature ℚ} {cs : List Nat} (hd : f.Doubles ((Feature.num f).knowns cs))
    (hn : ((Feature.num f).knowns cs).length ≤ 2 ^ 52) {m : ℚ} (h : f.meanR F64.round cs = some (.fin m)) :
    |m - f.meanOf ((Feature.num f).knowns cs)| ≤
      1 / 2 ^ 51 * (((Feature.num f).knowns cs).map fun c => |f.value c|).sum + 1 / 2 ^ 1075 := by
  have := meanR_err f hd hn h
  have h1 : 4 * ulp64 = 1 / 2 ^ 51 := by unfold ulp64; norm_num
  rw [h1] at this
  exact this

/-- Three temperatures. -/
example : (Feature.num exFevers).knowns [0, 1, 2] = [0, 1, 2] ∧
    exFevers.meanR F64.round [0, 1, 2] = some (.fin (6938358175917669 / 70368744177664)) := by
  exact ⟨by decide, by decide +kernel⟩

/-- **C127 is false of the code.** The mean of three cases that all have the target 98.6 is less than 98.6, so that a
leaf predicts a value outside the range of its training cases. -/
theorem c127_outside : (∀ c ∈ [0, 1, 2], exFevers.numData[c]? = some (.fin exFever)) ∧
    ∃ m, exFevers.meanR F64.round [0, 1, 2] = some (.fin m) ∧ m < exFever :=
  ⟨fun c hc => by fin_cases hc <;> rfl, _, by kernel_refl, (by norm_num [exFever] : (6938358175917669 / 70368744177664 : ℚ) < exFever)⟩

end CloudForest
