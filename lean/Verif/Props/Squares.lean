import Verif.Spec.Squares
import Verif.Lemmas.Greedy2

/-!
# Property C122: regression splits have the least squared error
-/

set_option linter.unusedSectionVars false

namespace CloudForest
variable {K : Type} [Field K] [LinearOrder K] [IsStrictOrderedRing K]

theorem sum_map_add' (l : List Nat) (g h : Nat → K) : (l.map fun c => g c + h c).sum = (l.map g).sum + (l.map h).sum := by
  induction l with
  | nil => simp
  | cons a l ih => simp only [List.map_cons, List.sum_cons, ih]; ring

theorem sum_map_mul' (l : List Nat) (k : K) (g : Nat → K) : (l.map fun c => k * g c).sum = k * (l.map g).sum := by
  induction l with
  | nil => simp
  | cons a l ih => simp only [List.map_cons, List.sum_cons, ih]; ring

theorem sum_map_const' (l : List Nat) (k : K) : (l.map fun _ => k).sum = l.length * k := by
  induction l with
  | nil => simp
  | cons a l ih => simp only [List.map_cons, List.sum_cons, ih, List.length_cons]; push_cast; ring

/-- The size times the sum of squared deviations is half the sum of the squared differences of all pairs. -/
theorem pairSquares_eq (f : NumFeature K) (cs : List Nat) : f.pairSquares cs = 2 * (cs.length * f.sse cs) := by
  by_cases h : cs = []
  · simp [h, NumFeature.pairSquares]
  have hn : (cs.length : K) ≠ 0 := by exact_mod_cast (List.length_pos_of_ne_nil h).ne'
  have h1 : ∀ c, (cs.map fun d => (f.value c - f.value d) ^ 2).sum =
      cs.length * f.value c ^ 2 + -2 * (cs.map f.value).sum * f.value c + (cs.map fun d => f.value d ^ 2).sum := by
    intro c
    have : (fun d => (f.value c - f.value d) ^ 2) =
        fun d => (f.value c ^ 2 + (-2 * f.value c) * f.value d) + f.value d ^ 2 := by
      funext d; ring
    rw [this, sum_map_add' cs (fun d => f.value c ^ 2 + (-2 * f.value c) * f.value d) fun d => f.value d ^ 2,
      sum_map_add' cs (fun _ => f.value c ^ 2) fun d => (-2 * f.value c) * f.value d, sum_map_const', sum_map_mul']
    ring
  unfold NumFeature.pairSquares NumFeature.sse
  have h2 : (fun c => (cs.map fun d => (f.value c - f.value d) ^ 2).sum) = fun c =>
      (cs.length * f.value c ^ 2 + -2 * (cs.map f.value).sum * f.value c) + (cs.map fun d => f.value d ^ 2).sum :=
    funext h1
  have h3 : (fun c => (f.value c - f.meanOf cs) ^ 2) = fun c =>
      (f.value c ^ 2 + (-2 * f.meanOf cs) * f.value c) + f.meanOf cs ^ 2 := by
    funext c; ring
  rw [h2, h3, sum_map_add' cs (fun c => cs.length * f.value c ^ 2 + -2 * (cs.map f.value).sum * f.value c) _,
    sum_map_add' cs (fun c => cs.length * f.value c ^ 2) _, sum_map_mul', sum_map_mul', sum_map_const',
    sum_map_add' cs (fun c => f.value c ^ 2 + (-2 * f.meanOf cs) * f.value c) _, sum_map_add' cs (fun c => f.value c ^ 2) _,
    sum_map_mul', sum_map_const']
  unfold NumFeature.meanOf
  field_simp
  ring

/-- **C122, what is minimised.** For a numerical target a complete search returns a division for which the squared
differences between the target values of cases on the same side add up to the least: no other division with room on both
sides has a smaller sum. (This is not the squared error of the two means: `c122_not_least`.) -/
theorem c122_pairs_partial (f : NumFeature K) {cases : List Nat} (hfin : f.Finite cases) (F : Feature K) (hex : F.Exhaustive)
    {leafSize : Nat} (hls : 1 ≤ leafSize) (w : Work K) (hcs : ∀ c ∈ w.cases, c ∈ cases) (hne : w.cases ≠ [])
    (hF : F.Searchable w.cases) (hties : F.NoNearTies w.cases) {r : Found K} {w' : Work K}
    (he : F.search (sseTarget f) (.fin (f.sse w.cases)) leafSize false w = some (r, w')) (hr : minImp < r.imp) :
    ∃ code p, r.code = some code ∧ F.Divides p ∧ (∀ c ∈ w.cases, F.codedLeft code c = some (p c)) ∧
      leafSize ≤ (w.cases.filter p).length ∧ leafSize ≤ (w.cases.filter fun c => !p c).length ∧
      ∀ q, F.Divides q → leafSize ≤ (w.cases.filter q).length → leafSize < (w.cases.filter fun c => !q c).length →
        f.pairSquares (w.cases.filter p) + f.pairSquares (w.cases.filter fun c => !p c) ≤
          f.pairSquares (w.cases.filter q) + f.pairSquares (w.cases.filter fun c => !q c) ∧
        leafSize * f.squaredError (w.cases.filter p) (w.cases.filter fun c => !p c) ≤
          (w.cases.length - leafSize) * f.squaredError (w.cases.filter q) (w.cases.filter fun c => !q c) := by
  have hlen : (0 : K) < w.cases.length := by exact_mod_cast List.length_pos_of_ne_nil hne
  obtain ⟨h1, h2⟩ := search_greedy (sseLaws_weighted f cases hfin) F hex hls w hcs hne hF hties trivial he
    (fun p => F.RoomIn leafSize p w.cases) (fun _ => Iff.rfl) _ (fun _ => rfl)
  obtain ⟨code, p, e1, e2, e3, e4, e5⟩ := h1 hr
  have hroom : leafSize ≤ (w.cases.filter fun c => !p c).length := by
    have := e3.2
    cases F with
    | num f => exact le_of_lt this
    | cat f => exact this
  refine ⟨code, p, e1, e2, e4, e3.1, hroom, fun q hq hq1 hq2 => ?_⟩
  have hqr : F.RoomIn leafSize q w.cases := by
    refine ⟨hq1, ?_⟩
    cases F with
    | num f => exact hq2
    | cat f => exact hq2.le
  obtain ⟨x, hx, hle⟩ := h2 q hq hqr
  rw [e5] at hx
  have hx := XF.fin.inj hx
  rw [← hx, sub_le_sub_iff_left, div_le_div_iff_of_pos_right hlen] at hle
  refine ⟨?_, ?_⟩
  · rw [pairSquares_eq, pairSquares_eq, pairSquares_eq, pairSquares_eq]
    linarith
  · have hpl := filter_lengths w.cases p
    have hql := filter_lengths w.cases q
    have s1 := sse_nonneg f (w.cases.filter p)
    have s2 := sse_nonneg f (w.cases.filter fun c => !p c)
    have s3 := sse_nonneg f (w.cases.filter q)
    have s4 := sse_nonneg f (w.cases.filter fun c => !q c)
    have a1 : (leafSize : K) ≤ ((w.cases.filter p).length : K) := by exact_mod_cast e3.1
    have a2 : (leafSize : K) ≤ ((w.cases.filter fun c => !p c).length : K) := by exact_mod_cast hroom
    have a3 : ((w.cases.filter q).length : K) ≤ (w.cases.length : K) - leafSize := by
      rw [le_sub_iff_add_le]
      exact_mod_cast (by omega : (w.cases.filter q).length + leafSize ≤ w.cases.length)
    have a4 : ((w.cases.filter fun c => !q c).length : K) ≤ (w.cases.length : K) - leafSize := by
      rw [le_sub_iff_add_le]
      exact_mod_cast (by omega : (w.cases.filter fun c => !q c).length + leafSize ≤ w.cases.length)
    unfold NumFeature.squaredError
    have b1 := mul_le_mul_of_nonneg_right a1 s1
    have b2 := mul_le_mul_of_nonneg_right a2 s2
    have b3 := mul_le_mul_of_nonneg_right a3 s3
    have b4 := mul_le_mul_of_nonneg_right a4 s4
    rw [mul_add, mul_add]
    linarith

/-- Six cases with the values 1 to 6 and their targets. -/
def exSq : NumFeature ℚ := ⟨[.fin 1, .fin 2, .fin 3, .fin 4, .fin 5, .fin 6], List.replicate 6 false, "x", false⟩
@[inherit_doc exSq]
def exSqT : NumFeature ℚ := ⟨[.fin 0, .fin 3, .fin 1, .fin 1, .fin 2, .fin 2], List.replicate 6 false, "y", false⟩

theorem exSqT_finite : exSqT.Finite [0, 1, 2, 3, 4, 5] := by
  intro c hc; fin_cases hc <;> simp [exSqT]

theorem exSq_finite : exSq.Finite [0, 1, 2, 3, 4, 5] := by
  intro c hc; fin_cases hc <;> simp [exSq]

theorem exSq_ties : (Feature.num exSq).NoNearTies [0, 1, 2, 3, 4, 5] := by
  intro c hc d hd
  fin_cases hc <;> fin_cases hd <;> simp [exSq, NumFeature.value] <;> norm_num

/-- **C122 is false of the code.** The search divides at 5/2, leaving a squared error of 11/2. Dividing at 3/2, with room on
both sides, would leave 14/5. -/
theorem c122_not_least :
    ((Feature.num exSq).search (sseTarget exSqT) (.fin (exSqT.sse [0, 1, 2, 3, 4, 5])) 1 false exWork).map (·.1.code) =
      some (some (.num (.fin (5 / 2)))) ∧
    exSqT.squaredError ((Feature.num exSq).lefts (.num (.fin (5 / 2))) [0, 1, 2, 3, 4, 5])
      ((Feature.num exSq).rights (.num (.fin (5 / 2))) [0, 1, 2, 3, 4, 5]) = 11 / 2 ∧
    exSqT.squaredError ((Feature.num exSq).lefts (.num (.fin (3 / 2))) [0, 1, 2, 3, 4, 5])
      ((Feature.num exSq).rights (.num (.fin (3 / 2))) [0, 1, 2, 3, 4, 5]) = 14 / 5 := by
  decide +kernel

/-- The example meets the conditions of `c122_pairs_partial`. -/
example : ∃ r w', (Feature.num exSq).search (sseTarget exSqT) (.fin (exSqT.sse [0, 1, 2, 3, 4, 5])) 1 false exWork =
    some (r, w') ∧ minImp < r.imp := by
  obtain ⟨r, w', h, -⟩ := c10_num_search exSq (sseLaws exSqT _ exSqT_finite) exSq_finite exSq_ties
    (.fin (exSqT.sse [0, 1, 2, 3, 4, 5])) (le_refl 1) false exWork (fun _ h => h) trivial
  refine ⟨r, w', h, ?_⟩
  have e : ((Feature.num exSq).search (sseTarget exSqT) (.fin (exSqT.sse [0, 1, 2, 3, 4, 5])) 1 false exWork).map
      (·.1.imp) = some (.fin (10 / 3)) := by
    decide +kernel
  have h' : (Feature.num exSq).search (sseTarget exSqT) (.fin (exSqT.sse [0, 1, 2, 3, 4, 5])) 1 false exWork =
    some (r, w') := h
  rw [h'] at e
  have e' : r.imp = .fin (10 / 3) := Option.some.inj e
  rw [e']
  show (1 / 10000000 : ℚ) < 10 / 3
  norm_num

end CloudForest
