import Verif.Spec.DensityTree
import Verif.Props.Density
import Verif.Props.Splitter
import Mathlib.Tactic.Ring
import Mathlib.Tactic.FieldSimp
import Mathlib.Tactic.Positivity
import Mathlib.Tactic.Linarith

/-!
# C142: density trees divide where the density differs
-/

set_option linter.unusedSectionVars false

namespace CloudForest
variable {K : Type} [Field K] [LinearOrder K] [IsStrictOrderedRing K]

theorem Celled.cells_pos {features : List (Feature K)} {cases : List Nat} (h : Celled features cases) :
    0 < cellsOf features cases := by
  have := h.known
  unfold cellsOf
  clear h
  induction features with
  | nil => simp
  | cons f fs ih =>
    rw [List.map_cons, List.prod_cons]
    exact Nat.mul_pos (this f (by simp)) (ih fun g hg => this g (by simp [hg]))

theorem Celled.impurity {features : List (Feature K)} {cases : List Nat} (h : Celled features cases) (n : Nat)
    (hn : n ≠ 0) : densityImpurity features n cases = some (.fin (-detLoss features n cases)) := by
  have h0 : (n : K) ≠ 0 := Nat.cast_ne_zero.2 hn
  have hv : (cellsOf features cases : K) ≠ 0 := Nat.cast_ne_zero.2 h.cells_pos.ne'
  rw [(c86_categorical_partial features n hn cases h.fits h.cat h.known).1, detLoss, neg_neg]
  congr 2
  change ((cases.length : K) / n) ^ 2 / (cellsOf features cases : K) = _
  field_simp

/-- **C142**, what the code does: the gain it finds in a division into `l` and `r` of categorical features is the loss
of the paper with the opposite sign, and the children count by their sizes. -/
theorem c142_gain (features : List (Feature K)) (n : Nat) (hn : n ≠ 0) (cases l r : List Nat) (a : Allocs K)
    (hc : Celled features cases) (hl : Celled features l) (hr : Celled features r)
    (hne : l.length + r.length ≠ 0) :
    densityGain features n cases l r none a = some (.fin
      (((l.length : K) * detLoss features n l + (r.length : K) * detLoss features n r) / ((l.length : K) + r.length) -
        detLoss features n cases)) := by
  have hs : (l.length : K) + (r.length : K) ≠ 0 := by
    rw [← Nat.cast_add]
    exact Nat.cast_ne_zero.2 hne
  have hnn : ¬ -detLoss features n cases < 0 := by
    rw [not_lt, detLoss, neg_neg]
    positivity
  simp only [densityGain, densityTarget, anewTarget, anewSplit, hc.impurity n hn, hl.impurity n hn, hr.impurity n hn,
    missBlock, Option.map_some, Option.bind_eq_bind, Option.bind_some, Option.getD_none, List.length_nil,
    lt_irrefl, if_false, XF.ofNat]
  rw [XF.fin_mul, XF.fin_mul, XF.fin_add, XF.fin_add, XF.fin_add, XF.fin_div _ (by rwa [add_zero]), gain,
    if_neg (by rwa [XF.fin_lt]), XF.fin_sub]
  congr 2
  rw [add_zero]
  ring

/-- What the paper's gain is there for: it is never negative when the cells of the children are among those of the
node, and zero when the density is the same on either side. -/
theorem det_gain_nonneg (features : List (Feature K)) (n : Nat) (hn : n ≠ 0) (cases l r : List Nat)
    (hl : Celled features l) (hr : Celled features r) (hlen : cases.length = l.length + r.length)
    (hcells : cellsOf features l + cellsOf features r ≤ cellsOf features cases) :
    0 ≤ detGain features n cases l r := by
  have h0 : (0 : K) < n := Nat.cast_pos.2 (Nat.pos_of_ne_zero hn)
  have v1 : (0 : K) < cellsOf features l := Nat.cast_pos.2 hl.cells_pos
  have v2 : (0 : K) < cellsOf features r := Nat.cast_pos.2 hr.cells_pos
  have hv : (cellsOf features l : K) + cellsOf features r ≤ cellsOf features cases := by exact_mod_cast hcells
  have hlen' : (cases.length : K) = l.length + r.length := by exact_mod_cast hlen
  unfold detGain detLoss
  rw [hlen']
  generalize (cellsOf features l : K) = V1 at *
  generalize (cellsOf features r : K) = V2 at *
  generalize (cellsOf features cases : K) = V at *
  generalize (l.length : K) = x
  generalize (r.length : K) = y
  generalize (n : K) = N at *
  have hV : 0 < V := lt_of_lt_of_le (add_pos v1 v2) hv
  have e1 : (x + y) ^ 2 / (N ^ 2 * V) ≤ (x + y) ^ 2 / (N ^ 2 * (V1 + V2)) := by
    apply div_le_div_of_nonneg_left (by positivity) (by positivity)
    exact mul_le_mul_of_nonneg_left hv (by positivity)
  have e2 : x ^ 2 / (N ^ 2 * V1) + y ^ 2 / (N ^ 2 * V2) - (x + y) ^ 2 / (N ^ 2 * (V1 + V2)) =
      (x * V2 - y * V1) ^ 2 / (N ^ 2 * V1 * V2 * (V1 + V2)) := by
    have : V1 + V2 ≠ 0 := (add_pos v1 v2).ne'
    field_simp
    ring
  have e3 : 0 ≤ (x * V2 - y * V1) ^ 2 / (N ^ 2 * V1 * V2 * (V1 + V2)) := by positivity
  linarith

/-- **C142** is false of the code: where the density is the same in both children as in the node there is nothing to
find, and the paper's gain is zero. The code's gain is 2 d |l| |r| / (n |t|), which is positive. -/
theorem c142_equal_density (features : List (Feature K)) (n : Nat) (hn : n ≠ 0) (cases l r : List Nat) (a : Allocs K)
    (hc : Celled features cases) (hl : Celled features l) (hr : Celled features r) (h1 : l ≠ []) (h2 : r ≠ [])
    (hlen : cases.length = l.length + r.length) (d : K) (hdc : detDensity features n cases = d)
    (hdl : detDensity features n l = d) (hdr : detDensity features n r = d) :
    detGain features n cases l r = 0 ∧
    densityGain features n cases l r none a =
      some (.fin (2 * d * (l.length : K) * r.length / ((n : K) * cases.length))) ∧
    0 < 2 * d * (l.length : K) * r.length / ((n : K) * cases.length) := by
  have h0 : (0 : K) < n := Nat.cast_pos.2 (Nat.pos_of_ne_zero hn)
  have p1 : (0 : K) < l.length := Nat.cast_pos.2 (List.length_pos_iff.2 h1)
  have p2 : (0 : K) < r.length := Nat.cast_pos.2 (List.length_pos_iff.2 h2)
  have hlen' : (cases.length : K) = l.length + r.length := by exact_mod_cast hlen
  have key : ∀ t : List Nat, Celled features t → detDensity features n t = d →
      detLoss features n t = -((t.length : K) * d / n) := by
    intro t ht hd
    have hv : (cellsOf features t : K) ≠ 0 := Nat.cast_ne_zero.2 ht.cells_pos.ne'
    rw [← hd, detLoss, detDensity]
    field_simp
  have hd : 0 < d := by
    rw [← hdl, detDensity]
    have hv : (0 : K) < cellsOf features l := Nat.cast_pos.2 hl.cells_pos
    positivity
  refine ⟨?_, ?_, by rw [hlen']; positivity⟩
  · rw [detGain, key _ hc hdc, key _ hl hdl, key _ hr hdr, hlen']
    ring
  · rw [c142_gain features n hn cases l r a hc hl hr (by
      have := List.length_pos_iff.2 h1
      omega), key _ hc hdc, key _ hl hdl, key _ hr hdr, hlen']
    congr 2
    have : (l.length : K) + r.length ≠ 0 := (add_pos p1 p2).ne'
    field_simp
    ring

/-- **C142** is reversed in the code: of the divisions of a node into halves of equal volume, the code's gain is a
constant less one and a half times the paper's. So it is greatest where the densities are equal, and a division into
halves is worth more to the code just when it is worth less in the paper. -/
theorem c142_halves (features : List (Feature K)) (n : Nat) (hn : n ≠ 0) (cases l r : List Nat) (a : Allocs K)
    (hc : Celled features cases) (hl : Celled features l) (hr : Celled features r) (h1 : l ≠ [])
    (hlen : cases.length = l.length + r.length) (hvl : 2 * cellsOf features l = cellsOf features cases)
    (hvr : 2 * cellsOf features r = cellsOf features cases) :
    densityGain features n cases l r none a = some (.fin
      ((cases.length : K) ^ 2 / (2 * (n : K) ^ 2 * (cellsOf features cases : K)) -
        3 / 2 * detGain features n cases l r)) := by
  have h0 : (0 : K) < n := Nat.cast_pos.2 (Nat.pos_of_ne_zero hn)
  have p1 : (0 : K) < l.length := Nat.cast_pos.2 (List.length_pos_iff.2 h1)
  have p2 : (0 : K) ≤ r.length := Nat.cast_nonneg _
  have hlen' : (cases.length : K) = l.length + r.length := by exact_mod_cast hlen
  have v1 : (0 : K) < cellsOf features l := Nat.cast_pos.2 hl.cells_pos
  have e1 : (cellsOf features cases : K) = 2 * cellsOf features l := by exact_mod_cast hvl.symm
  have e2 : cellsOf features r = cellsOf features l := by omega
  rw [c142_gain features n hn cases l r a hc hl hr (by
    have := List.length_pos_iff.2 h1
    omega)]
  congr 2
  rw [detGain, detLoss, detLoss, detLoss, e1, e2, hlen']
  have : (l.length : K) + r.length ≠ 0 := (by positivity : (0 : K) < l.length + r.length).ne'
  field_simp
  ring

/-! ## Examples and the search -/

/-- A feature that knows the categories a, b and c and is known everywhere. -/
def exGrain (name : String) (data : List Nat) : CatFeature where
  cm := ⟨fun s => if s = "a" then some 0 else if s = "b" then some 1 else if s = "c" then some 2 else none,
    ["a", "b", "c"]⟩
  catData := data
  missing := data.map fun _ => false
  name := name
  hasMissing := false
  randomSearch := true

theorem exGrain_fits (name : String) (data : List Nat) (h3 : ∀ k ∈ data, k < 3) (cases : List Nat)
    (h : ∀ c ∈ cases, c < data.length) : (Feature.cat (exGrain name data) : Feature ℚ).Fits cases := by
  refine ⟨fun c hc => by simpa [exGrain] using h c hc, fun c hc => ?_⟩
  have hlt : c < data.length := h c (mem_knownOf.1 hc).1
  exact ⟨data[c], by simp [exGrain, hlt], h3 _ (List.getElem_mem hlt)⟩

/-- Two features over four cases, every pair of categories once: as even as can be. -/
def exGrid : List (Feature ℚ) := [.cat (exGrain "C:u" [0, 0, 1, 1]), .cat (exGrain "C:v" [0, 1, 0, 1])]

theorem exGrid_celled (cases : List Nat) (h : ∀ c ∈ cases, c < 4) (hu : 0 < (Feature.spread cases : Feature ℚ → Nat)
      (.cat (exGrain "C:u" [0, 0, 1, 1])))
    (hv : 0 < (Feature.spread cases : Feature ℚ → Nat) (.cat (exGrain "C:v" [0, 1, 0, 1]))) : Celled exGrid cases := by
  refine ⟨fun f hf => ?_, fun f hf => ?_, fun f hf => ?_⟩ <;>
    rcases List.mem_cons.1 hf with rfl | hf
  · exact exGrain_fits _ _ (by decide) _ h
  · rw [List.mem_singleton.1 hf]
    exact exGrain_fits _ _ (by decide) _ h
  · rfl
  · rw [List.mem_singleton.1 hf]
    rfl
  · exact hu
  · rw [List.mem_singleton.1 hf]
    exact hv

/-- The even table meets the hypotheses of all three theorems, divided by its first feature. The paper's gain is zero
and the code's is one eighth. -/
example : Celled exGrid [0, 1, 2, 3] ∧ Celled exGrid [0, 1] ∧ Celled exGrid [2, 3] ∧
    detDensity exGrid 4 [0, 1, 2, 3] = 1 / 4 ∧ detDensity exGrid 4 [0, 1] = 1 / 4 ∧ detDensity exGrid 4 [2, 3] = 1 / 4 ∧
    2 * cellsOf exGrid [0, 1] = cellsOf exGrid [0, 1, 2, 3] ∧ 2 * cellsOf exGrid [2, 3] = cellsOf exGrid [0, 1, 2, 3] ∧
    detGain exGrid 4 [0, 1, 2, 3] [0, 1] [2, 3] = 0 ∧
    densityGain exGrid 4 [0, 1, 2, 3] [0, 1] [2, 3] none exAllocs = some (.fin (1 / 8)) :=
  ⟨exGrid_celled _ (by decide) (by decide +kernel) (by decide +kernel),
    exGrid_celled _ (by decide) (by decide +kernel) (by decide +kernel),
    exGrid_celled _ (by decide) (by decide +kernel) (by decide +kernel), by decide +kernel, by decide +kernel,
    by decide +kernel, by decide +kernel, by decide +kernel, by decide +kernel, by decide +kernel⟩

/-- One case of a, one of b and four of c. -/
def exPile : CatFeature := exGrain "C:w" [0, 1, 2, 2, 2, 2]

/-- **C142** is false of the search as a whole: with one case of each of two categories and four of a third, the
paper's gain is greatest where the third category is divided from the other two, which leaves no more differences. The
search divides the first category from the rest. -/
theorem c142_wrong_division :
    (∃ w, (Feature.cat exPile : Feature ℚ).search (densityTarget [.cat exPile] 6) (.fin (1 / 3)) 1 false
      ⟨[0, 1, 2, 3, 4, 5], exAllocs, fun _ => 0⟩ = some (⟨some (.int 1), .fin (17 / 432), false⟩, w)) ∧
    densityImpurity [Feature.cat exPile] 6 [0, 1, 2, 3, 4, 5] = some (.fin (1 / 3 : ℚ)) ∧
    densityGain [Feature.cat exPile] 6 [0, 1, 2, 3, 4, 5] [0] [1, 2, 3, 4, 5] none exAllocs =
      some (.fin (17 / 432 : ℚ)) ∧
    densityGain [Feature.cat exPile] 6 [0, 1, 2, 3, 4, 5] [2, 3, 4, 5] [0, 1] none exAllocs =
      some (.fin (1 / 54 : ℚ)) ∧
    detGain [(Feature.cat exPile : Feature ℚ)] 6 [0, 1, 2, 3, 4, 5] [0] [1, 2, 3, 4, 5] <
      detGain [Feature.cat exPile] 6 [0, 1, 2, 3, 4, 5] [2, 3, 4, 5] [0, 1] ∧
    detGain [(Feature.cat exPile : Feature ℚ)] 6 [0, 1, 2, 3, 4, 5] [1] [0, 2, 3, 4, 5] <
      detGain [Feature.cat exPile] 6 [0, 1, 2, 3, 4, 5] [2, 3, 4, 5] [0, 1] := by
  refine ⟨?_, by decide +kernel, by decide +kernel, by decide +kernel, by decide +kernel, by decide +kernel⟩
  have h : ((Feature.cat exPile : Feature ℚ).search (densityTarget [.cat exPile] 6) (.fin (1 / 3)) 1 false
      ⟨[0, 1, 2, 3, 4, 5], exAllocs, fun _ => 0⟩).any
        (fun q => decide (q.1 = ⟨some (.int 1), .fin (17 / 432), false⟩)) = true := by decide +kernel
  obtain ⟨⟨q, w⟩, e, hq⟩ := (Option.any_eq_true _ _).1 h
  have h' : q = ⟨some (.int 1), .fin (17 / 432), false⟩ := of_decide_eq_true hq
  exact ⟨w, by rw [e, h']⟩

end CloudForest
