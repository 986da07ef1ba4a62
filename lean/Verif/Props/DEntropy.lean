import Verif.Model.DEntropy
import Verif.Props.AdaCost
import Verif.Lemmas.Values

/-!
# C110: predictions with disutilities
-/

set_option linter.unusedSectionVars false

namespace CloudForest
variable {K : Type} [Field K] [LinearOrder K] [IsStrictOrderedRing K]

/-- The cost of all cases whose class satisfies `p`. -/
def costOf (f : CatFeature) (x : Nat → K) (cases : List Nat) (p : Nat → Bool) : K :=
  ((cases.filter fun c => p (f.cat c)).map fun c => x (f.cat c)).sum

/-- The prediction in closed form. -/
theorem dEntropyPredict_eq (x : Nat → K) (f : CatFeature) (cases : List Nat) (h : f.InRange f.cm.nCats cases) :
    dEntropyPredict (finList f.cm.nCats x) f cases =
      some (.fin (costOf f x cases fun k => k == (f.cm.catToNum "True").1) / .fin (costOf f x cases fun _ => true),
        { f with cm := (f.cm.catToNum "True").2 }) := by
  unfold dEntropyPredict
  simp only
  generalize (f.cm.catToNum "True").1 = t
  have key : ∀ (cs : List Nat) (a b : K), (∀ c ∈ cs, c ∈ cases) →
      cs.foldlM (fun (acc : XF K × XF K) i => do
        let ti ← f.catData[i]?
        let cost ← (finList f.cm.nCats x)[ti]?
        some (if ti = t then acc.1 + cost else acc.1, acc.2 + cost)) (.fin a, .fin b) =
      some (.fin (a + costOf f x cs fun k => k == t), .fin (b + costOf f x cs fun _ => true)) := by
    intro cs
    induction cs with
    | nil => intro a b _; simp [costOf]
    | cons c cs ih =>
      intro a b hcs
      obtain ⟨k, hk, hkn⟩ := h c (hcs c (by simp))
      rw [List.foldlM_cons, hk]
      simp only [Option.bind_eq_bind, Option.bind_some, finList_get x hkn]
      have hcat := cat_of_get hk
      by_cases hkt : k = t
      · rw [if_pos hkt]
        refine (ih (a + x k) (b + x k) fun y hy => hcs y (by simp [hy])).trans ?_
        simp [costOf, hcat, hkt, add_assoc]
      · rw [if_neg hkt]
        refine (ih a (b + x k) fun y hy => hcs y (by simp [hy])).trans ?_
        simp [costOf, hcat, hkt, add_assoc]
  rw [key cases 0 0 fun c h => h]
  simp

/-- **C110**, the part that holds: if the class "True" exists, no class is missing in the leaf, and the costs are not
negative and not all zero, then the leaf predicts the share of "True" in the cost of its cases, a number from 0 to 1, and
the feature is left as it was. -/
theorem c110_share_partial (x : Nat → K) (f : CatFeature) (cases : List Nat) (h : f.InRange f.cm.nCats cases)
    (hx : ∀ k < f.cm.nCats, 0 ≤ x k) (t : Nat) (ht : f.cm.map "True" = some t)
    (hpos : 0 < costOf f x cases fun _ => true) :
    dEntropyPredict (finList f.cm.nCats x) f cases =
      some (.fin (costOf f x cases (fun k => k == t) / costOf f x cases fun _ => true), f) ∧
    0 ≤ costOf f x cases (fun k => k == t) / costOf f x cases (fun _ => true) ∧
    costOf f x cases (fun k => k == t) / costOf f x cases (fun _ => true) ≤ 1 := by
  have hc : f.cm.catToNum "True" = (t, f.cm) := by simp [CatMap.catToNum, ht]
  have hterm : ∀ (cs : List Nat), (∀ c ∈ cs, c ∈ cases) →
      0 ≤ costOf f x cs (fun k => k == t) ∧ costOf f x cs (fun k => k == t) ≤ costOf f x cs fun _ => true := by
    intro cs
    induction cs with
    | nil => intro _; simp [costOf]
    | cons c cs ih =>
      intro hcs
      obtain ⟨h1, h2⟩ := ih fun y hy => hcs y (by simp [hy])
      obtain ⟨k, hk, hkn⟩ := h c (hcs c (by simp))
      have hx0 := hx k hkn
      have hcat := cat_of_get hk
      have hall : costOf f x (c :: cs) (fun _ => true) = x k + costOf f x cs fun _ => true := by simp [costOf, hcat]
      by_cases hkt : k = t
      · have : costOf f x (c :: cs) (fun k => k == t) = x k + costOf f x cs fun k => k == t := by
          simp [costOf, hcat, hkt]
        rw [this, hall]
        exact ⟨add_nonneg hx0 h1, add_le_add_right h2 _⟩
      · have : costOf f x (c :: cs) (fun k => k == t) = costOf f x cs fun k => k == t := by
          simp [costOf, hcat, hkt]
        rw [this, hall]
        exact ⟨h1, h2.trans (le_add_of_nonneg_left hx0)⟩
  obtain ⟨h1, h2⟩ := hterm cases fun c h => h
  refine ⟨?_, div_nonneg h1 hpos.le, (div_le_one hpos).2 h2⟩
  rw [dEntropyPredict_eq x f cases h, hc]
  simp only [XF.fin_div _ hpos.ne']

/-- **C110 is false of the code** where the costs in a leaf are all zero, as for classes that are not mentioned in
`-dentropy`: the leaf predicts "NaN". -/
theorem c110_zero (x : Nat → K) (f : CatFeature) (cases : List Nat) (h : f.InRange f.cm.nCats cases)
    (hx : ∀ c ∈ cases, x (f.cat c) = 0) :
    ∃ f', dEntropyPredict (finList f.cm.nCats x) f cases = some (.nan, f') := by
  have hz : ∀ p : Nat → Bool, costOf f x cases p = 0 := by
    intro p
    unfold costOf
    have : ((cases.filter fun c => p (f.cat c)).map fun c => x (f.cat c)) =
        (cases.filter fun c => p (f.cat c)).map fun _ => 0 :=
      List.map_congr_left fun c hc => hx c (List.mem_filter.1 hc).1
    rw [this]
    simp
  refine ⟨{ f with cm := (f.cm.catToNum "True").2 }, (dEntropyPredict_eq x f cases h).trans ?_⟩
  rw [hz, hz]
  have : (XF.fin 0 / XF.fin 0 : XF K) = .nan := by
    show XF.div (.fin 0) (.fin 0) = _
    simp [XF.div, XF.infTimes]
  rw [this]

/-- **C110 is false of the code** for a target without the class "True": every leaf predicts 0 for it, and predicting
gives the target another category, which no case has. -/
theorem c110_no_true (x : Nat → K) (f : CatFeature) (hb : f.cm.WF)
    (cases : List Nat) (h : f.InRange f.cm.nCats cases) (ht : "True" ∉ f.cm.back)
    (hpos : 0 < costOf f x cases fun _ => true) :
    ∃ f', dEntropyPredict (finList f.cm.nCats x) f cases = some (.fin 0, f') ∧ f'.cm.nCats = f.cm.nCats + 1 ∧
      f'.cm.back = f.cm.back ++ ["True"] := by
  have hm : f.cm.map "True" = none := by
    cases e : f.cm.map "True" with
    | none => rfl
    | some k => exact absurd (List.mem_of_getElem? ((hb "True" k).1 e)) ht
  have hc : (f.cm.catToNum "True").1 = f.cm.nCats := by simp [CatMap.catToNum, hm, CatMap.nCats]
  have hc2 : (f.cm.catToNum "True").2.back = f.cm.back ++ ["True"] := by simp [CatMap.catToNum, hm]
  have hz : costOf f x cases (fun k => k == f.cm.nCats) = 0 := by
    unfold costOf
    have : (cases.filter fun c => f.cat c == f.cm.nCats) = [] := by
      rw [List.filter_eq_nil_iff]
      intro c hcs
      obtain ⟨k, hk, hkn⟩ := h c hcs
      rw [cat_of_get hk]
      simp
      omega
    rw [this]
    rfl
  refine ⟨{ f with cm := (f.cm.catToNum "True").2 }, (dEntropyPredict_eq x f cases h).trans ?_, ?_, hc2⟩
  · rw [hc, hz, XF.fin_div _ hpos.ne', zero_div]
  · simp [CatMap.nCats, hc2]

/-- **C110 is false of the code** for missing classes: case 1 is unknown, but counts as one of the first class, here
"True". -/
theorem c110_missing :
    let f : CatFeature := ["True", "NA", "False"].foldl (fun f v => f.append v) (.new "C:y")
    f.missing = [false, true, false] ∧
    (dEntropyPredict [.fin (1 : ℚ), .fin 1] f [0, 1, 2]).map (·.1) = some (.fin (2 / 3)) ∧
    (dEntropyPredict [.fin (1 : ℚ), .fin 1] f [0, 2]).map (·.1) = some (.fin (1 / 2)) := by decide +kernel

/-! ## Examples -/

/-- True, False, False. -/
def exTruth : CatFeature := ["True", "False", "False"].foldl (fun f v => f.append v) (.new "C:y")

theorem exTruth_range : exTruth.InRange exTruth.cm.nCats [0, 1, 2] := by
  intro c hc
  have : c < 3 := by simp at hc; omega
  interval_cases c <;> exact ⟨_, rfl, by decide +kernel⟩

example : dEntropyPredict (finList 2 fun k => if k = 0 then (2 : ℚ) else 1) exTruth [0, 1, 2] =
    some (.fin (1 / 2), exTruth) := by
  have e : costOf exTruth (fun k => if k = 0 then (2 : ℚ) else 1) [0, 1, 2] (fun _ => true) = 4 := by decide +kernel
  have e2 : costOf exTruth (fun k => if k = 0 then (2 : ℚ) else 1) [0, 1, 2] (fun k => k == 0) = 2 := by decide +kernel
  have h := (c110_share_partial (fun k => if k = 0 then (2 : ℚ) else 1) exTruth [0, 1, 2] exTruth_range
    (fun k _ => by split <;> norm_num) 0 (by decide +kernel) (by rw [e]; norm_num)).1
  rw [e, e2] at h
  exact h.trans (by norm_num)

example : ∃ f', dEntropyPredict (finList 2 fun _ => (0 : ℚ)) exTruth [0, 1, 2] = some (.nan, f') :=
  c110_zero (fun _ => (0 : ℚ)) exTruth [0, 1, 2] exTruth_range fun _ _ => rfl

/-- no, yes, no. -/
def exNoTruth : CatFeature := ["no", "yes", "no"].foldl (fun f v => f.append v) (.new "C:y")

example : ∃ f', dEntropyPredict (finList 2 fun _ => (1 : ℚ)) exNoTruth [0, 1, 2] = some (.fin 0, f') ∧
    f'.cm.nCats = 3 ∧ f'.cm.back = ["no", "yes", "True"] :=
  c110_no_true (fun _ => (1 : ℚ)) exNoTruth ((((consistent_new "C:y").append "no").append "yes").append "no").map [0, 1, 2]
    (by
      intro c hc
      have : c < 3 := by simp at hc; omega
      interval_cases c <;> exact ⟨_, rfl, by decide +kernel⟩)
    (by decide +kernel) (by decide +kernel)

example : (dEntropyPredict [.fin (1 : ℚ), .fin 1] exNoTruth [0, 1, 2]).map (fun r => (r.1, r.2.cm.back)) =
    some (.fin 0, ["no", "yes", "True"]) := by decide +kernel

end CloudForest
