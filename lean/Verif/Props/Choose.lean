import Verif.Model.Choose

/-!
# C107, C108: the choice of target
-/

namespace CloudForest

/-! ## Specification -/

/-- The kinds of target that options ask for, for a target that is numeric or not. `-density` is for either. -/
def TargetOptions.asked (o : TargetOptions) (numeric : Bool) : List TargetKind :=
  let all : List (Bool × TargetKind) := if numeric then
      [(o.density, .density), (o.l1, .l1), (o.ordinal, .ordinal), (o.gbt, .gradBoost), (o.adaboost, .numAda)]
    else [(o.density, .density), (o.np, .np), (o.costs, .regret), (o.dentropy, .dEntropy), (o.adacost, .adaCost),
      (o.rfweights, .wrf), (o.entropy, .entropy), (o.adaboost, .ada), (o.hellinger, .hellinger), (o.gbt, .gradClass),
      (o.unlabeled, .trans)]
  (all.filter (·.1)).map (·.2)

/-- Which options exclude each other: all but those that wrap what others made. -/
def TargetKind.exclusive : TargetKind → Bool
  | .l1 | .ordinal | .trans => false
  | _ => true

/-! ## C107 -/

/-- **C107**, the part that holds: with `-gbt` and no option that takes precedence, `Boost` of a gradient boosting target
is called after each tree; without `-gbt` and `-adaboost` nothing is. -/
theorem c107_gbt_partial (o : TargetOptions) (numeric : Bool) :
    (o.gbt = true → o.density = false → (numeric = false → o.asked numeric = [.gradClass]) →
      o.afterTree numeric = some (some (if numeric then .gradBoost else .gradClass))) ∧
    (o.gbt = false → o.adaboost = false → o.afterTree numeric = some none) := by
  obtain ⟨d, l, r, g, a, n, c, e, ac, w, en, h, u⟩ := o
  refine ⟨?_, ?_⟩
  · rintro rfl rfl hq
    cases numeric
    · have key : ∀ a n c e ac w en h u : Bool,
          let o : TargetOptions := ⟨false, false, false, true, a, n, c, e, ac, w, en, h, u⟩
          o.asked false = [.gradClass] → o.afterTree false = some (some .gradClass) := by decide +kernel
      exact key a n c e ac w en h u (hq rfl)
    · simp [TargetOptions.afterTree, TargetOptions.boost, TargetOptions.targetf, switchTrue,
        TargetKind.implementsBoosting]
  · rintro rfl rfl
    rfl

/-- **C107 is false of the code**: `-adaboost` without `-gbt` panics after the first tree, whatever else is given. -/
theorem c107_adaboost (o : TargetOptions) (numeric : Bool) (h : o.adaboost = true) (hg : o.gbt = false) :
    o.afterTree numeric = none := by
  obtain ⟨d, l, r, g, a, n, c, e, ac, w, en, hl, u⟩ := o
  subst h hg
  cases numeric
  · have key : ∀ d n c e ac w en h u : Bool,
        let o : TargetOptions := ⟨d, false, false, false, true, n, c, e, ac, w, en, h, u⟩
        o.afterTree false = none := by decide +kernel
    exact key d n c e ac w en hl u
  · cases d <;> cases l <;> cases r <;> rfl

/-- Nor is an adaptive boosting target boosted by `GrowRandomForest`, which says nothing. -/
theorem c107_library (k : TargetKind) : afterTreeLibrary k = none ↔ k ≠ .gradBoost ∧ k ≠ .gradClass := by
  cases k <;> simp [afterTreeLibrary, TargetKind.implementsBoosting]

/-- **C107 is false of the code**: `-adacost` never boosts. Alone it does not ask for boosting, and with `-adaboost` or
`-gbt` the program panics. -/
theorem c107_adacost (o : TargetOptions) (hd : o.density = false) (hu : o.unlabeled = false)
    (h : (o.asked false).head? = some .adaCost) :
    (o.targetf false).head? = some .adaCost ∧ o.afterTree false = if o.boost then none else some none := by
  obtain ⟨d, l, r, g, a, n, c, e, ac, w, en, hl, u⟩ := o
  subst hd hu
  revert h
  cases n <;> cases c <;> cases e <;> cases ac <;>
    simp [TargetOptions.asked, TargetOptions.afterTree, TargetOptions.targetf, switchTrue,
      TargetKind.implementsBoosting] <;>
    cases w <;> cases en <;> cases a <;> cases hl <;> cases g <;> simp

/-! ## C108 -/

/-- **C108**, the part that holds and no more: all that is asked for is used exactly if no two options exclude each
other, and `-density` is alone. -/
theorem c108_used_partial (o : TargetOptions) (numeric : Bool) :
    (∀ k ∈ o.asked numeric, k ∈ o.target numeric) ↔
      ((o.asked numeric).filter TargetKind.exclusive).length ≤ 1 ∧ (o.density = true → (o.asked numeric).length = 1) := by
  obtain ⟨d, l, r, g, a, n, c, e, ac, w, en, h, u⟩ := o
  cases numeric
  · have key : ∀ d g a n c e ac w en h u : Bool,
        let o : TargetOptions := ⟨d, false, false, g, a, n, c, e, ac, w, en, h, u⟩
        (∀ k ∈ o.asked false, k ∈ o.target false) ↔ ((o.asked false).filter TargetKind.exclusive).length ≤ 1 ∧
          (o.density = true → (o.asked false).length = 1) := by decide +kernel
    exact key d g a n c e ac w en h u
  · have key : ∀ d l r g a : Bool,
        let o : TargetOptions := ⟨d, l, r, g, a, false, false, false, false, false, false, false, false⟩
        (∀ k ∈ o.asked true, k ∈ o.target true) ↔ ((o.asked true).filter TargetKind.exclusive).length ≤ 1 ∧
          (o.density = true → (o.asked true).length = 1) := by decide +kernel
    exact key d l r g a

/-- **C108 is false of the code**: no error is reported; of two options that exclude each other one is silently ignored.
Here misclassification costs and entropy. -/
theorem c108_ignored (o : TargetOptions) (hd : o.density = false) (hn : o.np = false) (hc : o.costs = true) :
    .entropy ∉ o.target false ∧ .ada ∉ o.target false ∧ .gradClass ∉ o.target false := by
  obtain ⟨d, l, r, g, a, n, c, e, ac, w, en, h, u⟩ := o
  subst hd hn hc
  cases u <;> simp [TargetOptions.target, TargetOptions.targetf, switchTrue]

example : ({ gbt := true, l1 := true } : TargetOptions).afterTree true = some (some .gradBoost) :=
  (c107_gbt_partial { gbt := true, l1 := true } true).1 rfl rfl (by decide)

example : ({ gbt := true } : TargetOptions).afterTree false = some (some .gradClass) :=
  (c107_gbt_partial { gbt := true } false).1 rfl rfl (by decide)

example : ({ adaboost := true } : TargetOptions).afterTree false = none := c107_adaboost _ _ rfl rfl

example : ({ adacost := true } : TargetOptions).afterTree false = some none :=
  (c107_adacost { adacost := true } rfl rfl rfl).2

example : ({ entropy := true, unlabeled := true } : TargetOptions).target false = [.trans, .entropy, .cat] := rfl

example : ∀ k ∈ ({ entropy := true, unlabeled := true } : TargetOptions).asked false,
    k ∈ ({ entropy := true, unlabeled := true } : TargetOptions).target false :=
  (c108_used_partial _ _).2 (by decide)

example : .entropy ∈ ({ entropy := true, costs := true } : TargetOptions).asked false ∧
    .entropy ∉ ({ entropy := true, costs := true } : TargetOptions).target false :=
  ⟨by decide, (c108_ignored _ rfl rfl rfl).1⟩

end CloudForest
