import Verif.Model.XF

namespace CloudForest
namespace XF
variable {K : Type} [LinearOrder K]

theorem le_def (a b : XF K) : (a ≤ b) = le a b := rfl
theorem lt_def (a b : XF K) : (a < b) = lt a b := rfl

theorem le_refl' {a : XF K} (h : a ≠ nan) : a ≤ a := by
  cases a <;> simp_all [le_def, le]

theorem le_trans' {a b c : XF K} (h1 : a ≤ b) (h2 : b ≤ c) : a ≤ c := by
  simp only [le_def] at *
  cases a <;> cases b <;> cases c <;> simp_all [le]
  exact le_trans h1 h2

theorem le_of_lt' {a b : XF K} (h : a < b) : a ≤ b := by
  simp only [le_def, lt_def] at *
  cases a <;> cases b <;> simp_all [le, lt]
  exact le_of_lt h

theorem le_of_not_lt' {a b : XF K} (ha : a ≠ nan) (hb : b ≠ nan) (h : ¬ a < b) : b ≤ a := by
  simp only [le_def, lt_def] at *
  cases a <;> cases b <;> simp_all [le, lt]

theorem lt_of_not_le' {a b : XF K} (ha : a ≠ nan) (hb : b ≠ nan) (h : ¬ a ≤ b) : b < a := by
  simp only [le_def, lt_def] at *
  cases a <;> cases b <;> simp_all [le, lt]

theorem not_lt_of_le' {a b : XF K} (h : a ≤ b) : ¬ b < a := by
  simp only [le_def, lt_def] at *
  cases a <;> cases b <;> simp_all [le, lt]

theorem lt_irrefl' (a : XF K) : ¬ a < a := by
  simp only [lt_def]
  cases a <;> simp [lt]

theorem lt_of_le_of_lt' {a b c : XF K} (h1 : a ≤ b) (h2 : b < c) : a < c := by
  simp only [le_def, lt_def] at *
  cases a <;> cases b <;> cases c <;> simp_all [le, lt]
  exact lt_of_le_of_lt h1 h2

theorem lt_of_lt_of_le' {a b c : XF K} (h1 : a < b) (h2 : b ≤ c) : a < c := by
  simp only [le_def, lt_def] at *
  cases a <;> cases b <;> cases c <;> simp_all [le, lt]
  exact lt_of_lt_of_le h1 h2

theorem lt_trans' {a b c : XF K} (h1 : a < b) (h2 : b < c) : a < c :=
  lt_of_lt_of_le' h1 (le_of_lt' h2)

theorem lt_of_not_lt_of_not_eq {a b : XF K} (ha : a ≠ nan) (hb : b ≠ nan) (h : ¬ a < b)
    (he : ¬ feq b a) : b < a := by
  unfold feq at he
  simp only [lt_def] at *
  cases a <;> cases b <;> simp_all [lt]
  exact lt_of_le_of_ne h he

end XF
end CloudForest
