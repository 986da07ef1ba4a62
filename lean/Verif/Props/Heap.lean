import Verif.Lemmas.Heap

/-!
# Property C33: copies are equal to and independent of the original
-/

set_option linter.unusedSectionVars false

namespace CloudForest
variable {K : Type} [Field K] [LinearOrder K] [IsStrictOrderedRing K]

/-- **C33, numerical features are independent of their copies.** `Copy` leaves the original as it
was. From then on, under any program of changes to either, each of the two behaves as a value
of its own: it ends up as if only the changes to it had been made, and the program panics only
if one of the two sequences does. `grow` is the way `append` chooses new capacities.

Missing from the full property: the copy is not equal to the original, as `Copy` does not keep
`HasMissing`; see `c33_num_flag`. -/
theorem c33_num_partial (nt : NumText K) (grow : Nat → Nat) (m : HeapMem K) (o : NumObj) (h : o.OK m)
    (prog : List (Bool × FeatureOp K)) :
    o.view (o.copy m).1 = o.view m ∧
    (o.copy m).2.view (o.copy m).1 = { o.view m with hasMissing := false } ∧
    (runPair (fun m o op => o.exec nt grow m op) prog (o.copy m).1 o (o.copy m).2).map
        (fun r => (Feature.num (r.2.1.view r.1), Feature.num (r.2.2.view r.1))) =
      (do let x ← applyAll nt (.num (o.view m)) (changesTo true prog)
          let y ← applyAll nt (.num { o.view m with hasMissing := false }) (changesTo false prog)
          some (x, y)) := by
  obtain ⟨v1, v2, hs⟩ := NumObj.copy_spec h
  refine ⟨v2, v1, ?_⟩
  have := runPair_spec (fun m (o : NumObj) op => o.exec nt grow m op)
    (fun m o => Feature.num (o.view m)) (fun f op => f.apply nt op) (fun _ => True) NumObj.Sep
    (fun _ _ _ h => h.symm) (fun m a b op _ hs => ?_) prog (fun _ _ => trivial) _ _ _ hs
  · simp only [v1, v2] at this
    exact this
  · obtain ⟨e, s⟩ := NumObj.exec_spec nt grow hs.okA op
    refine ⟨e, fun r hr => ?_⟩
    obtain ⟨h1, h2⟩ := (s r hr).sep hs
    exact ⟨h1, by simp only [h2]⟩

/-- **C33 is false for numerical features with missing values.** The copy of a feature that has
any does not say so, and so treats them as values when it splits. -/
theorem c33_num_flag (m : HeapMem K) (o : NumObj) (h : o.OK m) (hm : o.hasMissing = true) :
    (o.copy m).2.view (o.copy m).1 ≠ o.view m ∧
    ((o.copy m).2.view (o.copy m).1).missing = (o.view m).missing ∧
    ((o.copy m).2.view (o.copy m).1).hasMissing = false := by
  obtain ⟨v1, _, _⟩ := NumObj.copy_spec h
  rw [v1]
  refine ⟨fun e => ?_, rfl, rfl⟩
  have := congrArg NumFeature.hasMissing e
  simp only [NumObj.view, hm] at this
  cases this

/-- **C33, categorical features.** The copy shows the same as the original, which is left as it
was. From then on, under any program of changes to either that adds no category, each of the two
behaves as a value of its own.

Missing from the full property: changes that add a category, for which it is false,
`c33_cat_shared`. -/
theorem c33_cat_partial (nt : NumText K) (grow : Nat → Nat) (m : HeapMem K) (o : CatObj) (h : o.OK m)
    (prog : List (Bool × FeatureOp K)) (hk : ∀ p ∈ prog, p.2.Known (o.view m).cm.map) :
    o.view (o.copy m).1 = o.view m ∧ (o.copy m).2.view (o.copy m).1 = o.view m ∧
    (runPair (fun m o op => o.exec grow m op) prog (o.copy m).1 o (o.copy m).2).map
        (fun r => (Feature.cat (r.2.1.view r.1), Feature.cat (r.2.2.view r.1))) =
      (do let x ← applyAll nt (.cat (o.view m)) (changesTo true prog)
          let y ← applyAll nt (.cat (o.view m)) (changesTo false prog)
          some (x, y)) := by
  obtain ⟨v1, v2, hs⟩ := CatObj.copy_spec h
  refine ⟨v2, v1, ?_⟩
  have := runPair_spec (fun m (o : CatObj) op => o.exec grow m op)
    (fun m o => Feature.cat (o.view m)) (fun f op => f.apply nt op)
    (fun op => op.Known (m.maps o.map)) (CatObj.Sep (m.maps o.map))
    (fun _ _ _ h => h.symm) (fun m' a b op hop hs => ?_) prog hk _ _ _ hs
  · simp only [v1, v2] at this
    exact this
  · obtain ⟨e, s⟩ := CatObj.exec_spec nt grow hs.okA op (by rw [hs.mapA]; exact hop)
    refine ⟨e, fun r hr => ?_⟩
    obtain ⟨h1, h2⟩ := (s r hr).sep hs
    exact ⟨h1, by simp only [h2]⟩

/-- Memory with the categories "a", "b" and a feature with values b, a, missing. The array of
categories has room for one more. -/
def exHeap : HeapMem ℚ where
  flts := fun _ => []
  ints := fun a => if a = 0 then [1, 0, 0, 0] else []
  bools := fun a => if a = 1 then [false, false, true] else []
  strs := fun a => if a = 2 then ["a", "b", ""] else []
  maps := fun a s => if a = 3 then (if s = "a" then some 0 else if s = "b" then some 1 else none) else none
  next := 4

/-- The feature in `exHeap`. -/
def exObj : CatObj := ⟨3, ⟨2, 2⟩, ⟨0, 3⟩, ⟨1, 3⟩, "C:f", false, true⟩

theorem exObj_ok : exObj.OK exHeap := by
  refine ⟨?_, ⟨?_, ?_⟩, ⟨?_, ?_⟩, ⟨?_, ?_⟩, rfl⟩ <;> decide

/-- **C33 is false for changes that add a category.** The hash map and the array behind `Back`
are shared. Storing a new category "c" in the copy makes the original map "c" to a number it has
no name for, so that storing "c" in the original afterwards gives a value that cannot be read
(`none` below), and storing another new category in the original renames the category of the
copy. -/
theorem c33_cat_shared :
    (runPair (fun m o op => o.exec (fun _ => 0) m op)
      [(false, FeatureOp.putStr 0 "c"), (true, .putStr 0 "c")]
      (exObj.copy exHeap).1 exObj (exObj.copy exHeap).2).map
        (fun r => (((r.2.1.view r.1).getStr 0), ((r.2.2.view r.1).getStr 0))) = some (none, some "c") ∧
    (runPair (fun m o op => o.exec (fun _ => 0) m op)
      [(false, FeatureOp.putStr 0 "c"), (true, .putStr 0 "d")]
      (exObj.copy exHeap).1 exObj (exObj.copy exHeap).2).map
        (fun r => (((r.2.1.view r.1).getStr 0), ((r.2.2.view r.1).getStr 0))) =
          some (some "d", some "d") := by
  decide +kernel

/-- Changes to both, without a new category: the original keeps "b", the copy gets "a". -/
example : (runPair (fun m o op => o.exec (fun _ => 0) m op)
      [(false, FeatureOp.putStr 0 "a"), (true, .putMissing 1), (false, .append "b"), (true, .append "?")]
      (exObj.copy exHeap).1 exObj (exObj.copy exHeap).2).map
        (fun r => ((List.range 4).map (r.2.1.view r.1).getStr,
          (List.range 4).map (r.2.2.view r.1).getStr)) =
    some ([some "b", some "NA", some "NA", some "NA"], [some "a", some "a", some "NA", some "b"]) ∧
    exObj.OK exHeap ∧ (∀ p ∈ [(false, FeatureOp.putStr 0 "a"), (true, .putMissing 1),
      (false, .append "b"), (true, (.append "?" : FeatureOp ℚ))],
      p.2.Known (exObj.view exHeap).cm.map) := by
  refine ⟨by decide +kernel, exObj_ok, ?_⟩
  intro p hp
  simp only [List.mem_cons, List.not_mem_nil, or_false] at hp
  rcases hp with rfl | rfl | rfl | rfl
  · exact rfl
  · trivial
  · exact Or.inr rfl
  · exact Or.inl (by decide +kernel)

/-- **C76 is false: encoded features share the missing marks.** Marking a case as missing in the
encoded feature marks it in the original, which still says that it has no missing values. -/
theorem c76_shared_marks : ∃ (m : HeapMem ℚ) (o : CatObj), o.OK m ∧ (o.view m).hasMissing = false ∧
    (o.view m).missing = [false, false, false] ∧
    ((o.encode m).2.putMissing (o.encode m).1 1).map
      (fun r => ((o.view r.1).missing, (o.view r.1).hasMissing)) =
      some ([false, true, false], false) := by
  refine ⟨{ exHeap with bools := fun a => if a = 1 then [false, false, false] else [] },
    { exObj with hasMissing := false }, ⟨?_, ⟨?_, ?_⟩, ⟨?_, ?_⟩, ⟨?_, ?_⟩, rfl⟩, rfl, ?_, ?_⟩ <;>
    decide +kernel

/-- **C76, values.** No change to a numerical feature, encoded or not, changes the categories or
the stored values of a categorical one.

Missing from the full property: the missing marks are shared, `c76_shared_marks`. -/
theorem c76_values_partial (nt : NumText K) (grow : Nat → Nat) (m : HeapMem K) (o : CatObj)
    (ops : List (FeatureOp K)) (r : HeapMem K × NumObj)
    (hr : ops.foldlM (fun (s : HeapMem K × NumObj) op => s.2.exec nt grow s.1 op) (o.encode m) = some r) :
    (o.view r.1).cm = (o.view m).cm ∧ (o.view r.1).catData = (o.view m).catData := by
  have one : ∀ (m : HeapMem K) (n : NumObj) (op : FeatureOp K) (r : HeapMem K × NumObj),
      n.exec nt grow m op = some r → r.1.ints = m.ints ∧ r.1.strs = m.strs ∧ r.1.maps = m.maps := by
    have hput : ∀ (m : HeapMem K) (n : NumObj) (i : Nat) (x : XF K) (r : HeapMem K × NumObj),
        n.put m i x = some r → r.1.ints = m.ints ∧ r.1.strs = m.strs ∧ r.1.maps = m.maps := by
      intro m n i x r h
      simp only [NumObj.put, Option.bind_eq_bind, Option.bind_eq_some_iff, Option.some.injEq] at h
      obtain ⟨_, _, _, _, rfl⟩ := h
      exact ⟨rfl, rfl, rfl⟩
    have hmis : ∀ (m : HeapMem K) (n : NumObj) (i : Nat) (r : HeapMem K × NumObj),
        n.putMissing m i = some r → r.1.ints = m.ints ∧ r.1.strs = m.strs ∧ r.1.maps = m.maps := by
      intro m n i r h
      simp only [NumObj.putMissing, Option.bind_eq_bind, Option.bind_eq_some_iff,
        Option.some.injEq] at h
      obtain ⟨_, _, rfl⟩ := h
      exact ⟨rfl, rfl, rfl⟩
    intro m n op r h
    cases op with
    | append v =>
      simp only [NumObj.exec] at h
      cases hp : nt.parse v.toList with
      | none => rw [hp] at h; cases h; exact ⟨rfl, rfl, rfl⟩
      | some x => rw [hp] at h; cases h; exact ⟨rfl, rfl, rfl⟩
    | puti i v => cases h
    | put i x => exact hput m n i x r h
    | putStr i v =>
      simp only [NumObj.exec] at h
      cases hp : nt.parse v.toList with
      | none => rw [hp] at h; exact hmis m n i r h
      | some x => rw [hp] at h; exact hput m n i x r h
    | putMissing i => exact hmis m n i r h
    | impute =>
      simp only [NumObj.exec, Option.bind_eq_bind, Option.bind_eq_some_iff, Option.some.injEq] at h
      obtain ⟨_, _, rfl⟩ := h
      exact ⟨rfl, rfl, rfl⟩
    | shuffle rng =>
      simp only [NumObj.exec, Option.bind_eq_bind, Option.bind_eq_some_iff, Option.some.injEq] at h
      obtain ⟨_, _, rfl⟩ := h
      exact ⟨rfl, rfl, rfl⟩
  have all : ∀ (ops : List (FeatureOp K)) (s r : HeapMem K × NumObj),
      ops.foldlM (fun (s : HeapMem K × NumObj) op => s.2.exec nt grow s.1 op) s = some r →
      r.1.ints = s.1.ints ∧ r.1.strs = s.1.strs ∧ r.1.maps = s.1.maps := by
    intro ops
    induction ops with
    | nil => intro s r h; cases h; exact ⟨rfl, rfl, rfl⟩
    | cons op ops ih =>
      intro s r h
      rw [List.foldlM_cons] at h
      simp only [Option.bind_eq_bind, Option.bind_eq_some_iff] at h
      obtain ⟨q, hq, h⟩ := h
      obtain ⟨a1, a2, a3⟩ := one _ _ _ _ hq
      obtain ⟨b1, b2, b3⟩ := ih q r h
      exact ⟨b1.trans a1, b2.trans a2, b3.trans a3⟩
  obtain ⟨e1, e2, e3⟩ := all ops _ r hr
  have e1 : r.1.ints = m.ints := e1
  have e2 : r.1.strs = m.strs := e2
  have e3 : r.1.maps = m.maps := e3
  simp only [CatObj.view, e1, e2, e3]
  exact ⟨trivial, trivial⟩

/-- A value put into the encoded feature makes the missing case 2 of the original known. -/
example : ([FeatureOp.put 2 (.fin 1), .putMissing 0].foldlM
      (fun (s : HeapMem ℚ × NumObj) op => s.2.exec ⟨fun _ => [], fun _ => none⟩ (fun _ => 0) s.1 op)
      (exObj.encode exHeap)).map (fun r => ((exObj.view r.1).missing, (exObj.view r.1).catData)) =
    some ([true, false, false], [1, 0, 0]) := by
  decide +kernel

/-- A numerical feature with a missing value. -/
def exNumMem : HeapMem ℚ where
  flts := fun a => if a = 0 then [.fin 3, .fin 4, .fin 0] else []
  ints := fun _ => []
  bools := fun a => if a = 1 then [false, false, true] else []
  strs := fun _ => []
  maps := fun _ _ => none
  next := 2

/-- The feature in `exNumMem`. -/
def exNumObj : NumObj := ⟨⟨0, 3⟩, ⟨1, 3⟩, "N:f", true⟩

example : exNumObj.OK exNumMem ∧ exNumObj.hasMissing = true ∧
    (runPair (fun m o op => o.exec ⟨fun _ => [], fun _ => none⟩ (fun n => n) m op)
      [(false, FeatureOp.put 0 (.fin 7)), (true, .put 2 (.fin 5)), (true, .append "x"), (false, .putMissing 1)]
      (exNumObj.copy exNumMem).1 exNumObj (exNumObj.copy exNumMem).2).map
        (fun r => ((r.2.1.view r.1).numData, (r.2.2.view r.1).missing)) =
    some ([.fin 3, .fin 4, .fin 5, .fin 0], [false, true, true]) := by
  refine ⟨⟨⟨?_, ?_⟩, ⟨?_, ?_⟩, rfl⟩, rfl, ?_⟩ <;> decide +kernel

end CloudForest
