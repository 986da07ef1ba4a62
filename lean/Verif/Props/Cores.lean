import Verif.Spec.Cores
import Verif.Props.OtherData

/-!
# C147: several workers
-/

set_option linter.unusedSectionVars false

namespace CloudForest
variable {K : Type} [Field K] [LinearOrder K] [IsStrictOrderedRing K] {τ : Type}

/-! ## Proof -/

theorem recordedBy_cons (w : Nat) (x : Tree K × List Nat) (out : List (Tree K × List Nat)) (v : Nat) (who : List Nat) :
    recordedBy w (x :: out) (v :: who) = if v = w then x :: recordedBy w out who else recordedBy w out who := by
  unfold recordedBy
  rw [List.zip_cons_cons, List.filter_cons]
  by_cases h : v = w
  · rw [if_pos (by simpa using h), if_pos h]
    rfl
  · rw [if_neg (by simpa using h), if_neg h]

theorem recordedBy_none {w : Nat} {out : List (Tree K × List Nat)} {who : List Nat} (h : w ∉ who) : recordedBy w out who = [] := by
  unfold recordedBy
  rw [List.map_eq_nil_iff, List.filter_eq_nil_iff]
  intro x hx he
  have := (List.of_mem_zip hx).2
  rw [beq_iff_eq] at he
  exact h (he ▸ this)

theorem trees_started {r : RunSetup K τ} (hdt : r.dotest = false) (g : Grower K (SplitState K)) :
    ∀ (left a b : Nat) (s : WorkerState K), r.trees g left a s = r.trees g left b s := by
  intro left
  induction left with
  | zero => intro a b s; rfl
  | succ left ih =>
    intro a b s
    simp only [RunSetup.trees, hdt, Bool.false_and, Bool.false_eq_true, if_false]
    cases r.tree g s with
    | none => rfl
    | some y =>
      simp only [Option.bind_eq_bind, Option.bind_some]
      rw [ih (a + 1) (b + 1)]

theorem trees_cons {r : RunSetup K τ} (hdt : r.dotest = false) {g : Grower K (SplitState K)} {k : Nat} {s s' : WorkerState K}
    {x : Tree K × List Nat} {l : List (Tree K × List Nat)} (ht : r.tree g s = some (x, s')) (h : r.trees g k 1 s' = some l) :
    r.trees g (k + 1) 1 s = some (x :: l) := by
  simp only [RunSetup.trees, hdt, Bool.false_and, Bool.false_eq_true, if_false, ht, Option.bind_eq_bind, Option.bind_some]
  rw [trees_started hdt g k (1 + 1) 1, h]
  rfl

theorem turns_alone {r : RunSetup K τ} (hdt : r.dotest = false) (g : Grower K (SplitState K)) :
    ∀ (left started : Nat) (pick : Nat → Nat) (run : List (Nat × WorkerState K)) (out : List (Tree K × List Nat)),
      (run.map (·.1)).Nodup → r.turns g left started pick (run.map (·.2)) = some out →
      ∃ who : List Nat, who.length = out.length ∧ (∀ w ∈ who, w ∈ run.map (·.1)) ∧
        ∀ p ∈ run, 1 ≤ who.count p.1 ∧ r.trees g (who.count p.1) 1 p.2 = some (recordedBy p.1 out who) := by
  intro left
  induction left with
  | zero =>
    intro started pick run out _ h
    cases run with
    | nil =>
      rw [List.map_nil, RunSetup.turns] at h
      cases h
      exact ⟨[], rfl, by simp, by simp⟩
    | cons p ps =>
      rw [List.map_cons, RunSetup.turns] at h
      cases h
  | succ left ih =>
    intro started pick run out hnd h
    cases hrun : run with
    | nil =>
      rw [hrun, List.map_nil, RunSetup.turns] at h
      cases h
      exact ⟨[], rfl, by simp, by simp⟩
    | cons p0 ps =>
      have hmap : run.map (·.2) = p0.2 :: ps.map (·.2) := by rw [hrun]; rfl
      rw [hmap, RunSetup.turns, ← hmap] at h
      have hi : pick 0 % (run.map (·.2)).length < run.length := by
        rw [← List.length_map (f := (·.2)) (as := run)]
        exact Nat.mod_lt _ (by rw [hmap]; simp)
      generalize pick 0 % (run.map (·.2)).length = i at hi h
      rw [← hrun]
      clear hmap hrun p0 ps
      obtain ⟨⟨t, s⟩, hp⟩ : ∃ p, run[i]? = some p := ⟨_, List.getElem?_eq_getElem hi⟩
      simp only [List.getElem?_map, hp, Option.map_some, Option.bind_eq_bind, Option.bind_some, hdt, Bool.false_and,
        Bool.false_eq_true, if_false] at h
      have huniq : ∀ j q, run[j]? = some q → q.1 = t → j = i := by
        intro j q hj hq
        have e1 : (run.map (·.1))[j]? = some t := by rw [List.getElem?_map, hj, Option.map_some, hq]
        have e2 : (run.map (·.1))[i]? = some t := by rw [List.getElem?_map, hp, Option.map_some]
        exact (List.getElem?_inj (List.getElem?_eq_some_iff.1 e1).1 hnd).1 (e1.trans e2.symm)
      have htm : t ∈ run.map (·.1) := List.mem_map.2 ⟨_, List.mem_of_getElem? hp, rfl⟩
      obtain ⟨⟨x, s'⟩, ht, h⟩ := Option.bind_eq_some_iff.1 h
      split at h
      · obtain ⟨rest, hrest, h⟩ := Option.bind_eq_some_iff.1 h
        cases h
        rw [show (run.map (·.2)).set i s' = (run.set i (t, s')).map (·.2) by rw [List.map_set]] at hrest
        have hfst : (run.set i (t, s')).map (·.1) = run.map (·.1) := by
          rw [List.map_set]
          refine List.ext_getElem? fun j => ?_
          by_cases hj : i = j
          · subst hj
            rw [List.getElem?_set_self (by simpa using hi), List.getElem?_map, hp]
            rfl
          · rw [List.getElem?_set_ne hj]
        obtain ⟨who, h1, h2, h3⟩ := ih _ _ _ _ (by rw [hfst]; exact hnd) hrest
        rw [hfst] at h2
        refine ⟨t :: who, by simp [h1], ?_, fun q hq => ?_⟩
        · intro w hw
          rcases List.mem_cons.1 hw with rfl | hw
          · exact htm
          · exact h2 w hw
        · obtain ⟨j, hj⟩ := List.mem_iff_getElem?.1 hq
          rw [recordedBy_cons]
          by_cases hji : i = j
          · subst hji
            rw [hp] at hj
            cases hj
            obtain ⟨-, k2⟩ := h3 (t, s') (List.mem_of_getElem? (List.getElem?_set_self hi))
            rw [List.count_cons_self, if_pos rfl]
            exact ⟨by omega, trees_cons hdt ht k2⟩
          · have hne : t ≠ q.1 := fun he => hji (huniq j q hj he.symm).symm
            rw [List.count_cons_of_ne hne, if_neg hne]
            exact h3 q (List.mem_of_getElem? (i := j) (by rw [List.getElem?_set_ne hji]; exact hj))
      · obtain ⟨rest, hrest, h⟩ := Option.bind_eq_some_iff.1 h
        cases h
        rw [show (run.map (·.2)).eraseIdx i = (run.eraseIdx i).map (·.2) by rw [List.eraseIdx_map]] at hrest
        have hfst : (run.eraseIdx i).map (·.1) = (run.map (·.1)).eraseIdx i := by rw [List.eraseIdx_map]
        obtain ⟨who, h1, h2, h3⟩ := ih _ _ _ _ (by rw [hfst]; exact hnd.sublist (List.eraseIdx_sublist _ _)) hrest
        have hout : t ∉ who := by
          intro hw
          obtain ⟨q, hq, he⟩ := List.mem_map.1 (h2 t hw)
          obtain ⟨j, hj, hq⟩ := List.mem_eraseIdx_iff_getElem?.1 hq
          exact hj (huniq j q hq he)
        refine ⟨t :: who, by simp [h1], ?_, fun q hq => ?_⟩
        · intro w hw
          rcases List.mem_cons.1 hw with rfl | hw
          · exact htm
          · have := h2 w hw
            rw [hfst] at this
            exact List.mem_of_mem_eraseIdx this
        · obtain ⟨j, hj⟩ := List.mem_iff_getElem?.1 hq
          rw [recordedBy_cons]
          by_cases hji : i = j
          · subst hji
            rw [hp] at hj
            cases hj
            rw [List.count_cons_self, if_pos rfl, recordedBy_none hout, List.count_eq_zero.2 hout]
            exact ⟨by omega, trees_cons hdt ht rfl⟩
          · have hne : t ≠ q.1 := fun he => hji (huniq j q hj he.symm).symm
            rw [List.count_cons_of_ne hne, if_neg hne]
            exact h3 q (List.mem_eraseIdx_iff_getElem?.2 ⟨j, fun h => hji h.symm, hj⟩)

/-! ## C147 -/

/-- **C147**, what holds: with at least one worker, and no more workers than trees, the workers together record as many trees as
asked for, whoever comes first. Each belongs to a bag of its own and is the tree newly grown from it, as with one worker.

Missing from the full property: more workers than trees, `c147_more`; no workers, `c147_none`. -/
theorem c147_run_partial {r : RunSetup K τ} {L : TargetLaws r.T r.all} {good : τ → Prop} {cans : List Nat}
    (hr : r.Ok L good cans) (hv : ¬ (r.o.vet = true ∧ r.o.evaloob = true)) {nCores nCats : Nat} (h1 : 1 ≤ nCores)
    (hle : nCores ≤ r.nTrees) (hok : L.Ok (newAllocs nCats)) (own global : Nat → Rng) (pick : Nat → Nat) :
    (r.runCores r.grower nCores (bagKnown r.missing).length nCats cans own global pick = none → r.Exhausted) ∧
    ∀ out, r.runCores r.grower nCores (bagKnown r.missing).length nCats cans own global pick = some out →
      out.length = r.nTrees ∧
      ∀ x ∈ out, (x.2.length ≤ r.nSamples ∧ (r.how.isNobag = false → x.2.length = r.nSamples)) ∧
        (∀ c ∈ x.2, r.missing[c]? = some false) ∧ r.Grown L cans x.2 (prune x.1.root) := by
  obtain ⟨k1, k2, k3⟩ := runCores_ok hr (nCores := nCores) hok own global pick
  rw [k3 hv]
  refine ⟨k1, fun out h => ?_⟩
  obtain ⟨j1, j2⟩ := k2 out h
  rw [if_neg (by omega)] at j1
  exact ⟨by omega, fun x hx => (j2 x hx).2.2⟩

/-- **C147**, the workers do not disturb each other: every tree is recorded by one of them, each records at least one, and the
trees a worker records are the first ones it would grow if it were alone, in that order. -/
theorem c147_alone {r : RunSetup K τ} (hdt : r.dotest = false) (g : Grower K (SplitState K)) {nCores nNonMissing nCats : Nat}
    {cans : List Nat} {own global : Nat → Rng} {pick : Nat → Nat} {out : List (Tree K × List Nat)}
    (h : r.runCores g nCores nNonMissing nCats cans own global pick = some out) :
    ∃ who : List Nat, who.length = out.length ∧ (∀ w ∈ who, w < nCores) ∧
      ∀ w < nCores, 1 ≤ who.count w ∧ ∃ s, r.start nNonMissing nCats cans (own w) (global w) = some s ∧
        r.trees g (who.count w) 1 s = some (recordedBy w out who) := by
  unfold RunSetup.runCores at h
  obtain ⟨workers, hw, h⟩ := Option.bind_eq_some_iff.1 h
  obtain ⟨hlen, hget⟩ : workers.length = nCores ∧ ∀ w < nCores, ∃ s, workers[w]? = some s ∧
      r.start nNonMissing nCats cans (own w) (global w) = some s := by
    refine ⟨by rw [mapM_option_length hw, List.length_range], fun w hlt => ?_⟩
    obtain ⟨s, h1, h2⟩ := mapM_get hw w w (by simp [hlt])
    exact ⟨s, h2, h1⟩
  obtain ⟨who, e1, e2, e3⟩ := turns_alone hdt g _ _ pick ((List.range nCores).zip workers) out (by
    rw [List.map_fst_zip (by simp [hlen])]
    exact List.nodup_range) (by
    rw [List.map_snd_zip (by simp [hlen])]
    exact h)
  rw [List.map_fst_zip (by simp [hlen])] at e2
  refine ⟨who, e1, fun w hwm => List.mem_range.1 (e2 w hwm), fun w hlt => ?_⟩
  obtain ⟨s, hs1, hs2⟩ := hget w hlt
  obtain ⟨k1, k2⟩ := e3 (w, s) (List.mem_of_getElem? (i := w) (by
    rw [List.getElem?_zip_eq_some]
    exact ⟨by simp [hlt], hs1⟩))
  exact ⟨k1, s, hs2, k2⟩

/-- **C147**, one worker: this is the run of C119. -/
theorem c147_one (r : RunSetup K τ) (g : Grower K (SplitState K)) (nNonMissing nCats : Nat) (cans : List Nat)
    (own global : Nat → Rng) (pick : Nat → Nat) :
    r.runCores g 1 nNonMissing nCats cans own global pick = r.run g nNonMissing nCats cans (own 0) (global 0) :=
  runCores_one r g nNonMissing nCats cans own global pick

/-- **C147 is false of the code** for more workers than trees: every worker records the tree it has begun, so that there are as
many trees as workers. -/
theorem c147_more {r : RunSetup K τ} {L : TargetLaws r.T r.all} {good : τ → Prop} {cans : List Nat}
    (hr : r.Ok L good cans) (hv : ¬ (r.o.vet = true ∧ r.o.evaloob = true)) {nCores nCats : Nat}
    (hlt : r.nTrees < nCores) (hok : L.Ok (newAllocs nCats)) (own global : Nat → Rng) (pick : Nat → Nat) :
    ∀ out, r.runCores r.grower nCores (bagKnown r.missing).length nCats cans own global pick = some out → out.length = nCores := by
  obtain ⟨-, k2, k3⟩ := runCores_ok hr (nCores := nCores) hok own global pick
  rw [k3 hv]
  intro out h
  obtain ⟨j1, -⟩ := k2 out h
  rw [if_neg (by omega)] at j1
  omega

/-- **C147 is false of the code** for no workers at all: growforest ends without an error and leaves an empty file, which holds no
forest. -/
theorem c147_none :
    growCommand exStrokes id (fun s => s.left) { exGrowArgs with nCores := 0 } 20 id exAfmTable (fun _ k => 5 * k + 1)
      (fun _ k => 3 * k + 1) id = some [] ∧
    (applyCommand exStrokes ⟨false, false, false, false⟩ [] exAfmTable).isNone = true := by
  decide +kernel

/-! ## Examples -/

/-- The run `exRun` with three trees. -/
def exRun3 : RunSetup ℚ CatFeature := { exRun false 3 with nTrees := 3 }

theorem exRun3_ok : exRun3.Ok (exRunLaws false 3) (fun g => g.InRange 2 [0, 1, 2, 3, 4, 5] ∧
    g.missing.length = g.catData.length ∧ g.catData.length = exSplitT.catData.length) [0, 1, 2] :=
  ⟨(exRun_ok false 3).cases, (exRun_ok false 3).matrix, (exRun_ok false 3).setting, (exRun_ok false 3).fit, (exRun_ok false 3).order⟩

/-- Two workers and three trees meet the conditions. Worker 0 draws the cases 0, 1 and 4, then 1, 2 and 5, worker 1 draws 3, 4 and 5, then
0, 0 and 2. If worker 1 records first and last, the last tree is its second. -/
example : exRun3.Ok (exRunLaws false 3) (fun g => g.InRange 2 [0, 1, 2, 3, 4, 5] ∧ g.missing.length = g.catData.length ∧
      g.catData.length = exSplitT.catData.length) [0, 1, 2] ∧ (exRunLaws false 3).Ok (newAllocs 2) ∧ 2 ≤ exRun3.nTrees ∧
    exRun3.dotest = false ∧
    (exRun3.runCores exRun3.grower 2 6 2 [0, 1, 2] (fun w k => 5 * k + w)
      (fun w => if w = 0 then exGlobal else fun k => [3, 4, 5, 0, 0, 2].getD k 0) (fun k => k + 1)).map (fun out => out.map (·.2)) =
      some [[3, 4, 5], [0, 1, 4], [0, 0, 2]] ∧
    (exRun3.runCores exRun3.grower 2 6 2 [0, 1, 2] (fun w k => 5 * k + w)
      (fun w => if w = 0 then exGlobal else fun k => [3, 4, 5, 0, 0, 2].getD k 0) (fun _ => 0)).map (fun out => out.map (·.2)) =
      some [[0, 1, 4], [1, 2, 5], [3, 4, 5]] :=
  ⟨exRun3_ok, ⟨rfl, rfl, rfl⟩, by decide, rfl, by decide +kernel, by decide +kernel⟩

/-- Five workers for these three trees give five. -/
example : (exRun3.runCores exRun3.grower 5 6 2 [0, 1, 2] (fun w k => 5 * k + w) (fun w k => k + w) id).map List.length = some 5 := by
  decide +kernel

/-- From text to text, two workers, four trees, balanced bags, entropy (with some function for the logarithm) and vetting: what
`c140_classes_partial` asks of the options holds, and the file holds four trees. -/
example : let a : GrowArgs := { exGrowArgs with nCores := 2, nTrees := 4, balance := true, vet := true, entropy := true }
    1 ≤ a.nCores ∧ ¬ (a.vet = true ∧ a.evaloob = true) ∧
    ((growCommand exStrokes id (fun s => s.left) a 20 id exAfmTable (fun w k => 5 * k + 1 + w) (fun w k => 3 * k + 1 + w) id).bind fun file =>
      (applyCommand exStrokes ⟨false, false, false, false⟩ file exAfmTable).map fun x => x.1.trees.length) = some 4 := by
  decide +kernel

/-- The same for numbers with absolute deviation and splits judged on the cases out of the bag. -/
example : let a : GrowArgs := { exGrowNums with nCores := 2, nTrees := 3, l1 := true, evaloob := true }
    1 ≤ a.nCores ∧ a.balance = false ∧ ¬ (a.vet = true ∧ a.evaloob = true) ∧
    ((growCommand exStrokes id (fun s => s.left) a 20 id exAfmTable (fun w k => 5 * k + 1 + w) (fun w k => 3 * k + 1 + w) id).bind fun file =>
      (applyCommand exStrokes ⟨false, false, false, false⟩ file exAfmTable).map fun x => x.1.trees.length) = some 3 := by
  decide +kernel

end CloudForest
