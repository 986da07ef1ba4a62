import Verif.Model.Cores
import Verif.Props.Run

/-!
# Runs with several workers: what they record
-/

set_option linter.unusedSectionVars false

namespace CloudForest
variable {K : Type} [Field K] [LinearOrder K] [IsStrictOrderedRing K] {τ : Type}

/-- The workers record what each would record alone, whoever comes first. -/
theorem turns_ok {r : RunSetup K τ} {L : TargetLaws r.T r.all} {good : τ → Prop} {cans : List Nat} (hr : r.Ok L good cans) :
    ∀ (left started : Nat) (pick : Nat → Nat) (running : List (WorkerState K)), (∀ s ∈ running, WorkerOk r L cans s) →
      running.length + (r.nTrees - started) ≤ left →
      (r.turns r.freeGrower left started pick running = none → r.Exhausted) ∧
      (∀ out, r.turns r.freeGrower left started pick running = some out →
        (running ≠ [] → out.length = running.length + (r.nTrees - started)) ∧ (running = [] → out = []) ∧
        ∀ x ∈ out, r.Recorded L cans x) ∧
      (¬ (r.o.vet = true ∧ r.o.evaloob = true) →
        r.turns r.grower left started pick running = r.turns r.freeGrower left started pick running) := by
  intro left
  induction left with
  | zero =>
    intro started pick running _ hlen
    obtain rfl : running = [] := List.eq_nil_of_length_eq_zero (by omega)
    rw [RunSetup.turns, RunSetup.turns]
    refine ⟨fun h => (by cases h), fun out h => ?_, fun _ => rfl⟩
    cases h
    exact ⟨fun h => absurd rfl h, fun _ => rfl, by simp⟩
  | succ left ih =>
    intro started pick running hs hlen
    cases running with
    | nil =>
      rw [RunSetup.turns, RunSetup.turns]
      refine ⟨fun h => (by cases h), fun out h => ?_, fun _ => rfl⟩
      cases h
      exact ⟨fun h => absurd rfl h, fun _ => rfl, by simp⟩
    | cons w ws =>
      rw [RunSetup.turns, RunSetup.turns]
      have hi : pick 0 % (w :: ws).length < (w :: ws).length := Nat.mod_lt _ (by simp)
      generalize pick 0 % (w :: ws).length = i at hi ⊢
      have hget := List.getElem?_eq_getElem hi
      have hmem : (w :: ws)[i] ∈ w :: ws := List.getElem_mem hi
      generalize (w :: ws)[i] = s at hget hmem
      simp only [hget, Option.bind_eq_bind, Option.bind_some]
      obtain ⟨h1, h2, h3⟩ := tree_ok hr (hs s hmem)
      cases ht : r.tree r.freeGrower s with
      | none => exact ⟨fun _ => h1 ht, fun out h => (by cases h), fun hv => by
        rw [h3 hv, ht]
        simp only [Option.bind_none]⟩
      | some y =>
        obtain ⟨x, s'⟩ := y
        obtain ⟨hs', hx⟩ := h2 x s' ht
        have hn := hs'.next (r.dotest && started + 1 < r.nTrees)
        simp only [Option.bind_some]
        have key : ∀ (started' : Nat) (rest : List (WorkerState K)), (∀ s ∈ rest, WorkerOk r L cans s) →
            rest.length + (r.nTrees - started') + 1 = (w :: ws).length + (r.nTrees - started) →
            (rest = [] → r.nTrees ≤ started') →
            (((r.turns r.freeGrower left started' (fun k => pick (k + 1)) rest).bind fun l => some (x :: l)) = none → r.Exhausted) ∧
            (∀ out, ((r.turns r.freeGrower left started' (fun k => pick (k + 1)) rest).bind fun l => some (x :: l)) = some out →
              out.length = (w :: ws).length + (r.nTrees - started) ∧ ∀ x ∈ out, r.Recorded L cans x) ∧
            (¬ (r.o.vet = true ∧ r.o.evaloob = true) →
              r.turns r.grower left started' (fun k => pick (k + 1)) rest =
                r.turns r.freeGrower left started' (fun k => pick (k + 1)) rest) := by
          intro started' rest hrest hl hnil
          obtain ⟨i1, i2, i3⟩ := ih started' (fun k => pick (k + 1)) rest hrest (by omega)
          refine ⟨fun h => ?_, fun out h => ?_, i3⟩
          · refine i1 (Option.eq_none_iff_forall_ne_some.2 fun a ha => ?_)
            rw [ha] at h
            cases h
          · obtain ⟨l, e, h⟩ := Option.bind_eq_some_iff.1 h
            cases h
            obtain ⟨j1, j2, j3⟩ := i2 l e
            refine ⟨?_, fun y hy => ?_⟩
            · by_cases h0 : rest = []
              · rw [j2 h0]
                have := hnil h0
                rw [h0] at hl
                simp only [List.length_nil, List.length_cons] at hl ⊢
                omega
              · have := j1 h0
                rw [List.length_cons, this]
                omega
            · rcases List.mem_cons.1 hy with rfl | hy
              · exact hx
              · exact j3 y hy
        by_cases hst : started < r.nTrees
        · simp only [if_pos hst]
          obtain ⟨k1, k2, k3⟩ := key (started + 1) ((w :: ws).set i (if (r.dotest && decide (started + 1 < r.nTrees)) = true then { s' with root := .fresh } else s')) (by
            intro s hs2
            rcases List.mem_or_eq_of_mem_set hs2 with h | rfl
            · exact hs s h
            · exact hn) (by rw [List.length_set]; simp only [List.length_cons]; omega) (by
            intro h0
            have := congrArg List.length h0
            rw [List.length_set] at this
            simp at this)
          refine ⟨k1, fun out h => ⟨fun _ => (k2 out h).1, fun h => by simp at h, (k2 out h).2⟩, fun hv => ?_⟩
          rw [h3 hv, ht]
          simp only [Option.bind_some]
          rw [k3 hv]
        · simp only [if_neg hst]
          have hel : ((w :: ws).eraseIdx i).length + 1 = (w :: ws).length := by
            rw [List.length_eraseIdx_of_lt hi]
            simp
          obtain ⟨k1, k2, k3⟩ := key started ((w :: ws).eraseIdx i) (fun s hs2 => hs s (List.mem_of_mem_eraseIdx hs2)) (by omega)
            (fun _ => by omega)
          refine ⟨k1, fun out h => ⟨fun _ => (k2 out h).1, fun h => by simp at h, (k2 out h).2⟩, fun hv => ?_⟩
          rw [h3 hv, ht]
          simp only [Option.bind_some]
          rw [k3 hv]

theorem starts_ok {r : RunSetup K τ} {L : TargetLaws r.T r.all} {cans : List Nat} {nCats : Nat}
    (hok : L.Ok (newAllocs nCats)) (own global : Nat → Rng) (ws : List Nat) :
    ∃ l, (ws.mapM fun w => r.start (bagKnown r.missing).length nCats cans (own w) (global w)) = some l ∧
      l.length = ws.length ∧ ∀ s ∈ l, WorkerOk r L cans s := by
  induction ws with
  | nil => exact ⟨[], rfl, rfl, by simp⟩
  | cons w ws ih =>
    obtain ⟨l, e, h1, h2⟩ := ih
    obtain ⟨s, es, hs⟩ := start_ok (r := r) (cans := cans) hok (own w) (global w)
    refine ⟨s :: l, ?_, by simp [h1], ?_⟩
    · rw [List.mapM_cons, es, e]
      rfl
    · intro x hx
      rcases List.mem_cons.1 hx with rfl | hx
      · exact hs
      · exact h2 x hx

/-- What several workers record. -/
theorem runCores_ok {r : RunSetup K τ} {L : TargetLaws r.T r.all} {good : τ → Prop} {cans : List Nat}
    (hr : r.Ok L good cans) {nCores nCats : Nat} (hok : L.Ok (newAllocs nCats)) (own global : Nat → Rng) (pick : Nat → Nat) :
    (r.runCores r.freeGrower nCores (bagKnown r.missing).length nCats cans own global pick = none → r.Exhausted) ∧
    (∀ out, r.runCores r.freeGrower nCores (bagKnown r.missing).length nCats cans own global pick = some out →
      out.length = (if nCores = 0 then 0 else max nCores r.nTrees) ∧ ∀ x ∈ out, r.Recorded L cans x) ∧
    (¬ (r.o.vet = true ∧ r.o.evaloob = true) →
      r.runCores r.grower nCores (bagKnown r.missing).length nCats cans own global pick =
        r.runCores r.freeGrower nCores (bagKnown r.missing).length nCats cans own global pick) := by
  obtain ⟨l, e, h1, h2⟩ := starts_ok (r := r) (cans := cans) hok own global (List.range nCores)
  rw [List.length_range] at h1
  unfold RunSetup.runCores
  rw [e]
  simp only [Option.bind_eq_bind, Option.bind_some]
  obtain ⟨k1, k2, k3⟩ := turns_ok hr (max nCores r.nTrees) nCores pick l h2 (by omega)
  refine ⟨k1, fun out h => ?_, k3⟩
  obtain ⟨j1, j2, j3⟩ := k2 out h
  refine ⟨?_, j3⟩
  split
  · rw [j2 (List.eq_nil_of_length_eq_zero (by omega))]
    rfl
  · rw [j1 (fun h0 => by rw [h0] at h1; simp at h1; omega)]
    omega

/-- With one worker there is one order. -/
theorem turns_one (r : RunSetup K τ) (g : Grower K (SplitState K)) :
    ∀ (left started : Nat) (pick : Nat → Nat) (s : WorkerState K), left = 1 + (r.nTrees - started) →
      r.turns g left started pick [s] = r.trees g left started s := by
  intro left
  induction left with
  | zero => intro started _ _ h; omega
  | succ left ih =>
    intro started pick s h
    rw [RunSetup.turns, RunSetup.trees]
    simp only [List.length_singleton, Nat.mod_one, List.getElem?_cons_zero, Option.bind_eq_bind, Option.bind_some]
    cases r.tree g s with
    | none => rfl
    | some y =>
      obtain ⟨x, s'⟩ := y
      simp only [Option.bind_some, List.set_cons_zero, List.eraseIdx_cons_zero]
      by_cases hst : started < r.nTrees
      · simp only [if_pos hst]
        rw [ih _ _ _ (by omega)]
      · simp only [if_neg hst]
        obtain rfl : left = 0 := by omega
        rw [RunSetup.turns, RunSetup.trees]

theorem runCores_one (r : RunSetup K τ) (g : Grower K (SplitState K)) (nNonMissing nCats : Nat) (cans : List Nat)
    (own global : Nat → Rng) (pick : Nat → Nat) :
    r.runCores g 1 nNonMissing nCats cans own global pick = r.run g nNonMissing nCats cans (own 0) (global 0) := by
  unfold RunSetup.runCores RunSetup.run
  rw [show List.range 1 = [0] from rfl, List.mapM_cons, List.mapM_nil]
  cases r.start nNonMissing nCats cans (own 0) (global 0) with
  | none => rfl
  | some s =>
    simp only [Option.bind_eq_bind, Option.bind_some, Option.pure_def]
    exact turns_one r g _ _ _ _ (by omega)

end CloudForest
