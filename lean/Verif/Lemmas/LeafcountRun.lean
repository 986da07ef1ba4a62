import Verif.Model.LeafcountRun
import Verif.Lemmas.Leafcount

/-!
# The threads of leafcount
-/

set_option linter.unusedSectionVars false

namespace CloudForest
variable {K : Type} [Field K] [LinearOrder K] [IsStrictOrderedRing K]

/-- What the threads have taken and not yet called. -/
def LeafPool.taken (s : LeafPool) : List LeafCall := s.workers.flatMap fun w => w.getD []

/-- The number of threads with a file. -/
def LeafPool.busy (s : LeafPool) : Nat := s.workers.countP Option.isSome

theorem flatMap_set_perm {α β : Type} (f : α → List β) : ∀ (l : List α) (i : Nat) (x y : α), l[i]? = some x →
    ((l.set i y).flatMap f ++ f x).Perm (l.flatMap f ++ f y) := by
  intro l
  induction l with
  | nil => intro i x y h; simp at h
  | cons a l ih =>
    intro i x y h
    cases i with
    | zero =>
      simp only [List.getElem?_cons_zero, Option.some.injEq] at h
      subst h
      simp only [List.set_cons_zero, List.flatMap_cons]
      refine (List.perm_append_comm).trans ?_
      rw [List.append_assoc]
      exact List.Perm.append_left _ List.perm_append_comm
    | succ i =>
      simp only [List.getElem?_cons_succ] at h
      simp only [List.set_cons_succ, List.flatMap_cons, List.append_assoc]
      exact (ih i x y h).append_left _

theorem countP_set {α : Type} (p : α → Bool) : ∀ (l : List α) (i : Nat) (x y : α), l[i]? = some x →
    (l.set i y).countP p + (if p x then 1 else 0) = l.countP p + (if p y then 1 else 0) := by
  intro l
  induction l with
  | nil => intro i x y h; simp at h
  | cons a l ih =>
    intro i x y h
    cases i with
    | zero =>
      simp only [List.getElem?_cons_zero, Option.some.injEq] at h
      subst h
      simp only [List.set_cons_zero, List.countP_cons]
      omega
    | succ i =>
      simp only [List.getElem?_cons_succ] at h
      have := ih i x y h
      simp only [List.set_cons_succ, List.countP_cons]
      omega

/-- What holds of the pool at any time. -/
structure LeafInv (threads : Int) (jobs : List (List LeafCall)) (s : LeafPool) : Prop where
  size : s.workers.length = threads.toNat
  calls : (s.made ++ s.taken ++ s.waiting.flatten).Perm jobs.flatten
  files : s.waiting.length + s.busy + s.reports = jobs.length

/-- What is left to do. -/
def LeafPool.left (s : LeafPool) : Nat := s.taken.length + s.waiting.flatten.length + 2 * s.waiting.length + s.busy

theorem LeafInv.start (threads : Int) (jobs : List (List LeafCall)) : LeafInv threads jobs (.start threads jobs) where
  size := by simp [LeafPool.start]
  calls := by simp [LeafPool.start, LeafPool.taken, List.flatMap_replicate]
  files := by simp [LeafPool.start, LeafPool.busy, List.countP_replicate]

theorem LeafInv.step {threads : Int} {jobs : List (List LeafCall)} {s s' : LeafPool} (h : LeafInv threads jobs s) {a : LeafStep}
    (hs : s.step a = some s') : LeafInv threads jobs s' ∧ s.left = s'.left + 1 := by
  obtain ⟨h1, h2, h3⟩ := h
  cases a with
  | take w =>
    simp only [LeafPool.step] at hs
    split at hs
    · next job rest hw hn =>
      cases hs
      have p := flatMap_set_perm (fun w => w.getD []) s.workers w none (some job) hn
      have c := countP_set Option.isSome s.workers w none (some job) hn
      simp only [Option.getD_none, List.append_nil, Option.getD_some, Option.isSome_none, Option.isSome_some, if_true] at p c
      refine ⟨⟨by simpa using h1, ?_, ?_⟩, ?_⟩
      · rw [hw] at h2
        refine List.Perm.trans ?_ h2
        rw [List.append_assoc, List.append_assoc]
        refine List.Perm.append_left _ ?_
        show ((s.workers.set w (some job)).flatMap (fun w => w.getD []) ++ rest.flatten).Perm
          (s.workers.flatMap (fun w => w.getD []) ++ (job :: rest).flatten)
        rw [List.flatten_cons, ← List.append_assoc]
        exact p.append_right _
      · rw [hw] at h3
        show rest.length + (s.workers.set w (some job)).countP Option.isSome + s.reports = jobs.length
        unfold LeafPool.busy at h3
        simp only [List.length_cons] at h3
        simp at c
        omega
      · have pl := p.length_eq
        simp only [LeafPool.left, LeafPool.taken, LeafPool.busy, hw, List.flatten_cons, List.length_append, List.length_cons] at pl c ⊢
        simp at c
        omega
    · cases hs
  | call w =>
    simp only [LeafPool.step] at hs
    split at hs
    · next c cs hn =>
      cases hs
      have p := flatMap_set_perm (fun w => w.getD []) s.workers w (some (c :: cs)) (some cs) hn
      have k := countP_set Option.isSome s.workers w (some (c :: cs)) (some cs) hn
      simp only [Option.getD_some, Option.isSome_some, if_true, Nat.add_right_cancel_iff] at p k
      have p' : (c :: (s.workers.set w (some cs)).flatMap fun w => w.getD []).Perm (s.workers.flatMap fun w => w.getD []) := by
        have q : ((c :: (s.workers.set w (some cs)).flatMap fun w => w.getD []) ++ cs).Perm
            ((s.workers.flatMap fun w => w.getD []) ++ cs) := by
          refine List.Perm.trans ?_ p
          rw [List.cons_append]
          exact List.perm_middle.symm
        exact (List.perm_append_right_iff cs).1 q
      refine ⟨⟨by simpa using h1, ?_, ?_⟩, ?_⟩
      · refine List.Perm.trans ?_ h2
        refine List.Perm.append_right _ ?_
        show (s.made ++ [c] ++ (s.workers.set w (some cs)).flatMap fun w => w.getD []).Perm (s.made ++ s.taken)
        rw [List.append_assoc]
        exact p'.append_left _
      · show s.waiting.length + (s.workers.set w (some cs)).countP Option.isSome + s.reports = jobs.length
        rw [k]
        exact h3
      · have pl := p'.length_eq
        simp only [LeafPool.left, LeafPool.taken, LeafPool.busy, List.length_cons, k] at pl ⊢
        omega
    · cases hs
  | report w =>
    simp only [LeafPool.step] at hs
    split at hs
    · next hn =>
      cases hs
      have p := flatMap_set_perm (fun w => w.getD []) s.workers w (some []) none hn
      have k := countP_set Option.isSome s.workers w (some []) none hn
      simp only [Option.getD_some, Option.getD_none, List.append_nil, Option.isSome_some, Option.isSome_none, if_true] at p k
      refine ⟨⟨by simpa using h1, ?_, ?_⟩, ?_⟩
      · refine List.Perm.trans ?_ h2
        exact (List.Perm.append_left _ p).append_right _
      · show s.waiting.length + (s.workers.set w none).countP Option.isSome + (s.reports + 1) = jobs.length
        unfold LeafPool.busy at h3
        simp at k
        omega
      · have pl := p.length_eq
        simp only [LeafPool.left, LeafPool.taken, LeafPool.busy] at pl ⊢
        simp at k
        omega
    · cases hs

theorem LeafInv.run {threads : Int} {jobs : List (List LeafCall)} : ∀ {sched : List LeafStep} {s s' : LeafPool},
    LeafInv threads jobs s → s.run sched = some s' → LeafInv threads jobs s' ∧ s.left = s'.left + sched.length := by
  intro sched
  induction sched with
  | nil =>
    intro s s' h hs
    simp only [LeafPool.run, List.foldlM_nil] at hs
    cases hs
    exact ⟨h, rfl⟩
  | cons a sched ih =>
    intro s s' h hs
    simp only [LeafPool.run, List.foldlM_cons] at hs
    obtain ⟨s1, h1, h2⟩ := Option.bind_eq_some_iff.1 hs
    obtain ⟨g1, g2⟩ := h.step h1
    obtain ⟨g3, g4⟩ := ih g1 h2
    refine ⟨g3, ?_⟩
    rw [List.length_cons]
    omega

/-- With a thread and files to report there is a step. -/
theorem LeafInv.progress {threads : Int} {jobs : List (List LeafCall)} {s : LeafPool} (h : LeafInv threads jobs s) (ht : 0 < threads)
    (hr : s.reports ≠ jobs.length) : ∃ a s', s.step a = some s' := by
  obtain ⟨h1, h2, h3⟩ := h
  by_cases hb : ∃ (i : Nat) (j : List LeafCall), s.workers[i]? = some (some j)
  · obtain ⟨i, j, hi⟩ := hb
    cases j with
    | nil => exact ⟨.report i, _, by simp [LeafPool.step, hi]; rfl⟩
    | cons c cs => exact ⟨.call i, _, by simp [LeafPool.step, hi]; rfl⟩
  · have h0 : s.busy = 0 := by
      unfold LeafPool.busy
      rw [List.countP_eq_zero]
      intro w hw
      obtain ⟨i, hi⟩ := List.mem_iff_getElem?.1 hw
      cases w with
      | none => simp
      | some j => exact absurd ⟨i, j, hi⟩ hb
    have hlen : 0 < s.workers.length := by omega
    have hw0 : s.workers[0]? = some none := by
      cases hq : s.workers[0]? with
      | none => rw [List.getElem?_eq_none_iff] at hq; omega
      | some w =>
        cases w with
        | none => rfl
        | some j => exact absurd ⟨0, j, hq⟩ hb
    cases hq : s.waiting with
    | nil => rw [hq] at h3; simp at h3; omega
    | cons job rest => exact ⟨.take 0, _, by simp [LeafPool.step, hq, hw0]; rfl⟩

theorem LeafInv.finished {threads : Int} {jobs : List (List LeafCall)} {s : LeafPool} (h : LeafInv threads jobs s)
    (hr : s.reports = jobs.length) : s.made.Perm jobs.flatten ∧ s.left = 0 := by
  obtain ⟨h1, h2, h3⟩ := h
  have hw : s.waiting = [] := List.length_eq_zero_iff.1 (by omega)
  have hb : s.busy = 0 := by omega
  have ht : s.taken = [] := by
    unfold LeafPool.taken
    rw [List.flatMap_eq_nil_iff]
    intro w hwm
    have := (List.countP_eq_zero.1 hb) w hwm
    cases w with
    | none => rfl
    | some j => simp at this
  rw [ht, hw] at h2
  refine ⟨by simpa using h2, ?_⟩
  simp [LeafPool.left, ht, hw, hb]

theorem leafCalls_append (fm : FeatureMatrix K) : ∀ (xs ys : List (Tree K)) {a b : List (Nat × Nat) × List (Nat × Nat)},
    leafCalls fm xs = some a → leafCalls fm ys = some b → leafCalls fm (xs ++ ys) = some (a.1 ++ b.1, a.2 ++ b.2) := by
  intro xs
  induction xs with
  | nil =>
    intro ys a b ha hb
    simp only [leafCalls] at ha
    cases ha
    simpa using hb
  | cons t xs ih =>
    intro ys a b ha hb
    simp only [leafCalls, Option.bind_eq_bind] at ha
    obtain ⟨x, hx, ha⟩ := Option.bind_eq_some_iff.1 ha
    obtain ⟨y, hy, ha⟩ := Option.bind_eq_some_iff.1 ha
    cases ha
    simp [leafCalls, hx, ih ys hy hb]

theorem pair_map (l : List (Nat × Nat)) : (l.map fun p => LeafCall.pair p.1 p.2).filterMap LeafCall.pair? = l ∧
    (l.map fun p => LeafCall.pair p.1 p.2).filterMap LeafCall.feature? = [] := by
  induction l with
  | nil => exact ⟨rfl, rfl⟩
  | cons p l ih => exact
    ⟨by rw [List.map_cons, List.filterMap_cons, ih.1]; rfl, by rw [List.map_cons, List.filterMap_cons, ih.2]; rfl⟩

theorem feature_map (l : List (Nat × Nat)) : (l.map fun p => LeafCall.feature p.1 p.2).filterMap LeafCall.feature? = l ∧
    (l.map fun p => LeafCall.feature p.1 p.2).filterMap LeafCall.pair? = [] := by
  induction l with
  | nil => exact ⟨rfl, rfl⟩
  | cons p l ih => exact
    ⟨by rw [List.map_cons, List.filterMap_cons, ih.1]; rfl, by rw [List.map_cons, List.filterMap_cons, ih.2]; rfl⟩

theorem forestJob_calls (fm : FeatureMatrix K) : ∀ (trees : List (Tree K)) {a : List (Nat × Nat) × List (Nat × Nat)},
    leafCalls fm trees = some a → ∃ job, forestJob fm trees = some job ∧ job.filterMap LeafCall.pair? = a.1 ∧
      job.filterMap LeafCall.feature? = a.2 := by
  intro trees
  induction trees with
  | nil => intro a h; cases h; exact ⟨[], rfl, rfl, rfl⟩
  | cons t ts ih =>
    intro a h
    simp only [leafCalls, Option.bind_eq_bind] at h
    obtain ⟨x, hx, h⟩ := Option.bind_eq_some_iff.1 h
    obtain ⟨y, hy, h⟩ := Option.bind_eq_some_iff.1 h
    cases h
    obtain ⟨job, h1, h2, h3⟩ := ih hy
    refine ⟨_, by simp [forestJob, treeJob, hx, h1]; rfl, ?_, ?_⟩
    · simp only [List.filterMap_append, (feature_map _).2, (pair_map _).1, h2, List.nil_append]
    · simp only [List.filterMap_append, (feature_map _).1, (pair_map _).2, h3, List.append_nil, List.nil_append]

end CloudForest
