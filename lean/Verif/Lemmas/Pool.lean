import Verif.Model.Pool
import Mathlib.Tactic.SplitIfs
import Mathlib.Algebra.BigOperators.Group.List.Basic
import Mathlib.Data.List.Nodup
import Mathlib.Algebra.Order.Group.Nat

/-!
# Invariants of the worker pool
-/

namespace CloudForest

namespace Pc

/-- Has a tree to write before it compares the counters again. -/
def pend : Pc → Nat
  | grow | lock | write | unlock true => 1
  | _ => 0

/-- Between locking and unlocking. -/
def inside : Pc → Bool
  | write | keep | count | unlock _ => true
  | _ => false

/-- Decided to leave. -/
def leaving : Pc → Bool
  | unlock false | signal | done => true
  | _ => false

/-- Its tree object holds a tree not written yet. -/
def fresh : Pc → Bool
  | lock | write => true
  | _ => false

/-- Steps to the end without going round again. -/
def rank : Pc → Nat
  | unlock true => 8
  | grow => 7
  | lock => 6
  | write => 5
  | keep => 4
  | count => 3
  | unlock false => 2
  | signal => 1
  | done => 0
  | stopped => 0

/-- One unless finished. -/
def alive : Pc → Nat
  | done => 0
  | _ => 1

end Pc

theorem sum_map_set {α : Type} (f : α → Nat) (l : List α) (t : Nat) (a b : α) (h : l[t]? = some a) :
    ((l.set t b).map f).sum + f a = (l.map f).sum + f b := by
  induction l generalizing t with
  | nil => cases h
  | cons x l ih =>
    cases t with
    | zero => cases h; simp; omega
    | succ t =>
      have := ih t h
      simp only [List.set_cons_succ, List.map_cons, List.sum_cons]
      omega

theorem getElem?_set' {α : Type} {l : List α} {t : Nat} {a : α} (h : l[t]? = some a) (b : α) (t' : Nat) :
    (l.set t b)[t']? = if t = t' then some b else l[t']? := by
  rw [List.getElem?_set]
  by_cases htt : t = t'
  · subst htt
    have := (List.getElem?_eq_some_iff.1 h).1
    simp [this]
  · simp [htt]

/-- What holds in every state of the pool while boosting does not stop. -/
structure PoolInv (nTrees nCores : Nat) (s : Pool) : Prop where
  npan : s.panicked = false
  cnt : s.written.length + (s.workers.map fun w => w.pc.pend).sum = s.started
  lo : nCores ≤ s.started
  hi : s.started ≤ max nTrees nCores
  out : ∀ (t : Nat) w, s.workers[t]? = some w → w.pc.leaving = true → nTrees ≤ s.started
  len : s.workers.length = nCores
  nstop : ∀ (t : Nat) w, s.workers[t]? = some w → w.pc ≠ .stopped
  held : s.locked = true → ∃ (t : Nat) (w : Worker), s.workers[t]? = some w ∧ w.pc.inside = true
  mutex : ∀ (t : Nat) w, s.workers[t]? = some w → w.pc.inside = true → s.locked = true
  uniq : ∀ (t t' : Nat) w w', s.workers[t]? = some w → s.workers[t']? = some w' →
    w.pc.inside = true → w'.pc.inside = true → t = t'
  wait : s.waiting = (s.workers.map fun w => w.pc.alive).sum
  objs : ∀ (t : Nat) w, s.workers[t]? = some w → w.obj < s.objects
  own : ∀ (t t' : Nat) w w', s.workers[t]? = some w → s.workers[t']? = some w' →
    w.obj = w'.obj → t = t'
  nodup : s.written.Nodup
  old : ∀ x ∈ s.written, x < s.grown
  cur : ∀ (t : Nat) w, s.workers[t]? = some w → w.pc.fresh = true →
    s.heap w.obj < s.grown ∧ s.heap w.obj ∉ s.written
  curs : ∀ (t t' : Nat) w w', s.workers[t]? = some w → s.workers[t']? = some w' →
    w.pc.fresh = true → w'.pc.fresh = true → s.heap w.obj = s.heap w'.obj → t = t'

theorem PoolInv.start (nTrees nCores : Nat) : PoolInv nTrees nCores (.start nCores) := by
  have hw : ∀ (t : Nat) w, (Pool.start nCores).workers[t]? = some w → w = ⟨.grow, t⟩ ∧ t < nCores := by
    intro t w h
    simp only [Pool.start, List.getElem?_map, Option.map_eq_some_iff] at h
    obtain ⟨k, hk, rfl⟩ := h
    obtain ⟨h1, h2⟩ := List.getElem?_eq_some_iff.1 hk
    simp only [List.getElem_range] at h2
    simp only [List.length_range] at h1
    subst h2
    exact ⟨rfl, h1⟩
  constructor
  · rfl
  · simp [Pool.start, Function.comp_def, Pc.pend]
  · exact le_refl _
  · exact le_max_right _ _
  · intro t w h hl; rw [(hw t w h).1] at hl; cases hl
  · simp [Pool.start]
  · intro t w h hl; rw [(hw t w h).1] at hl; cases hl
  · intro h; cases h
  · intro t w h hl; rw [(hw t w h).1] at hl; cases hl
  · intro t t' w w' h _ hl; rw [(hw t w h).1] at hl; cases hl
  · simp [Pool.start, Function.comp_def, Pc.alive]
  · intro t w h; rw [(hw t w h).1]; exact (hw t w h).2
  · intro t t' w w' h h' e
    rw [(hw t w h).1, (hw t' w' h').1] at e
    exact e
  · exact List.nodup_nil
  · intro x h; cases h
  · intro t w h hl; rw [(hw t w h).1] at hl; cases hl
  · intro t t' w w' h _ hl; rw [(hw t w h).1] at hl; cases hl

/-- A step changes a single worker. This collects what has to be checked for it. -/
theorem PoolInv.update {nTrees nCores : Nat} {s : Pool} (h : PoolInv nTrees nCores s) {t : Nat}
    {w : Worker} (hw : s.workers[t]? = some w) (s' : Pool) (w' : Worker)
    (hws : s'.workers = s.workers.set t w')
    (hpan : s'.panicked = false)
    (hcnt : s'.written.length + w'.pc.pend + s.started = s'.started + s.written.length + w.pc.pend)
    (hlo : s.started ≤ s'.started) (hhi : s'.started ≤ max nTrees nCores)
    (hout : w'.pc.leaving = true → nTrees ≤ s'.started)
    (hstop : w'.pc ≠ .stopped)
    (hlock : (w.pc.inside = w'.pc.inside ∧ s'.locked = s.locked) ∨
      (w.pc.inside = false ∧ w'.pc.inside = true ∧ s.locked = false ∧ s'.locked = true) ∨
      (w.pc.inside = true ∧ w'.pc.inside = false ∧ s'.locked = false))
    (hwait : s'.waiting + w.pc.alive = s.waiting + w'.pc.alive)
    (hobj : (w'.obj = w.obj ∧ s'.objects = s.objects) ∨
      (w'.obj = s.objects ∧ s'.objects = s.objects + 1))
    (htree : (s'.written = s.written ∧ s'.heap = s.heap ∧ s'.grown = s.grown ∧
        (w'.pc.fresh = true → w.pc.fresh = true ∧ w'.obj = w.obj)) ∨
      (s'.written = s.written ++ [s.heap w.obj] ∧ s'.heap = s.heap ∧ s'.grown = s.grown ∧
        w.pc.fresh = true ∧ w'.pc.fresh = false ∧ w'.obj = w.obj) ∨
      (s'.written = s.written ∧ s'.grown = s.grown + 1 ∧ w'.obj = w.obj ∧ w.pc.fresh = false ∧
        s'.heap = fun o => if o = w.obj then s.grown else s.heap o)) :
    PoolInv nTrees nCores s' := by
  have hget := getElem?_set' hw w'
  have hlt := h.objs t w hw
  constructor
  · exact hpan
  · have := sum_map_set (fun w : Worker => w.pc.pend) s.workers t w w' hw
    have := h.cnt
    rw [hws]
    omega
  · exact h.lo.trans hlo
  · exact hhi
  · intro t1 w1 h1 hl
    rw [hws, hget] at h1
    split_ifs at h1
    · cases h1; exact hout hl
    · exact (h.out t1 w1 h1 hl).trans hlo
  · rw [hws, List.length_set, h.len]
  · intro t1 w1 h1
    rw [hws, hget] at h1
    split_ifs at h1
    · cases h1; exact hstop
    · exact h.nstop t1 w1 h1
  · intro hl
    rcases hlock with ⟨e1, e2⟩ | ⟨e1, e2, e3, e4⟩ | ⟨e1, e2, e3⟩
    · rw [e2] at hl
      obtain ⟨t1, w1, h1, hin⟩ := h.held hl
      by_cases htt : t = t1
      · subst htt
        rw [hw] at h1; cases h1
        exact ⟨t, w', by rw [hws, hget, if_pos rfl], by rw [← e1]; exact hin⟩
      · exact ⟨t1, w1, by rw [hws, hget, if_neg htt]; exact h1, hin⟩
    · exact ⟨t, w', by rw [hws, hget, if_pos rfl], e2⟩
    · rw [e3] at hl; cases hl
  · intro t1 w1 h1 hin
    rw [hws, hget] at h1
    rcases hlock with ⟨e1, e2⟩ | ⟨e1, e2, e3, e4⟩ | ⟨e1, e2, e3⟩
    · rw [e2]
      split_ifs at h1 with htt
      · cases h1; exact h.mutex t w hw (by rw [e1]; exact hin)
      · exact h.mutex t1 w1 h1 hin
    · exact e4
    · split_ifs at h1 with htt
      · cases h1; rw [e2] at hin; cases hin
      · exact absurd (h.uniq t t1 w w1 hw h1 e1 hin) htt
  · intro t1 t2 w1 w2 h1 h2 hin1 hin2
    rw [hws, hget] at h1 h2
    have hno : ∀ (t2 : Nat) w2, t ≠ t2 → s.workers[t2]? = some w2 → w'.pc.inside = true →
        w2.pc.inside = true → False := by
      intro t2 w2 htt h2 hin1 hin2
      rcases hlock with ⟨e1, -⟩ | ⟨-, -, e3, -⟩ | ⟨-, e2, -⟩
      · exact htt (h.uniq t t2 w w2 hw h2 (by rw [e1]; exact hin1) hin2)
      · have := h.mutex t2 w2 h2 hin2
        rw [e3] at this; cases this
      · rw [e2] at hin1; cases hin1
    split_ifs at h1 h2 with e1 e2 e2
    · exact e1.symm.trans e2
    · cases h1; exact (hno t2 w2 e2 h2 hin1 hin2).elim
    · cases h2; exact (hno t1 w1 e1 h1 hin2 hin1).elim
    · exact h.uniq t1 t2 w1 w2 h1 h2 hin1 hin2
  · have := sum_map_set (fun w : Worker => w.pc.alive) s.workers t w w' hw
    have := h.wait
    rw [hws]
    omega
  · intro t1 w1 h1
    rw [hws, hget] at h1
    split_ifs at h1
    · cases h1
      rcases hobj with ⟨e1, e2⟩ | ⟨e1, e2⟩ <;> omega
    · have := h.objs t1 w1 h1
      rcases hobj with ⟨e1, e2⟩ | ⟨e1, e2⟩ <;> omega
  · intro t1 t2 w1 w2 h1 h2 he
    rw [hws, hget] at h1 h2
    have hno : ∀ (t2 : Nat) w2, t ≠ t2 → s.workers[t2]? = some w2 → w'.obj ≠ w2.obj := by
      intro t2 w2 htt h2 he
      rcases hobj with ⟨e1, -⟩ | ⟨e1, -⟩
      · exact htt (h.own t t2 w w2 hw h2 (by rw [← e1]; exact he))
      · have := h.objs t2 w2 h2; omega
    split_ifs at h1 h2 with e1 e2 e2
    · exact e1.symm.trans e2
    · cases h1; exact absurd he (hno t2 w2 e2 h2)
    · cases h2; exact absurd he.symm (hno t1 w1 e1 h1)
    · exact h.own t1 t2 w1 w2 h1 h2 he
  · rcases htree with ⟨e1, -⟩ | ⟨e1, -, -, e4, -⟩ | ⟨e1, -⟩
    · rw [e1]; exact h.nodup
    · rw [e1, List.nodup_append]
      refine ⟨h.nodup, List.nodup_singleton _, ?_⟩
      intro a ha b hb
      rw [List.mem_singleton] at hb
      rintro rfl
      exact (h.cur t w hw e4).2 (hb ▸ ha)
    · rw [e1]; exact h.nodup
  · intro x hx
    rcases htree with ⟨e1, -, e3, -⟩ | ⟨e1, -, e3, e4, -⟩ | ⟨e1, e3, -⟩
    · rw [e1] at hx; rw [e3]; exact h.old x hx
    · rw [e1, List.mem_append, List.mem_singleton] at hx
      rw [e3]
      rcases hx with hx | rfl
      · exact h.old x hx
      · exact (h.cur t w hw e4).1
    · rw [e1] at hx; rw [e3]; have := h.old x hx; omega
  · intro t1 w1 h1 hf
    rw [hws, hget] at h1
    rcases htree with ⟨e1, e2, e3, e4⟩ | ⟨e1, e2, e3, e4, e5, e6⟩ | ⟨e1, e3, e4, e5, e6⟩
    · rw [e1, e2, e3]
      split_ifs at h1 with htt
      · cases h1
        rw [(e4 hf).2]
        exact h.cur t w hw (e4 hf).1
      · exact h.cur t1 w1 h1 hf
    · rw [e1, e2, e3]
      split_ifs at h1 with htt
      · cases h1; rw [e5] at hf; cases hf
      · refine ⟨(h.cur t1 w1 h1 hf).1, ?_⟩
        rw [List.mem_append, List.mem_singleton]
        rintro (hx | hx)
        · exact (h.cur t1 w1 h1 hf).2 hx
        · exact htt (h.curs t1 t w1 w h1 hw hf e4 hx).symm
    · rw [e1, e3, e6]
      split_ifs at h1 with htt
      · cases h1
        simp only [e4, if_true]
        exact ⟨Nat.lt_succ_self _, fun hx => lt_irrefl _ (h.old _ hx)⟩
      · have hne : w1.obj ≠ w.obj := fun he => htt (h.own t1 t w1 w h1 hw he).symm
        simp only [hne, if_false]
        have := h.cur t1 w1 h1 hf
        exact ⟨by omega, this.2⟩
  · intro t1 t2 w1 w2 h1 h2 hf1 hf2 he
    rw [hws, hget] at h1 h2
    rcases htree with ⟨e1, e2, e3, e4⟩ | ⟨e1, e2, e3, e4, e5, e6⟩ | ⟨e1, e3, e4, e5, e6⟩
    · rw [e2] at he
      split_ifs at h1 h2 with i1 i2 i2
      · exact i1.symm.trans i2
      · cases h1
        rw [(e4 hf1).2] at he
        exact i1.symm.trans (h.curs t t2 w w2 hw h2 (e4 hf1).1 hf2 he)
      · cases h2
        rw [(e4 hf2).2] at he
        exact (h.curs t1 t w1 w h1 hw hf1 (e4 hf2).1 he).trans i2
      · exact h.curs t1 t2 w1 w2 h1 h2 hf1 hf2 he
    · rw [e2] at he
      split_ifs at h1 h2 with i1 i2 i2
      · exact i1.symm.trans i2
      · cases h1; rw [e5] at hf1; cases hf1
      · cases h2; rw [e5] at hf2; cases hf2
      · exact h.curs t1 t2 w1 w2 h1 h2 hf1 hf2 he
    · rw [e6] at he
      split_ifs at h1 h2 with i1 i2 i2
      · exact i1.symm.trans i2
      · cases h1
        have hne : w2.obj ≠ w.obj := fun he => i2 (h.own t2 t w2 w h2 hw he).symm
        simp only [e4, if_true, hne, if_false] at he
        have := (h.cur t2 w2 h2 hf2).1
        omega
      · cases h2
        have hne : w1.obj ≠ w.obj := fun he => i1 (h.own t1 t w1 w h1 hw he).symm
        simp only [e4, if_true, hne, if_false] at he
        have := (h.cur t1 w1 h1 hf1).1
        omega
      · have hne1 : w1.obj ≠ w.obj := fun he => i1 (h.own t1 t w1 w h1 hw he).symm
        have hne2 : w2.obj ≠ w.obj := fun he => i2 (h.own t2 t w2 w h2 hw he).symm
        simp only [hne1, hne2, if_false] at he
        exact h.curs t1 t2 w1 w2 h1 h2 hf1 hf2 he

/-- The worker that takes a step is at some place, and this is the state after it. -/
theorem Pool.step_cases {nTrees : Nat} {test : Bool} {s s' : Pool} {t : Nat}
    (h : s.step nTrees test t false = some s') :
    ∃ w, s.workers[t]? = some w ∧
    ((w.pc = .grow ∧ s' = { s with
        heap := fun o => if o = w.obj then s.grown else s.heap o
        grown := s.grown + 1
        workers := s.workers.set t ⟨.lock, w.obj⟩ }) ∨
    (w.pc = .lock ∧ s.locked = false ∧
      s' = { s with locked := true, workers := s.workers.set t ⟨.write, w.obj⟩ }) ∨
    (w.pc = .write ∧ s' = { s with
      written := s.written ++ [s.heap w.obj], workers := s.workers.set t ⟨.keep, w.obj⟩ }) ∨
    (w.pc = .keep ∧ test = true ∧ s.started + 1 < nTrees ∧ s' = { s with
            kept := s.kept ++ [w.obj]
            objects := s.objects + 1
            workers := s.workers.set t ⟨.count, s.objects⟩ }) ∨
    (w.pc = .keep ∧ test = true ∧ ¬ s.started + 1 < nTrees ∧
      s' = { s with kept := s.kept ++ [w.obj], workers := s.workers.set t ⟨.count, w.obj⟩ }) ∨
    (w.pc = .keep ∧ test = false ∧ s' = { s with workers := s.workers.set t ⟨.count, w.obj⟩ }) ∨
    (w.pc = .count ∧ s.started < nTrees ∧ s' = { s with
      started := s.started + 1, workers := s.workers.set t ⟨.unlock true, w.obj⟩ }) ∨
    (w.pc = .count ∧ ¬ s.started < nTrees ∧
      s' = { s with workers := s.workers.set t ⟨.unlock false, w.obj⟩ }) ∨
    (w.pc = .unlock true ∧
      s' = { s with locked := false, workers := s.workers.set t ⟨.grow, w.obj⟩ }) ∨
    (w.pc = .unlock false ∧
      s' = { s with locked := false, workers := s.workers.set t ⟨.signal, w.obj⟩ }) ∨
    (w.pc = .signal ∧
      s' = { s with waiting := s.waiting - 1, workers := s.workers.set t ⟨.done, w.obj⟩ })) := by
  unfold Pool.step at h
  by_cases hpan : s.panicked = true
  · rw [if_pos hpan] at h; cases h
  rw [if_neg hpan] at h
  split at h
  · cases h
  · rename_i w hw
    refine ⟨w, hw, ?_⟩
    split at h <;> rename_i hpc
    · simp only [Bool.false_eq_true, if_false, Option.some.injEq] at h
      exact .inl ⟨hpc, h.symm⟩
    · split_ifs at h with hl
      cases h
      exact .inr (.inl ⟨hpc, by simpa using hl, rfl⟩)
    · cases h
      exact .inr (.inr (.inl ⟨hpc, rfl⟩))
    · split_ifs at h with h1 h2
      · cases h
        exact .inr (.inr (.inr (.inl ⟨hpc, h1, h2, rfl⟩)))
      · cases h
        exact .inr (.inr (.inr (.inr (.inl ⟨hpc, h1, h2, rfl⟩))))
      · cases h
        exact .inr (.inr (.inr (.inr (.inr (.inl ⟨hpc, by simpa using h1, rfl⟩)))))
    · split_ifs at h with h1
      · cases h
        exact .inr (.inr (.inr (.inr (.inr (.inr (.inl ⟨hpc, h1, rfl⟩))))))
      · cases h
        exact .inr (.inr (.inr (.inr (.inr (.inr (.inr (.inl ⟨hpc, h1, rfl⟩)))))))
    · rename_i again
      cases again with
      | true =>
        simp only [if_true, Option.some.injEq] at h
        exact .inr (.inr (.inr (.inr (.inr (.inr (.inr (.inr (.inl ⟨hpc, h.symm⟩))))))))
      | false =>
        simp only [Bool.false_eq_true, if_false, Option.some.injEq] at h
        exact .inr (.inr (.inr (.inr (.inr (.inr (.inr (.inr (.inr (.inl ⟨hpc, h.symm⟩)))))))))
    · cases h
      exact .inr (.inr (.inr (.inr (.inr (.inr (.inr (.inr (.inr (.inr ⟨hpc, rfl⟩)))))))))
    · cases h
    · cases h

theorem PoolInv.step {nTrees nCores : Nat} {test : Bool} {s s' : Pool}
    (h : PoolInv nTrees nCores s) {t : Nat} (hs : s.step nTrees test t false = some s') :
    PoolInv nTrees nCores s' := by
  obtain ⟨w, hw, hc⟩ := Pool.step_cases hs
  rcases hc with ⟨hpc, rfl⟩ | ⟨hpc, hl, rfl⟩ | ⟨hpc, rfl⟩ | ⟨hpc, ht, hlt, rfl⟩ | ⟨hpc, ht, hlt, rfl⟩ |
    ⟨hpc, ht, rfl⟩ | ⟨hpc, hlt, rfl⟩ | ⟨hpc, hlt, rfl⟩ | ⟨hpc, rfl⟩ | ⟨hpc, rfl⟩ | ⟨hpc, rfl⟩
  · exact h.update hw _ ⟨.lock, w.obj⟩ rfl h.npan (by simp [hpc, Pc.pend]; omega) (le_refl _) h.hi
      (by simp [Pc.leaving]) (by simp) (.inl (by simp [hpc, Pc.inside])) (by simp [hpc, Pc.alive])
      (.inl ⟨rfl, rfl⟩) (.inr (.inr ⟨rfl, rfl, rfl, by simp [hpc, Pc.fresh], rfl⟩))
  · exact h.update hw _ ⟨.write, w.obj⟩ rfl h.npan (by simp [hpc, Pc.pend]; omega) (le_refl _) h.hi
      (by simp [Pc.leaving]) (by simp) (.inr (.inl (by simp [hpc, Pc.inside, hl])))
      (by simp [hpc, Pc.alive])
      (.inl ⟨rfl, rfl⟩) (.inl ⟨rfl, rfl, rfl, by simp [hpc, Pc.fresh]⟩)
  · exact h.update hw _ ⟨.keep, w.obj⟩ rfl h.npan (by simp [hpc, Pc.pend]; omega) (le_refl _) h.hi
      (by simp [Pc.leaving]) (by simp) (.inl (by simp [hpc, Pc.inside]))
      (by simp [hpc, Pc.alive])
      (.inl ⟨rfl, rfl⟩) (.inr (.inl ⟨rfl, rfl, rfl, by simp [hpc, Pc.fresh], rfl, rfl⟩))
  · exact h.update hw _ ⟨.count, s.objects⟩ rfl h.npan (by simp [hpc, Pc.pend]; omega) (le_refl _) h.hi
      (by simp [Pc.leaving]) (by simp) (.inl (by simp [hpc, Pc.inside]))
      (by simp [hpc, Pc.alive])
      (.inr ⟨rfl, rfl⟩) (.inl ⟨rfl, rfl, rfl, by simp [Pc.fresh]⟩)
  · exact h.update hw _ ⟨.count, w.obj⟩ rfl h.npan (by simp [hpc, Pc.pend]; omega) (le_refl _) h.hi
      (by simp [Pc.leaving]) (by simp) (.inl (by simp [hpc, Pc.inside]))
      (by simp [hpc, Pc.alive])
      (.inl ⟨rfl, rfl⟩) (.inl ⟨rfl, rfl, rfl, by simp [Pc.fresh]⟩)
  · exact h.update hw _ ⟨.count, w.obj⟩ rfl h.npan (by simp [hpc, Pc.pend]; omega) (le_refl _) h.hi
      (by simp [Pc.leaving]) (by simp) (.inl (by simp [hpc, Pc.inside]))
      (by simp [hpc, Pc.alive])
      (.inl ⟨rfl, rfl⟩) (.inl ⟨rfl, rfl, rfl, by simp [Pc.fresh]⟩)
  · exact h.update hw _ ⟨.unlock true, w.obj⟩ rfl h.npan (by simp [hpc, Pc.pend]; omega)
      (Nat.le_succ _) (le_trans hlt (le_max_left _ _))
      (by simp [Pc.leaving]) (by simp) (.inl (by simp [hpc, Pc.inside]))
      (by simp [hpc, Pc.alive])
      (.inl ⟨rfl, rfl⟩) (.inl ⟨rfl, rfl, rfl, by simp [Pc.fresh]⟩)
  · exact h.update hw _ ⟨.unlock false, w.obj⟩ rfl h.npan (by simp [hpc, Pc.pend]; omega)
      (le_refl _) h.hi
      (fun _ => not_lt.1 hlt) (by simp) (.inl (by simp [hpc, Pc.inside]))
      (by simp [hpc, Pc.alive])
      (.inl ⟨rfl, rfl⟩) (.inl ⟨rfl, rfl, rfl, by simp [Pc.fresh]⟩)
  · exact h.update hw _ ⟨.grow, w.obj⟩ rfl h.npan (by simp [hpc, Pc.pend]; omega)
      (le_refl _) h.hi
      (by simp [Pc.leaving]) (by simp) (.inr (.inr (by simp [hpc, Pc.inside])))
      (by simp [hpc, Pc.alive])
      (.inl ⟨rfl, rfl⟩) (.inl ⟨rfl, rfl, rfl, by simp [Pc.fresh]⟩)
  · exact h.update hw _ ⟨.signal, w.obj⟩ rfl h.npan (by simp [hpc, Pc.pend]; omega)
      (le_refl _) h.hi
      (fun _ => h.out t w hw (by simp [hpc, Pc.leaving])) (by simp)
      (.inr (.inr (by simp [hpc, Pc.inside])))
      (by simp [hpc, Pc.alive])
      (.inl ⟨rfl, rfl⟩) (.inl ⟨rfl, rfl, rfl, by simp [Pc.fresh]⟩)
  · have hpos : 1 ≤ s.waiting := by
      rw [h.wait]
      have h0 : ((s.workers.set t ⟨.done, w.obj⟩).map fun w => w.pc.alive).sum + w.pc.alive =
          (s.workers.map fun w => w.pc.alive).sum + 0 :=
        sum_map_set (fun w : Worker => w.pc.alive) s.workers t w ⟨.done, w.obj⟩ hw
      have h1 : w.pc.alive = 1 := by rw [hpc]; rfl
      omega
    exact h.update hw _ ⟨.done, w.obj⟩ rfl h.npan (by simp [hpc, Pc.pend]; omega)
      (le_refl _) h.hi
      (fun _ => h.out t w hw (by simp [hpc, Pc.leaving])) (by simp)
      (.inl (by simp [hpc, Pc.inside]))
      (by simp [hpc, Pc.alive]; omega)
      (.inl ⟨rfl, rfl⟩) (.inl ⟨rfl, rfl, rfl, by simp [Pc.fresh]⟩)

/-- Steps left. -/
def Pool.measure (nTrees nCores : Nat) (s : Pool) : Nat :=
  (s.workers.map fun w => w.pc.rank).sum + 6 * (max nTrees nCores - s.started)

theorem Pool.step_measure {nTrees nCores : Nat} {test : Bool} {s s' : Pool} {t : Nat}
    (hs : s.step nTrees test t false = some s') :
    s'.measure nTrees nCores + 1 = s.measure nTrees nCores := by
  obtain ⟨w, hw, hc⟩ := Pool.step_cases hs
  have key : ∀ (w' : Worker) (r r' : Nat), w.pc.rank = r → w'.pc.rank = r' →
      ((s.workers.set t w').map fun w => w.pc.rank).sum + r = (s.workers.map fun w => w.pc.rank).sum + r' := by
    rintro w' r r' rfl rfl
    exact sum_map_set (fun w : Worker => w.pc.rank) s.workers t w w' hw
  unfold Pool.measure
  rcases hc with ⟨hpc, rfl⟩ | ⟨hpc, hl, rfl⟩ | ⟨hpc, rfl⟩ | ⟨hpc, ht, hlt, rfl⟩ | ⟨hpc, ht, hlt, rfl⟩ |
    ⟨hpc, ht, rfl⟩ | ⟨hpc, hlt, rfl⟩ | ⟨hpc, hlt, rfl⟩ | ⟨hpc, rfl⟩ | ⟨hpc, rfl⟩ | ⟨hpc, rfl⟩
  · have := key ⟨.lock, w.obj⟩ 7 6 (by rw [hpc]; rfl) rfl; simp only; omega
  · have := key ⟨.write, w.obj⟩ 6 5 (by rw [hpc]; rfl) rfl; simp only; omega
  · have := key ⟨.keep, w.obj⟩ 5 4 (by rw [hpc]; rfl) rfl; simp only; omega
  · have := key ⟨.count, s.objects⟩ 4 3 (by rw [hpc]; rfl) rfl; simp only; omega
  · have := key ⟨.count, w.obj⟩ 4 3 (by rw [hpc]; rfl) rfl; simp only; omega
  · have := key ⟨.count, w.obj⟩ 4 3 (by rw [hpc]; rfl) rfl; simp only; omega
  · have := key ⟨.unlock true, w.obj⟩ 3 8 (by rw [hpc]; rfl) rfl
    have := le_max_left nTrees nCores
    simp only; omega
  · have := key ⟨.unlock false, w.obj⟩ 3 2 (by rw [hpc]; rfl) rfl; simp only; omega
  · have := key ⟨.grow, w.obj⟩ 8 7 (by rw [hpc]; rfl) rfl; simp only; omega
  · have := key ⟨.signal, w.obj⟩ 2 1 (by rw [hpc]; rfl) rfl; simp only; omega
  · have := key ⟨.done, w.obj⟩ 1 0 (by rw [hpc]; rfl) rfl; simp only; omega

/-- Some worker can go on unless all have finished. -/
theorem PoolInv.progress {nTrees nCores : Nat} {s : Pool} (h : PoolInv nTrees nCores s)
    (test : Bool) (hnf : ¬ s.Finished) : ∃ t s', s.step nTrees test t false = some s' := by
  have hin : ∀ (t : Nat) w, s.workers[t]? = some w → w.pc ≠ .lock → w.pc ≠ .done →
      ∃ s', s.step nTrees test t false = some s' := by
    intro t w hw h1 h2
    have h3 := h.nstop t w hw
    unfold Pool.step
    simp only [h.npan, Bool.false_eq_true, if_false, hw]
    cases hpc : w.pc with
    | grow => exact ⟨_, rfl⟩
    | lock => exact absurd hpc h1
    | write => exact ⟨_, rfl⟩
    | keep =>
      simp only
      split_ifs <;> exact ⟨_, rfl⟩
    | count =>
      simp only
      split_ifs <;> exact ⟨_, rfl⟩
    | unlock again => exact ⟨_, rfl⟩
    | signal => exact ⟨_, rfl⟩
    | done => exact absurd hpc h2
    | stopped => exact absurd hpc h3
  unfold Pool.Finished at hnf
  push_neg at hnf
  obtain ⟨w, hw, hpc⟩ := hnf
  obtain ⟨t, ht⟩ := List.mem_iff_getElem?.1 hw
  by_cases hl : w.pc = .lock
  · cases hlk : s.locked with
    | false =>
      refine ⟨t, ?_⟩
      unfold Pool.step
      simp only [h.npan, Bool.false_eq_true, if_false, ht, hl, hlk]
      exact ⟨_, rfl⟩
    | true =>
      obtain ⟨t', w', ht', hin'⟩ := h.held hlk
      refine ⟨t', hin t' w' ht' ?_ ?_⟩
      · intro e; rw [e] at hin'; cases hin'
      · intro e; rw [e] at hin'; cases hin'
  · exact ⟨t, hin t w ht hl hpc⟩

/-- Being on the way to keeping its tree. -/
def Pc.toKeep : Pc → Bool
  | .unlock true | .grow | .lock | .write | .keep => true
  | _ => false

/-- Towards the duplicated tree: `kept` has a repetition, or will have one. -/
structure DupInv (nTrees : Nat) (s : Pool) : Prop where
  counted : ∀ (t : Nat) w, s.workers[t]? = some w → w.pc = .count → nTrees ≤ s.started + 1 →
    w.obj ∈ s.kept
  dup : nTrees ≤ s.started → ¬ s.kept.Nodup ∨ ∃ (t : Nat) (w : Worker),
    s.workers[t]? = some w ∧ w.obj ∈ s.kept ∧ w.pc.toKeep = true

theorem DupInv.step {nTrees nCores : Nat} {s s' : Pool} (hp : PoolInv nTrees nCores s)
    (h : DupInv nTrees s) {t : Nat} (hs : s.step nTrees true t false = some s') :
    DupInv nTrees s' := by
  obtain ⟨w, hw, hc⟩ := Pool.step_cases hs
  have key : ∀ (s' : Pool) (w' : Worker), s'.workers = s.workers.set t w' →
      s'.started = s.started → (s'.kept = s.kept ∧ w'.obj = w.obj) → w'.pc ≠ .count →
      (w.pc.toKeep = true → w'.pc.toKeep = true) → DupInv nTrees s' := by
    intro s' w' hws hst ⟨hk, ho⟩ hnc htk
    have hget := getElem?_set' hw w'
    constructor
    · intro t1 w1 h1 hc1
      rw [hws, hget] at h1
      rw [hst, hk]
      split_ifs at h1
      · cases h1; exact absurd hc1 hnc
      · exact h.counted t1 w1 h1 hc1
    · rw [hst, hk]
      intro hle
      rcases h.dup hle with hd | ⟨t1, w1, h1, hm, htk1⟩
      · exact .inl hd
      · right
        by_cases htt : t = t1
        · subst htt
          rw [hw] at h1; cases h1
          exact ⟨t, w', by rw [hws, hget, if_pos rfl], by rw [ho]; exact hm, htk htk1⟩
        · exact ⟨t1, w1, by rw [hws, hget, if_neg htt]; exact h1, hm, htk1⟩
  have keepKey : ∀ (s' : Pool) (w' : Worker), s'.workers = s.workers.set t w' →
      s'.started = s.started → s'.kept = s.kept ++ [w.obj] → w.pc = .keep →
      (nTrees ≤ s.started + 1 → w'.obj = w.obj) → DupInv nTrees s' := by
    intro s' w' hws hst hk hpc ho
    have hget := getElem?_set' hw w'
    constructor
    · intro t1 w1 h1 hc1 hle
      rw [hws, hget] at h1
      rw [hk, List.mem_append, List.mem_singleton]
      rw [hst] at hle
      split_ifs at h1
      · cases h1; exact .inr (ho hle)
      · exact .inl (h.counted t1 w1 h1 hc1 hle)
    · rw [hst, hk]
      intro hle
      rcases h.dup hle with hd | ⟨t1, w1, h1, hm, htk1⟩
      · left
        intro hn
        exact hd (List.nodup_append.1 hn).1
      · by_cases htt : t = t1
        · subst htt
          rw [hw] at h1; cases h1
          left
          intro hn
          exact (List.nodup_append.1 hn).2.2 _ hm _ (by simp) rfl
        · right
          exact ⟨t1, w1, by rw [hws, hget, if_neg htt]; exact h1, by simp [hm], htk1⟩
  rcases hc with ⟨hpc, rfl⟩ | ⟨hpc, hl, rfl⟩ | ⟨hpc, rfl⟩ | ⟨hpc, ht, hlt, rfl⟩ | ⟨hpc, ht, hlt, rfl⟩ |
    ⟨hpc, ht, rfl⟩ | ⟨hpc, hlt, rfl⟩ | ⟨hpc, hlt, rfl⟩ | ⟨hpc, rfl⟩ | ⟨hpc, rfl⟩ | ⟨hpc, rfl⟩
  · exact key _ ⟨.lock, w.obj⟩ rfl rfl ⟨rfl, rfl⟩ (by simp) (by simp [Pc.toKeep])
  · exact key _ ⟨.write, w.obj⟩ rfl rfl ⟨rfl, rfl⟩ (by simp) (by simp [Pc.toKeep])
  · exact key _ ⟨.keep, w.obj⟩ rfl rfl ⟨rfl, rfl⟩ (by simp) (by simp [Pc.toKeep])
  · exact keepKey _ ⟨.count, s.objects⟩ rfl rfl rfl hpc (fun hle => by omega)
  · exact keepKey _ ⟨.count, w.obj⟩ rfl rfl rfl hpc (fun _ => rfl)
  · cases ht
  · have hget := getElem?_set' hw ⟨.unlock true, w.obj⟩
    constructor
    · intro t1 w1 h1 hc1 hle
      simp only at h1 hle ⊢
      rw [hget] at h1
      split_ifs at h1 with htt
      · cases h1; cases hc1
      · exact absurd (hp.uniq t t1 w w1 hw h1 (by simp [hpc, Pc.inside]) (by simp [hc1, Pc.inside])) htt
    · intro hle
      simp only at hle ⊢
      by_cases hle' : nTrees ≤ s.started
      · omega
      · right
        exact ⟨t, ⟨.unlock true, w.obj⟩, by rw [hget, if_pos rfl], h.counted t w hw hpc hle, rfl⟩
  · exact key _ ⟨.unlock false, w.obj⟩ rfl rfl ⟨rfl, rfl⟩ (by simp) (by simp [hpc, Pc.toKeep])
  · exact key _ ⟨.grow, w.obj⟩ rfl rfl ⟨rfl, rfl⟩ (by simp) (by simp [Pc.toKeep])
  · exact key _ ⟨.signal, w.obj⟩ rfl rfl ⟨rfl, rfl⟩ (by simp) (by simp [hpc, Pc.toKeep])
  · exact key _ ⟨.done, w.obj⟩ rfl rfl ⟨rfl, rfl⟩ (by simp) (by simp [hpc, Pc.toKeep])

/-- With at most as many trees as workers every worker grows a single tree. -/
structure OnceInv (s : Pool) : Prop where
  noagain : ∀ (t : Nat) w, s.workers[t]? = some w → w.pc ≠ .unlock true
  notyet : ∀ (t : Nat) w, s.workers[t]? = some w → w.pc.toKeep = true → w.obj ∉ s.kept
  same : (∃ (t : Nat) (w : Worker), s.workers[t]? = some w ∧ w.pc = .keep ∧
      s.written = s.kept.map s.heap ++ [s.heap w.obj]) ∨
    ((∀ (t : Nat) w, s.workers[t]? = some w → w.pc ≠ .keep) ∧ s.written = s.kept.map s.heap)

theorem OnceInv.step {nTrees nCores : Nat} (hle : nTrees ≤ nCores) {s s' : Pool}
    (hp : PoolInv nTrees nCores s) (h : OnceInv s) {t : Nat}
    (hs : s.step nTrees true t false = some s') : OnceInv s' := by
  obtain ⟨w, hw, hc⟩ := Pool.step_cases hs
  have hlo := hp.lo
  have key : ∀ (s' : Pool) (w' : Worker), s'.workers = s.workers.set t w' →
      (s'.kept = s.kept ∧ s'.written = s.written ∧ w'.obj = w.obj) →
      (s'.heap = s.heap ∨ (w.pc = .grow ∧ s'.heap = fun o => if o = w.obj then s.grown else s.heap o)) →
      w'.pc ≠ .unlock true → w.pc ≠ .keep → w'.pc ≠ .keep →
      (w'.pc.toKeep = true → w.pc.toKeep = true) → OnceInv s' := by
    intro s' w' hws ⟨hk, hwr, ho⟩ hh hnu hnk hnk' htk
    have hget := getElem?_set' hw w'
    have hheap : ∀ o, o ≠ w.obj ∨ w.pc ≠ .grow → s'.heap o = s.heap o := by
      intro o ho'
      rcases hh with e | ⟨e1, e2⟩
      · rw [e]
      · rw [e2]
        rcases ho' with ho' | ho'
        · simp [ho']
        · exact absurd e1 ho'
    have hkept : s'.kept.map s'.heap = s.kept.map s.heap := by
      rw [hk]
      apply List.map_congr_left
      intro o hom
      apply hheap
      by_cases hg : w.pc = .grow
      · left
        rintro rfl
        exact h.notyet t w hw (by simp [hg, Pc.toKeep]) hom
      · exact .inr hg
    constructor
    · intro t1 w1 h1
      rw [hws, hget] at h1
      split_ifs at h1
      · cases h1; exact hnu
      · exact h.noagain t1 w1 h1
    · intro t1 w1 h1 htk1
      rw [hws, hget] at h1
      rw [hk]
      split_ifs at h1
      · cases h1; rw [ho]; exact h.notyet t w hw (htk htk1)
      · exact h.notyet t1 w1 h1 htk1
    · rw [hkept, hwr]
      rcases h.same with ⟨t1, w1, h1, hk1, e⟩ | ⟨hno, e⟩
      · left
        have htt : t ≠ t1 := by
          rintro rfl
          rw [hw] at h1; cases h1
          exact hnk hk1
        refine ⟨t1, w1, by rw [hws, hget, if_neg htt]; exact h1, hk1, ?_⟩
        rw [hheap w1.obj (.inl fun he => htt (hp.own t1 t w1 w h1 hw he).symm)]
        exact e
      · right
        refine ⟨?_, e⟩
        intro t1 w1 h1
        rw [hws, hget] at h1
        split_ifs at h1
        · cases h1; exact hnk'
        · exact hno t1 w1 h1
  rcases hc with ⟨hpc, rfl⟩ | ⟨hpc, hl, rfl⟩ | ⟨hpc, rfl⟩ | ⟨hpc, ht, hlt, rfl⟩ | ⟨hpc, ht, hlt, rfl⟩ |
    ⟨hpc, ht, rfl⟩ | ⟨hpc, hlt, rfl⟩ | ⟨hpc, hlt, rfl⟩ | ⟨hpc, rfl⟩ | ⟨hpc, rfl⟩ | ⟨hpc, rfl⟩
  · exact key _ ⟨.lock, w.obj⟩ rfl ⟨rfl, rfl, rfl⟩ (.inr ⟨hpc, rfl⟩) (by simp) (by simp [hpc]) (by simp)
      (by simp [hpc, Pc.toKeep])
  · exact key _ ⟨.write, w.obj⟩ rfl ⟨rfl, rfl, rfl⟩ (.inl rfl) (by simp) (by simp [hpc]) (by simp)
      (by simp [hpc, Pc.toKeep])
  · have hget := getElem?_set' hw ⟨.keep, w.obj⟩
    constructor
    · intro t1 w1 h1
      simp only at h1
      rw [hget] at h1
      split_ifs at h1
      · cases h1; simp
      · exact h.noagain t1 w1 h1
    · intro t1 w1 h1 htk1
      simp only at h1 ⊢
      rw [hget] at h1
      split_ifs at h1
      · cases h1; exact h.notyet t w hw (by simp [hpc, Pc.toKeep])
      · exact h.notyet t1 w1 h1 htk1
    · left
      refine ⟨t, ⟨.keep, w.obj⟩, by simp only; rw [hget, if_pos rfl], rfl, ?_⟩
      simp only
      rcases h.same with ⟨t1, w1, h1, hk1, e⟩ | ⟨hno, e⟩
      · have := hp.uniq t t1 w w1 hw h1 (by simp [hpc, Pc.inside]) (by simp [hk1, Pc.inside])
        subst this
        rw [hw] at h1; cases h1
        rw [hpc] at hk1; cases hk1
      · rw [e]
  · omega
  · have hget := getElem?_set' hw ⟨.count, w.obj⟩
    constructor
    · intro t1 w1 h1
      simp only at h1
      rw [hget] at h1
      split_ifs at h1
      · cases h1; simp
      · exact h.noagain t1 w1 h1
    · intro t1 w1 h1 htk1
      simp only at h1 ⊢
      rw [hget] at h1
      split_ifs at h1 with htt
      · cases h1; cases htk1
      · rw [List.mem_append, List.mem_singleton]
        rintro (hm | hm)
        · exact h.notyet t1 w1 h1 htk1 hm
        · exact htt (hp.own t1 t w1 w h1 hw hm).symm
    · right
      have hone : ∀ (t1 : Nat) w1, s.workers[t1]? = some w1 → w1.pc = .keep → t = t1 :=
        fun t1 w1 h1 hk1 => hp.uniq t t1 w w1 hw h1 (by simp [hpc, Pc.inside]) (by simp [hk1, Pc.inside])
      constructor
      · intro t1 w1 h1 hk1
        simp only at h1
        rw [hget] at h1
        split_ifs at h1 with htt
        · cases h1; cases hk1
        · exact htt (hone t1 w1 h1 hk1)
      · simp only
        rcases h.same with ⟨t1, w1, h1, hk1, e⟩ | ⟨hno, e⟩
        · have := hone t1 w1 h1 hk1
          subst this
          rw [hw] at h1; cases h1
          rw [e]; simp
        · exact absurd hpc (hno t w hw)
  · cases ht
  · omega
  · exact key _ ⟨.unlock false, w.obj⟩ rfl ⟨rfl, rfl, rfl⟩ (.inl rfl) (by simp) (by simp [hpc]) (by simp)
      (by simp [Pc.toKeep])
  · exact absurd hpc (h.noagain t w hw)
  · exact key _ ⟨.signal, w.obj⟩ rfl ⟨rfl, rfl, rfl⟩ (.inl rfl) (by simp) (by simp [hpc]) (by simp)
      (by simp [Pc.toKeep])
  · exact key _ ⟨.done, w.obj⟩ rfl ⟨rfl, rfl, rfl⟩ (.inl rfl) (by simp) (by simp [hpc]) (by simp)
      (by simp [Pc.toKeep])

theorem Pool.run_cons {nTrees : Nat} {test : Bool} {s s' : Pool} {e : Nat × Bool}
    {sched : List (Nat × Bool)} (h : s.run nTrees test (e :: sched) = some s') :
    ∃ s1, s.step nTrees test e.1 e.2 = some s1 ∧ s1.run nTrees test sched = some s' := by
  unfold Pool.run at h
  rw [List.foldlM_cons] at h
  exact Option.bind_eq_some_iff.1 h

theorem PoolInv.run {nTrees nCores : Nat} {test : Bool} {s s' : Pool} {sched : List (Nat × Bool)}
    (h : PoolInv nTrees nCores s) (hb : ∀ e ∈ sched, e.2 = false)
    (hs : s.run nTrees test sched = some s') :
    PoolInv nTrees nCores s' ∧
    s'.measure nTrees nCores + sched.length = s.measure nTrees nCores := by
  induction sched generalizing s with
  | nil => cases hs; exact ⟨h, rfl⟩
  | cons e sched ih =>
    obtain ⟨s1, h1, h2⟩ := Pool.run_cons hs
    rw [hb e (by simp)] at h1
    obtain ⟨h3, h4⟩ := ih (h.step h1) (fun e he => hb e (by simp [he])) h2
    have h5 := Pool.step_measure (nCores := nCores) h1
    refine ⟨h3, ?_⟩
    rw [List.length_cons]
    omega

theorem DupInv.run {nTrees nCores : Nat} {s s' : Pool} {sched : List (Nat × Bool)}
    (hp : PoolInv nTrees nCores s) (h : DupInv nTrees s) (hb : ∀ e ∈ sched, e.2 = false)
    (hs : s.run nTrees true sched = some s') : DupInv nTrees s' := by
  induction sched generalizing s with
  | nil => cases hs; exact h
  | cons e sched ih =>
    obtain ⟨s1, h1, h2⟩ := Pool.run_cons hs
    rw [hb e (by simp)] at h1
    exact ih (hp.step h1) (h.step hp h1) (fun e he => hb e (by simp [he])) h2

theorem OnceInv.run {nTrees nCores : Nat} (hle : nTrees ≤ nCores) {s s' : Pool}
    {sched : List (Nat × Bool)}
    (hp : PoolInv nTrees nCores s) (h : OnceInv s) (hb : ∀ e ∈ sched, e.2 = false)
    (hs : s.run nTrees true sched = some s') : OnceInv s' := by
  induction sched generalizing s with
  | nil => cases hs; exact h
  | cons e sched ih =>
    obtain ⟨s1, h1, h2⟩ := Pool.run_cons hs
    rw [hb e (by simp)] at h1
    exact ih (hp.step h1) (h.step hle hp h1) (fun e he => hb e (by simp [he])) h2

theorem Pool.start_measure (nTrees nCores : Nat) :
    (Pool.start nCores).measure nTrees nCores = 7 * nCores + 6 * (max nTrees nCores - nCores) := by
  unfold Pool.measure Pool.start
  simp only [List.map_map, Function.comp_def, Pc.rank, List.map_const', List.length_range,
    List.sum_replicate_nat]
  omega

theorem Pool.start_worker {nCores t : Nat} {w : Worker} (h : (Pool.start nCores).workers[t]? = some w) :
    w = ⟨.grow, t⟩ := by
  simp only [Pool.start, List.getElem?_map, Option.map_eq_some_iff] at h
  obtain ⟨k, hk, rfl⟩ := h
  obtain ⟨h1, h2⟩ := List.getElem?_eq_some_iff.1 hk
  simp only [List.getElem_range] at h2
  rw [h2]

theorem DupInv.start {nTrees nCores : Nat} (h : nCores < nTrees) : DupInv nTrees (.start nCores) := by
  constructor
  · intro t w hw hc
    rw [Pool.start_worker hw] at hc; cases hc
  · intro hle
    exact absurd (show nTrees ≤ nCores from hle) (by omega)

theorem OnceInv.start (nCores : Nat) : OnceInv (.start nCores) := by
  constructor
  · intro t w hw
    rw [Pool.start_worker hw]; simp
  · intro t w _ _ hk
    cases hk
  · right
    refine ⟨?_, rfl⟩
    intro t w hw
    rw [Pool.start_worker hw]; simp

/-- What a finished pool looks like. -/
theorem PoolInv.finished {nTrees nCores : Nat} (hn : 1 ≤ nCores) {s : Pool}
    (h : PoolInv nTrees nCores s) (hf : s.Finished) :
    s.started = max nTrees nCores ∧ s.written.length = max nTrees nCores ∧ s.waiting = 0 := by
  have hsum : ∀ f : Worker → Nat, (∀ w, w.pc = .done → f w = 0) → (s.workers.map f).sum = 0 := by
    intro f hf0
    apply List.sum_eq_zero
    intro x hx
    obtain ⟨w, hw, rfl⟩ := List.mem_map.1 hx
    exact hf0 w (hf w hw)
  have h1 := hsum (fun w => w.pc.pend) (fun w e => by simp only [e]; rfl)
  have h2 := hsum (fun w => w.pc.alive) (fun w e => by simp only [e]; rfl)
  have h3 := h.cnt
  have h4 := h.wait
  have h5 := h.lo
  have h6 := h.hi
  have h7 : nTrees ≤ s.started := by
    have hlen : 0 < s.workers.length := by rw [h.len]; omega
    have hw : s.workers[0]? = some s.workers[0] := List.getElem?_eq_getElem hlen
    refine h.out 0 _ hw ?_
    rw [hf _ (List.getElem_mem _)]
    rfl
  have h8 : max nTrees nCores ≤ s.started := max_le h7 h5
  omega

/-- One if boosting has stopped the worker. -/
def Pc.halted : Pc → Nat
  | .stopped => 1
  | _ => 0

/-- What holds in every state of the pool, whatever boosting does. -/
structure StopInv (s : Pool) : Prop where
  wait : s.waiting = (s.workers.map fun w => w.pc.alive).sum
  stop : (s.workers.map fun w => w.pc.halted).sum = s.closed.toNat + s.panicked.toNat
  pan : s.panicked = true → s.closed = true

theorem StopInv.start (nCores : Nat) : StopInv (.start nCores) := by
  constructor
  · simp [Pool.start, Function.comp_def, Pc.alive]
  · simp [Pool.start, Function.comp_def, Pc.halted]
  · intro h; cases h

theorem StopInv.step {nTrees : Nat} {test : Bool} {s s' : Pool} (h : StopInv s) {t : Nat} {inf : Bool}
    (hs : s.step nTrees test t inf = some s') : StopInv s' := by
  have key : ∀ (w w' : Worker) (s' : Pool), s.workers[t]? = some w → s'.workers = s.workers.set t w' →
      s'.closed = s.closed → s'.panicked = s.panicked → w.pc.halted = 0 → w'.pc.halted = 0 →
      s'.waiting + w.pc.alive = s.waiting + w'.pc.alive → StopInv s' := by
    intro w w' s' hw hws hc hp h0 h0' ha
    have h1 := sum_map_set (fun w : Worker => w.pc.alive) s.workers t w w' hw
    have h2 := sum_map_set (fun w : Worker => w.pc.halted) s.workers t w w' hw
    have h3 := h.wait
    have h4 := h.stop
    constructor
    · rw [hws]; omega
    · rw [hws, hc, hp]; omega
    · rw [hc, hp]; exact h.pan
  cases inf with
  | false =>
    obtain ⟨w, hw, hc⟩ := Pool.step_cases hs
    rcases hc with ⟨hpc, rfl⟩ | ⟨hpc, hl, rfl⟩ | ⟨hpc, rfl⟩ | ⟨hpc, ht, hlt, rfl⟩ | ⟨hpc, ht, hlt, rfl⟩ |
      ⟨hpc, ht, rfl⟩ | ⟨hpc, hlt, rfl⟩ | ⟨hpc, hlt, rfl⟩ | ⟨hpc, rfl⟩ | ⟨hpc, rfl⟩ | ⟨hpc, rfl⟩
    · exact key w _ _ hw rfl rfl rfl (by rw [hpc]; rfl) rfl (by rw [hpc]; rfl)
    · exact key w _ _ hw rfl rfl rfl (by rw [hpc]; rfl) rfl (by rw [hpc]; rfl)
    · exact key w _ _ hw rfl rfl rfl (by rw [hpc]; rfl) rfl (by rw [hpc]; rfl)
    · exact key w _ _ hw rfl rfl rfl (by rw [hpc]; rfl) rfl (by rw [hpc]; rfl)
    · exact key w _ _ hw rfl rfl rfl (by rw [hpc]; rfl) rfl (by rw [hpc]; rfl)
    · exact key w _ _ hw rfl rfl rfl (by rw [hpc]; rfl) rfl (by rw [hpc]; rfl)
    · exact key w _ _ hw rfl rfl rfl (by rw [hpc]; rfl) rfl (by rw [hpc]; rfl)
    · exact key w _ _ hw rfl rfl rfl (by rw [hpc]; rfl) rfl (by rw [hpc]; rfl)
    · exact key w _ _ hw rfl rfl rfl (by rw [hpc]; rfl) rfl (by rw [hpc]; rfl)
    · exact key w _ _ hw rfl rfl rfl (by rw [hpc]; rfl) rfl (by rw [hpc]; rfl)
    · have hpos : 1 ≤ s.waiting := by
        rw [h.wait]
        have h0 : ((s.workers.set t ⟨.done, w.obj⟩).map fun w => w.pc.alive).sum + w.pc.alive =
            (s.workers.map fun w => w.pc.alive).sum + 0 :=
          sum_map_set (fun w : Worker => w.pc.alive) s.workers t w ⟨.done, w.obj⟩ hw
        have h1 : w.pc.alive = 1 := by rw [hpc]; rfl
        omega
      refine key w _ _ hw rfl rfl rfl (by rw [hpc]; rfl) rfl ?_
      have h1 : w.pc.alive = 1 := by rw [hpc]; rfl
      have h2 : Pc.done.alive = 0 := rfl
      simp only
      omega
  | true =>
    by_cases hg : ∃ w, s.workers[t]? = some w ∧ w.pc = .grow
    · obtain ⟨w, hw, hpc⟩ := hg
      unfold Pool.step at hs
      by_cases hpan : s.panicked = true
      · rw [if_pos hpan] at hs; cases hs
      rw [if_neg hpan, hw] at hs
      simp only [hpc, if_true, Option.some.injEq] at hs
      subst hs
      have h1 : ((s.workers.set t ⟨.stopped, w.obj⟩).map fun w => w.pc.alive).sum + w.pc.alive =
          (s.workers.map fun w => w.pc.alive).sum + 1 :=
        sum_map_set (fun w : Worker => w.pc.alive) s.workers t w ⟨.stopped, w.obj⟩ hw
      have h2 : ((s.workers.set t ⟨.stopped, w.obj⟩).map fun w => w.pc.halted).sum + w.pc.halted =
          (s.workers.map fun w => w.pc.halted).sum + 1 :=
        sum_map_set (fun w : Worker => w.pc.halted) s.workers t w ⟨.stopped, w.obj⟩ hw
      have h3 : w.pc.alive = 1 := by rw [hpc]; rfl
      have h4 : w.pc.halted = 0 := by rw [hpc]; rfl
      have h5 := h.wait
      have h6 := h.stop
      have h7 : s.panicked = false := by simpa using hpan
      rw [h7] at h6
      constructor
      · simp only; omega
      · simp only [Bool.toNat_true, Bool.toNat_false] at h6 ⊢
        omega
      · intro _; rfl
    · have : s.step nTrees test t true = s.step nTrees test t false := by
        unfold Pool.step
        by_cases hpan : s.panicked = true
        · rw [if_pos hpan, if_pos hpan]
        rw [if_neg hpan, if_neg hpan]
        cases hw : s.workers[t]? with
        | none => rfl
        | some w =>
          cases hpc : w.pc with
          | grow => exact absurd ⟨w, hw, hpc⟩ hg
          | _ => simp only [hpc]
      rw [this] at hs
      exact StopInv.step h hs
termination_by inf.toNat

theorem StopInv.run {nTrees : Nat} {test : Bool} {s s' : Pool} {sched : List (Nat × Bool)}
    (h : StopInv s) (hs : s.run nTrees test sched = some s') : StopInv s' := by
  induction sched generalizing s with
  | nil => cases hs; exact h
  | cons e sched ih =>
    obtain ⟨s1, h1, h2⟩ := Pool.run_cons hs
    exact ih (h.step h1) h2

theorem le_sum_of_getElem? {α : Type} (f : α → Nat) (l : List α) (t : Nat) (a : α) (h : l[t]? = some a) :
    f a ≤ (l.map f).sum := by
  induction l generalizing t with
  | nil => cases h
  | cons x l ih =>
    rw [List.map_cons, List.sum_cons]
    cases t with
    | zero => cases h; omega
    | succ t => have := ih t h; omega

theorem two_le_sum {α : Type} (f : α → Nat) (l : List α) (t t' : Nat) (a a' : α) (htt : t < t')
    (h : l[t]? = some a) (h' : l[t']? = some a') : f a + f a' ≤ (l.map f).sum := by
  induction l generalizing t t' with
  | nil => cases h
  | cons x l ih =>
    rw [List.map_cons, List.sum_cons]
    cases t' with
    | zero => omega
    | succ t' =>
      cases t with
      | zero => cases h; have := le_sum_of_getElem? f l t' a' h'; omega
      | succ t => have := ih t t' (by omega) h h'; omega

end CloudForest
