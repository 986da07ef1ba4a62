import Verif.Model.Concurrent
import Mathlib.Data.List.Perm.Basic
import Mathlib.Data.List.Flatten

/-!
# Every interleaving of critical sections is a sequence of critical sections
-/

set_option linter.unusedSectionVars false

namespace CloudForest
variable {C σ R : Type}

/-- The box after the accesses. -/
def runBody : List (σ → R → σ × R) → σ → R → σ
  | [], x, _ => x
  | f :: fs, x, r => runBody fs (f x r).1 (f x r).2

/-- Executed from variables `r` while the rest of shared memory is `c`, the accesses `pre` change
no memory, whatever happens to the boxes in between, and then the accesses `body` apply `e`. -/
def PreOK (c : C) (e : σ → σ) (body : List (σ → R → σ × R)) :
    List (Mem C σ → R → Mem C σ × R) → R → Prop
  | [], r => ∀ x, runBody body x r = e x
  | f :: pre, r => ∃ r', (∀ box, f ⟨c, box⟩ r = (⟨c, box⟩, r')) ∧ PreOK c e body pre r'

/-- The effect of a section on its box. -/
def Section.Effect (c : C) (s : Section C σ R) (e : σ → σ) : Prop := ∀ r, PreOK c e s.body s.pre r

/-- Applying the effects of sections one after the other. -/
def seqBoxes (eff : Section C σ R → σ → σ) (box : Nat → σ) (l : List (Section C σ R)) : Nat → σ :=
  l.foldl (fun box s => fun d => if d = s.cell then eff s (box d) else box d) box

theorem seqBoxes_append (eff : Section C σ R → σ → σ) (box : Nat → σ) (l : List (Section C σ R))
    (s : Section C σ R) :
    seqBoxes eff box (l ++ [s]) =
      fun d => if d = s.cell then eff s (seqBoxes eff box l d) else seqBoxes eff box l d := by
  simp [seqBoxes]

/-- Where a goroutine is. -/
inductive Phase (C σ R : Type) where
  | done
  | before (pre : List (Mem C σ → R → Mem C σ × R)) (s : Section C σ R) (rest : List (Section C σ R))
  | inside (body : List (σ → R → σ × R)) (s : Section C σ R) (rest : List (Section C σ R))

namespace Phase

/-- The instructions left. -/
def code : Phase C σ R → List (Instr (Mem C σ) R)
  | done => []
  | before pre s rest => pre.map .act ++ .lock s.cell ::
      ((s.body.map fun f => .act (onBox s.cell f)) ++ .unlock s.cell :: rest.flatMap Section.code)
  | inside body s rest =>
      (body.map fun f => .act (onBox s.cell f)) ++ .unlock s.cell :: rest.flatMap Section.code

/-- The sections not yet entered. -/
def pending : Phase C σ R → List (Section C σ R)
  | done => []
  | before _ s rest => s :: rest
  | inside _ _ rest => rest

/-- Before the first of some sections. -/
def start : List (Section C σ R) → Phase C σ R
  | [] => done
  | s :: rest => before s.pre s rest

theorem code_start (l : List (Section C σ R)) : (start l).code = l.flatMap Section.code := by
  cases l with
  | nil => rfl
  | cons s rest => simp [start, code, Section.code]

theorem pending_start (l : List (Section C σ R)) : (start l).pending = l := by
  cases l <;> rfl

end Phase

/-- What holds at every moment. `l` are the sections entered so far, in this order. -/
structure LockInv (eff : Section C σ R → σ → σ) (c₀ : C) (box₀ : Nat → σ)
    (all : List (Section C σ R)) (s : Sys (Mem C σ) R) (ph : List (Phase C σ R × R))
    (l : List (Section C σ R)) : Prop where
  threads : s.threads = ph.map fun p => ⟨p.1.code, p.2⟩
  shared : s.mem.shared = c₀
  perm : (l ++ ph.flatMap fun p => p.1.pending).Perm all
  pre : ∀ (t : Nat) pre sec rest r, ph[t]? = some (.before pre sec rest, r) →
    PreOK c₀ (eff sec) sec.body pre r
  body : ∀ (t : Nat) body sec rest r, ph[t]? = some (.inside body sec rest, r) →
    s.held sec.cell = true ∧ runBody body (s.mem.box sec.cell) r = seqBoxes eff box₀ l sec.cell
  uniq : ∀ (t t' : Nat) body sec rest r body' sec' rest' r',
    ph[t]? = some (.inside body sec rest, r) → ph[t']? = some (.inside body' sec' rest', r') →
    sec.cell = sec'.cell → t = t'
  free : ∀ c, s.held c = false → s.mem.box c = seqBoxes eff box₀ l c
  taken : ∀ c, s.held c = true → ∃ (t : Nat) (body : _) (sec : _) (rest : _) (r : _),
    ph[t]? = some (.inside body sec rest, r) ∧ sec.cell = c

theorem perm_set_flatMap {α β : Type} (g : α → List β) (l : List α) (t : Nat) (a b : α)
    (h : l[t]? = some a) :
    ∃ rest, (l.flatMap g).Perm (g a ++ rest) ∧ ((l.set t b).flatMap g).Perm (g b ++ rest) := by
  induction l generalizing t with
  | nil => cases h
  | cons x l ih =>
    cases t with
    | zero =>
      cases h
      exact ⟨l.flatMap g, by simp, by simp⟩
    | succ t =>
      obtain ⟨rest, h1, h2⟩ := ih t h
      refine ⟨g x ++ rest, ?_, ?_⟩
      · rw [List.flatMap_cons]
        exact (h1.append_left _).trans (by
          rw [← List.append_assoc, ← List.append_assoc]
          exact List.perm_append_comm.append_right _)
      · rw [List.set_cons_succ, List.flatMap_cons]
        exact (h2.append_left _).trans (by
          rw [← List.append_assoc, ← List.append_assoc]
          exact List.perm_append_comm.append_right _)

variable {eff : Section C σ R → σ → σ} {c₀ : C} {box₀ : Nat → σ} {all : List (Section C σ R)}

theorem LockInv.init (r : R) (progs : List (List (Section C σ R)))
    (h : ∀ p ∈ progs, ∀ s ∈ p, s.Effect c₀ (eff s)) :
    LockInv eff c₀ box₀ progs.flatten (.ofSections ⟨c₀, box₀⟩ r progs)
      (progs.map fun p => (.start p, r)) [] where
  threads := by simp [Sys.ofSections, Phase.code_start]
  shared := rfl
  perm := by
    rw [List.nil_append, List.flatMap_map]
    simp [Phase.pending_start, List.flatMap_def]
  pre t pre sec rest r' ht := by
    rw [List.getElem?_map, Option.map_eq_some_iff] at ht
    obtain ⟨p, hp, he⟩ := ht
    cases p with
    | nil => simp [Phase.start] at he
    | cons s rest' =>
      simp only [Phase.start, Prod.mk.injEq, Phase.before.injEq] at he
      obtain ⟨⟨rfl, rfl, rfl⟩, rfl⟩ := he
      exact h _ (List.mem_of_getElem? hp) _ (by simp) _
  body t body sec rest r' ht := by
    rw [List.getElem?_map, Option.map_eq_some_iff] at ht
    obtain ⟨p, hp, he⟩ := ht
    cases p <;> simp [Phase.start] at he
  uniq t t' body sec rest r' body' sec' rest' r'' ht := by
    rw [List.getElem?_map, Option.map_eq_some_iff] at ht
    obtain ⟨p, hp, he⟩ := ht
    cases p <;> simp [Phase.start] at he
  free c _ := rfl
  taken c h := by cases h

theorem LockInv.mem_all {s : Sys (Mem C σ) R} {ph : List (Phase C σ R × R)} {l : List (Section C σ R)}
    (h : LockInv eff c₀ box₀ all s ph l) {t : Nat} {p : Phase C σ R × R} (ht : ph[t]? = some p)
    {sec : Section C σ R} (hs : sec ∈ p.1.pending) : sec ∈ all := by
  refine h.perm.mem_iff.1 (List.mem_append_right _ ?_)
  exact List.mem_flatMap.2 ⟨p, List.mem_of_getElem? ht, hs⟩

theorem set_set_code (ph : List (Phase C σ R × R)) (t : Nat) (q : Phase C σ R) (r : R) :
    (ph.map fun p => (⟨p.1.code, p.2⟩ : Thread (Mem C σ) R)).set t ⟨q.code, r⟩ =
      (ph.set t (q, r)).map fun p => ⟨p.1.code, p.2⟩ := by
  rw [List.map_set]

/-- The invariant survives every step. -/
theorem LockInv.step (hall : ∀ sec ∈ all, sec.Effect c₀ (eff sec)) {s s' : Sys (Mem C σ) R}
    {ph : List (Phase C σ R × R)} {l : List (Section C σ R)} (h : LockInv eff c₀ box₀ all s ph l)
    {t : Nat} (hstep : s.step t = some s') :
    ∃ ph' l', LockInv eff c₀ box₀ all s' ph' l' := by
  cases hp : ph[t]? with
  | none =>
    have : s.threads[t]? = none := by rw [h.threads, List.getElem?_map, hp]; rfl
    simp [Sys.step, this] at hstep
  | some p =>
    obtain ⟨p, r⟩ := p
    have hth : s.threads[t]? = some ⟨p.code, r⟩ := by rw [h.threads, List.getElem?_map, hp]; rfl
    have hlt : t < ph.length := (List.getElem?_eq_some_iff.1 hp).1
    have hset : ∀ q (t' : Nat), (ph.set t q)[t']? = if t = t' then some q else ph[t']? := by
      intro q t'
      rw [List.getElem?_set]
      by_cases htt : t = t'
      · subst htt; simp [hlt]
      · simp [htt]
    cases p with
    | done => simp [Sys.step, hth, Phase.code] at hstep
    | before pre sec rest =>
      cases pre with
      | cons f pre =>
        -- an access without lock
        obtain ⟨r', hf, hpre⟩ := h.pre t _ _ _ _ hp
        have hm : s.mem = ⟨c₀, s.mem.box⟩ := by rw [← h.shared]
        have hs' : s' = ⟨s.mem, s.held, s.threads.set t ⟨(Phase.before pre sec rest).code, r'⟩⟩ := by
          rw [Sys.step, hth] at hstep
          simp only [Phase.code, List.map_cons, List.cons_append, Option.some.injEq] at hstep
          rw [hm, hf] at hstep
          rw [← hstep]
          rw [hm]
          rfl
        refine ⟨ph.set t (.before pre sec rest, r'), l, ?_⟩
        subst hs'
        constructor
        · rw [h.threads, set_set_code]
        · exact h.shared
        · obtain ⟨rs, h1, h2⟩ := perm_set_flatMap (fun p : Phase C σ R × R => p.1.pending) ph t _
            (.before pre sec rest, r') hp
          exact ((h2.trans h1.symm).append_left l).trans h.perm
        · intro t' pre' sec' rest' r'' ht'
          rw [hset] at ht'
          split_ifs at ht' with htt
          · cases ht'; exact hpre
          · exact h.pre _ _ _ _ _ ht'
        · intro t' body' sec' rest' r'' ht'
          rw [hset] at ht'
          split_ifs at ht' with htt
          · cases ht'
          · exact h.body _ _ _ _ _ ht'
        · intro t1 t2 b1 s1 rs1 r1 b2 s2 rs2 r2 h1 h2
          rw [hset] at h1 h2
          split_ifs at h1 h2
          · cases h1
          · cases h1
          · cases h2
          · exact h.uniq _ _ _ _ _ _ _ _ _ _ h1 h2
        · exact h.free
        · intro c hc
          obtain ⟨t', body', sec', rest', r'', ht', he⟩ := h.taken c hc
          refine ⟨t', body', sec', rest', r'', ?_, he⟩
          rw [hset, if_neg, ht']
          rintro rfl
          rw [hp] at ht'; cases ht'
      | nil =>
        -- locking
        have hfree : s.held sec.cell = false := by
          by_contra hh
          have hh : s.held sec.cell = true := by simpa using hh
          simp [Sys.step, hth, Phase.code, hh] at hstep
        have hs' : s' = ⟨s.mem, fun d => if d = sec.cell then true else s.held d,
            s.threads.set t ⟨(Phase.inside sec.body sec rest).code, r⟩⟩ := by
          simp only [Sys.step, hth, Phase.code, List.map_nil, List.nil_append, hfree,
            Bool.false_eq_true, if_false, Option.some.injEq] at hstep
          exact hstep.symm
        refine ⟨ph.set t (.inside sec.body sec rest, r), l ++ [sec], ?_⟩
        have hnot : ∀ (t' : Nat) b' s' rs' r', ph[t']? = some (.inside b' s' rs', r') →
            s'.cell ≠ sec.cell := by
          intro t' b' s' rs' r' ht' he
          have := (h.body _ _ _ _ _ ht').1
          rw [he, hfree] at this
          cases this
        subst hs'
        constructor
        · rw [h.threads, set_set_code]
        · exact h.shared
        · obtain ⟨rs, h1, h2⟩ := perm_set_flatMap (fun p : Phase C σ R × R => p.1.pending) ph t _
            (.inside sec.body sec rest, r) hp
          refine List.Perm.trans ?_ h.perm
          rw [List.append_assoc]
          exact ((h2.append_left [sec]).trans (by
            simpa [Phase.pending] using h1.symm)).append_left l
        · intro t' pre' sec' rest' r'' ht'
          rw [hset] at ht'
          split_ifs at ht' with htt
          · cases ht'
          · exact h.pre _ _ _ _ _ ht'
        · intro t' body' sec' rest' r'' ht'
          rw [hset] at ht'
          rw [seqBoxes_append]
          split_ifs at ht' with htt
          · cases ht'
            have hb : ∀ x, runBody sec.body x r = eff sec x := h.pre t _ _ _ _ hp
            simp only [if_true, true_and, hb, h.free _ hfree]
          · have := h.body _ _ _ _ _ ht'
            have hne := hnot _ _ _ _ _ ht'
            simp only [hne, if_false]
            exact this
        · intro t1 t2 b1 s1 rs1 r1 b2 s2 rs2 r2 h1 h2 he
          rw [hset] at h1 h2
          split_ifs at h1 h2 with e1 e2 e2
          · exact e1.symm.trans e2
          · cases h1; exact absurd he.symm (hnot _ _ _ _ _ h2)
          · cases h2; exact absurd he (hnot _ _ _ _ _ h1)
          · exact h.uniq _ _ _ _ _ _ _ _ _ _ h1 h2 he
        · intro c hc
          rw [seqBoxes_append]
          by_cases hcc : c = sec.cell
          · simp [hcc] at hc
          · simp only [hcc, if_false] at hc ⊢
            exact h.free c hc
        · intro c hc
          by_cases hcc : c = sec.cell
          · exact ⟨t, sec.body, sec, rest, r, by rw [hset, if_pos rfl], hcc.symm⟩
          · simp only [hcc, if_false] at hc
            obtain ⟨t', body', sec', rest', r'', ht', he⟩ := h.taken c hc
            refine ⟨t', body', sec', rest', r'', ?_, he⟩
            rw [hset, if_neg, ht']
            rintro rfl
            rw [hp] at ht'; cases ht'
    | inside body sec rest =>
      cases body with
      | cons f body =>
        -- an access under the lock
        obtain ⟨hheld, hbody⟩ := h.body t _ _ _ _ hp
        have hs' : s' = ⟨(onBox sec.cell f s.mem r).1, s.held,
            s.threads.set t ⟨(Phase.inside body sec rest).code, (onBox sec.cell f s.mem r).2⟩⟩ := by
          simp only [Sys.step, hth, Phase.code, List.map_cons, List.cons_append,
            Option.some.injEq] at hstep
          exact hstep.symm
        refine ⟨ph.set t (.inside body sec rest, (onBox sec.cell f s.mem r).2), l, ?_⟩
        subst hs'
        constructor
        · rw [h.threads, set_set_code]
        · exact h.shared
        · obtain ⟨rs, h1, h2⟩ := perm_set_flatMap (fun p : Phase C σ R × R => p.1.pending) ph t _
            (.inside body sec rest, (onBox sec.cell f s.mem r).2) hp
          exact ((h2.trans h1.symm).append_left l).trans h.perm
        · intro t' pre' sec' rest' r'' ht'
          rw [hset] at ht'
          split_ifs at ht' with htt
          · cases ht'
          · exact h.pre _ _ _ _ _ ht'
        · intro t' body' sec' rest' r'' ht'
          rw [hset] at ht'
          split_ifs at ht' with htt
          · cases ht'
            refine ⟨hheld, ?_⟩
            simpa [onBox, runBody] using hbody
          · have hb := h.body _ _ _ _ _ ht'
            have hne : sec'.cell ≠ sec.cell := fun he =>
              htt (h.uniq _ _ _ _ _ _ _ _ _ _ hp ht' he.symm)
            simpa [onBox, hne] using hb
        · intro t1 t2 b1 s1 rs1 r1 b2 s2 rs2 r2 h1 h2 he
          rw [hset] at h1 h2
          split_ifs at h1 h2 with e1 e2 e2
          · exact e1.symm.trans e2
          · cases h1; exact (e1.symm.trans (h.uniq _ _ _ _ _ _ _ _ _ _ hp h2 he))
          · cases h2; exact (h.uniq _ _ _ _ _ _ _ _ _ _ h1 hp he).trans e2
          · exact h.uniq _ _ _ _ _ _ _ _ _ _ h1 h2 he
        · intro c hc
          have hne : c ≠ sec.cell := by
            rintro rfl
            rw [hheld] at hc; cases hc
          simpa [onBox, hne] using h.free c hc
        · intro c hc
          obtain ⟨t', body', sec', rest', r'', ht', he⟩ := h.taken c hc
          by_cases htt : t = t'
          · subst htt
            rw [hp] at ht'
            cases ht'
            exact ⟨t, body, sec, rest, _, by rw [hset, if_pos rfl], he⟩
          · exact ⟨t', body', sec', rest', r'', by rw [hset, if_neg htt, ht'], he⟩
      | nil =>
        -- unlocking
        obtain ⟨hheld, hbody⟩ := h.body t _ _ _ _ hp
        have hs' : s' = ⟨s.mem, fun d => if d = sec.cell then false else s.held d,
            s.threads.set t ⟨(Phase.start rest).code, r⟩⟩ := by
          simp only [Sys.step, hth, Phase.code, List.map_nil, List.nil_append, hheld, if_true,
            Option.some.injEq] at hstep
          rw [Phase.code_start]
          exact hstep.symm
        refine ⟨ph.set t (.start rest, r), l, ?_⟩
        have hnot : ∀ (t' : Nat) b' s' rs' r', ph[t']? = some (.inside b' s' rs', r') → t ≠ t' →
            s'.cell ≠ sec.cell := fun t' b' s' rs' r' ht' htt he =>
          htt (h.uniq _ _ _ _ _ _ _ _ _ _ hp ht' he.symm)
        have hin : ∀ b' s' rs', Phase.start rest ≠ .inside b' s' rs' := by
          intro b' s' rs'
          cases rest <;> simp [Phase.start]
        subst hs'
        constructor
        · rw [h.threads, set_set_code]
        · exact h.shared
        · obtain ⟨rs, h1, h2⟩ := perm_set_flatMap (fun p : Phase C σ R × R => p.1.pending) ph t _
            (.start rest, r) hp
          have e : (Phase.start rest).pending = (Phase.inside [] sec rest : Phase C σ R).pending := by
            rw [Phase.pending_start]; rfl
          simp only [e] at h2
          exact ((h2.trans h1.symm).append_left l).trans h.perm
        · intro t' pre' sec' rest' r'' ht'
          rw [hset] at ht'
          split_ifs at ht' with htt
          · cases hr : rest with
            | nil => rw [hr] at ht'; cases ht'
            | cons s0 rest0 =>
              have hmem : s0 ∈ all := h.mem_all hp (by simp [Phase.pending, hr])
              rw [hr] at ht'
              cases ht'
              exact hall _ hmem r
          · exact h.pre _ _ _ _ _ ht'
        · intro t' body' sec' rest' r'' ht'
          rw [hset] at ht'
          split_ifs at ht' with htt
          · simp only [Option.some.injEq, Prod.mk.injEq] at ht'
            exact absurd ht'.1 (hin _ _ _)
          · have hb := h.body _ _ _ _ _ ht'
            have hne := hnot _ _ _ _ _ ht' htt
            simp only [hne, if_false]
            exact hb
        · intro t1 t2 b1 s1 rs1 r1 b2 s2 rs2 r2 h1 h2 he
          rw [hset] at h1 h2
          split_ifs at h1 h2 with e1 e2 e2
          · exact e1.symm.trans e2
          · simp only [Option.some.injEq, Prod.mk.injEq] at h1
            exact absurd h1.1 (hin _ _ _)
          · simp only [Option.some.injEq, Prod.mk.injEq] at h2
            exact absurd h2.1 (hin _ _ _)
          · exact h.uniq _ _ _ _ _ _ _ _ _ _ h1 h2 he
        · intro c hc
          by_cases hcc : c = sec.cell
          · rw [hcc]; exact hbody
          · simp only [hcc, if_false] at hc
            exact h.free c hc
        · intro c hc
          by_cases hcc : c = sec.cell
          · simp [hcc] at hc
          · simp only [hcc, if_false] at hc
            obtain ⟨t', body', sec', rest', r'', ht', he⟩ := h.taken c hc
            refine ⟨t', body', sec', rest', r'', ?_, he⟩
            rw [hset, if_neg, ht']
            rintro rfl
            rw [hp] at ht'
            cases ht'
            exact hcc he.symm

theorem LockInv.run (hall : ∀ sec ∈ all, sec.Effect c₀ (eff sec)) {s s' : Sys (Mem C σ) R}
    {ph : List (Phase C σ R × R)} {l : List (Section C σ R)} (h : LockInv eff c₀ box₀ all s ph l)
    {sched : List Nat} (hrun : s.run sched = some s') :
    ∃ ph' l', LockInv eff c₀ box₀ all s' ph' l' := by
  induction sched generalizing s ph l with
  | nil => cases hrun; exact ⟨ph, l, h⟩
  | cons t sched ih =>
    rw [Sys.run, List.foldlM_cons] at hrun
    cases hst : s.step t with
    | none => simp [hst] at hrun
    | some s1 =>
      rw [hst] at hrun
      obtain ⟨ph1, l1, h1⟩ := h.step hall hst
      exact ih h1 hrun

/-- While the invariant holds, some goroutine can go on unless all have finished. -/
theorem LockInv.progress {s : Sys (Mem C σ) R} {ph : List (Phase C σ R × R)}
    {l : List (Section C σ R)} (h : LockInv eff c₀ box₀ all s ph l) (hnf : ¬ s.Finished) :
    ∃ t s', s.step t = some s' := by
  have hin : ∀ (t : Nat) body sec rest r, ph[t]? = some (.inside body sec rest, r) →
      ∃ s', s.step t = some s' := by
    intro t body sec rest r hp
    have hth : s.threads[t]? = some ⟨(Phase.inside body sec rest).code, r⟩ := by
      rw [h.threads, List.getElem?_map, hp]; rfl
    have hh := (h.body _ _ _ _ _ hp).1
    cases body with
    | nil =>
      simp only [Sys.step, hth, Phase.code, List.map_nil, List.nil_append, hh, if_true,
        Option.some.injEq, exists_eq']
    | cons f body =>
      simp only [Sys.step, hth, Phase.code, List.map_cons, List.cons_append, Option.some.injEq,
        exists_eq']
  have : ∃ (t : Nat) (p : _), ph[t]? = some p ∧ p.1.code ≠ [] := by
    unfold Sys.Finished at hnf
    push_neg at hnf
    obtain ⟨th, hth, hc⟩ := hnf
    rw [h.threads, List.mem_map] at hth
    obtain ⟨p, hp, rfl⟩ := hth
    obtain ⟨t, ht⟩ := List.mem_iff_getElem?.1 hp
    exact ⟨t, p, ht, hc⟩
  obtain ⟨t, ⟨p, r⟩, hp, hc⟩ := this
  have hth : s.threads[t]? = some ⟨p.code, r⟩ := by rw [h.threads, List.getElem?_map, hp]; rfl
  cases p with
  | done => exact absurd rfl hc
  | inside body sec rest => exact ⟨t, hin _ _ _ _ _ hp⟩
  | before pre sec rest =>
    cases pre with
    | cons f pre =>
      refine ⟨t, ?_⟩
      simp only [Sys.step, hth, Phase.code, List.map_cons, List.cons_append, Option.some.injEq,
        exists_eq']
    | nil =>
      cases hh : s.held sec.cell with
      | false =>
        refine ⟨t, ?_⟩
        simp only [Sys.step, hth, Phase.code, List.map_nil, List.nil_append, hh,
          Bool.false_eq_true, if_false, Option.some.injEq, exists_eq']
      | true =>
        obtain ⟨t', body', sec', rest', r'', ht', he⟩ := h.taken _ hh
        exact ⟨t', hin _ _ _ _ _ ht'⟩

/-- When all have finished, memory is as after the sections one by one. -/
theorem LockInv.finished {s : Sys (Mem C σ) R} {ph : List (Phase C σ R × R)}
    {l : List (Section C σ R)} (h : LockInv eff c₀ box₀ all s ph l) (hf : s.Finished) :
    l.Perm all ∧ s.mem = ⟨c₀, seqBoxes eff box₀ l⟩ := by
  have hdone : ∀ p ∈ ph, p.1 = Phase.done := by
    intro p hp
    have := hf ⟨p.1.code, p.2⟩ (by rw [h.threads]; exact List.mem_map.2 ⟨p, hp, rfl⟩)
    obtain ⟨q, r⟩ := p
    cases q with
    | done => rfl
    | before pre sec rest => cases pre <;> simp [Phase.code] at this
    | inside body sec rest => cases body <;> simp [Phase.code] at this
  have hpend : (ph.flatMap fun p => p.1.pending) = [] := by
    rw [List.flatMap_eq_nil_iff]
    intro p hp
    rw [hdone p hp]; rfl
  refine ⟨by simpa [hpend] using h.perm, ?_⟩
  have hfree : ∀ c, s.held c = false := by
    intro c
    by_contra hh
    obtain ⟨t', body', sec', rest', r'', ht', -⟩ := h.taken c (by simpa using hh)
    have := hdone _ (List.mem_of_getElem? ht')
    cases this
  have hb : s.mem.box = seqBoxes eff box₀ l := funext fun c => h.free c (hfree c)
  rw [← hb, ← h.shared]

/-- The number of instructions left. -/
def Sys.left {M R : Type} (s : Sys M R) : Nat := (s.threads.map fun th => th.code.length).sum

theorem sum_set_lt {l : List Nat} {t x : Nat} (h : l[t]? = some (x + 1)) :
    (l.set t x).sum + 1 = l.sum := by
  induction l generalizing t with
  | nil => cases h
  | cons a l ih =>
    cases t with
    | zero => cases h; simp; omega
    | succ t =>
      have := ih (t := t) h
      simp only [List.set_cons_succ, List.sum_cons]
      omega

/-- Every step executes one instruction. -/
theorem Sys.step_left {M R : Type} {s s' : Sys M R} {t : Nat} (h : s.step t = some s') :
    s'.left + 1 = s.left := by
  have key : ∀ (i : Instr M R) code r r', s.threads[t]? = some ⟨i :: code, r⟩ →
      ((s.threads.set t ⟨code, r'⟩).map fun th => th.code.length).sum + 1 =
        (s.threads.map fun th => th.code.length).sum := by
    intro i code r r' hth
    rw [List.map_set]
    exact sum_set_lt (by rw [List.getElem?_map, hth]; rfl)
  unfold Sys.step at h
  unfold Sys.left
  split at h
  · cases h
  · cases h
  · rename_i hth
    split_ifs at h
    cases h
    exact key _ _ _ _ hth
  · rename_i hth
    split_ifs at h
    cases h
    exact key _ _ _ _ hth
  · rename_i hth
    cases h
    exact key _ _ _ _ hth

theorem Sys.run_left {M R : Type} {s s' : Sys M R} {sched : List Nat} (h : s.run sched = some s') :
    s'.left + sched.length = s.left := by
  induction sched generalizing s with
  | nil => cases h; simp
  | cons t sched ih =>
    rw [Sys.run, List.foldlM_cons] at h
    cases hst : s.step t with
    | none => simp [hst] at h
    | some s1 =>
      rw [hst] at h
      have h1 := ih h
      have h2 := Sys.step_left hst
      simp only [List.length_cons]
      omega

end CloudForest
