import Verif.Model.ImpCommand
import Verif.Spec.ImpCommand
import Verif.Lemmas.Ace4
import Verif.Lemmas.Cores

/-! # Lemmas about runs with `-importance` -/

set_option linter.unusedSectionVars false

namespace CloudForest
variable {K : Type} [Field K] [LinearOrder K] [IsStrictOrderedRing K] {τ : Type}

/-! ## The forest -/

/-- There is a place for each of `n` features. -/
def Scores.Sized (n : Nat) (sc : Scores K) : Prop := sc.imp.length = n ∧ sc.mmd.length = n

theorem notedTree_forget (r : RunSetup K τ) (s : WorkerState K) (sc : Scores K) (hs : sc.Sized r.fm.data.length) :
    (r.notedTree s sc).map (fun x => (x.1, x.2.1)) = r.tree r.freeGrower s ∧
      ∀ x, r.notedTree s sc = some x → x.2.2.Sized r.fm.data.length := by
  unfold RunSetup.notedTree RunSetup.tree
  cases hd : drawBag r.how r.missing r.nSamples r.draws s.cases s.rng with
  | none => exact ⟨rfl, fun x h => by cases h⟩
  | some d =>
    obtain ⟨bag, rng⟩ := d
    simp only [Option.bind_eq_bind, Option.bind_some]
    cases ho : r.oobNow s.st.oob bag with
    | none => exact ⟨rfl, fun x h => by cases h⟩
    | some oob =>
      simp only [Option.bind_some]
      have hfg : r.freeGrower = r.noter.forget := by
        unfold RunSetup.noter RunSetup.freeGrower
        rw [treeNoter_forget]
      rw [hfg]
      cases hg : grow r.noter.forget r.fm (bag.length + 1) s.root { s.st with oob := oob } bag 0 0 with
      | none =>
        cases hn : growNoting r.noter r.fm (bag.length + 1) s.root { s.st with oob := oob } bag 0 0
            ⟨some sc.imp, some (List.replicate r.fm.data.length 0)⟩ with
        | none => exact ⟨rfl, fun x h => by cases h⟩
        | some y =>
          obtain ⟨n', st', b'⟩ := y
          rw [growNoting_forget _ _ _ _ _ _ _ _ _ _ _ _ hn] at hg
          cases hg
      | some y =>
        obtain ⟨n', st'⟩ := y
        obtain ⟨imp', du', h1, h2, h3⟩ := growNoting_total r.noter r.fm _ _ _ _ _ _ _ _ sc.imp (List.replicate r.fm.data.length 0)
          hs.1 (by simp) hg
        rw [h3]
        refine ⟨rfl, fun x h => ?_⟩
        cases h
        exact ⟨h1, by rw [countDepths_length]; exact hs.2⟩

theorem notedTrees_forget (r : RunSetup K τ) : ∀ (left started : Nat) (s : WorkerState K) (sc : Scores K), sc.Sized r.fm.data.length →
    (r.notedTrees left started s sc).map (·.1) = r.trees r.freeGrower left started s ∧
      ∀ x, r.notedTrees left started s sc = some x → x.2.Sized r.fm.data.length := by
  intro left
  induction left with
  | zero => intro started s sc hs; exact ⟨rfl, fun x h => by cases h; exact hs⟩
  | succ left ih =>
    intro started s sc hs
    obtain ⟨h1, h2⟩ := notedTree_forget r s sc hs
    unfold RunSetup.notedTrees RunSetup.trees
    rw [← h1]
    cases ht : r.notedTree s sc with
    | none => exact ⟨rfl, fun x h => by cases h⟩
    | some y =>
      obtain ⟨t, s1, sc1⟩ := y
      obtain ⟨k1, k2⟩ := ih (started + 1) (if r.dotest && started + 1 < r.nTrees then { s1 with root := .fresh } else s1) sc1 (h2 _ ht)
      simp only [Option.bind_eq_bind, Option.bind_some, Option.map_some]
      rw [← k1]
      cases hr : r.notedTrees left (started + 1) (if r.dotest && started + 1 < r.nTrees then { s1 with root := .fresh } else s1) sc1 with
      | none => exact ⟨rfl, fun x h => by cases h⟩
      | some z =>
        refine ⟨rfl, fun x h => ?_⟩
        cases h
        exact k2 z hr

theorem notedRun_forget (r : RunSetup K τ) (nNonMissing nCats : Nat) (cans : List Nat) (own global : Rng) :
    (r.notedRun nNonMissing nCats cans own global).map (·.1) = r.run r.freeGrower nNonMissing nCats cans own global ∧
      ∀ x, r.notedRun nNonMissing nCats cans own global = some x → x.2.Sized r.fm.data.length := by
  unfold RunSetup.notedRun RunSetup.run
  cases r.start nNonMissing nCats cans own global with
  | none => exact ⟨rfl, fun x h => by cases h⟩
  | some s => exact notedTrees_forget r _ _ s _ ⟨by simp [Scores.new], by simp [Scores.new]⟩

/-! ## The lines -/

theorem notedTree_ok {r : RunSetup K τ} {L : TargetLaws r.T r.all} {good : τ → Prop} {cans : List Nat} (hr : r.Ok L good cans)
    {imp : List Nat → K} (hw : L.Weighted imp) (ho : r.o.evaloob = false) (hv : r.o.vet = false)
    (hties : ∀ f ∈ r.fm.data, f.NoNearTies (f.knowns r.all)) {s s' : WorkerState K} (hs : WorkerOk r L cans s) {x : Tree K × List Nat}
    {sc sc' : Scores K} (hsz : sc.Sized r.fm.data.length) (h : r.notedTree s sc = some (x, s', sc')) :
    WorkerOk r L cans s' ∧ r.Recorded L cans x ∧
      (∀ (i : Nat) (xs : List K), sc.imp[i]? = some (.ofList xs) →
        sc'.imp[i]? = some (.ofList (xs ++ (splitsOn r.fm imp i x).map (·.dec)))) ∧
      ∀ (i : Nat) (xs : List K), sc.mmd[i]? = some (.ofList xs) →
        sc'.mmd[i]? = some (.ofList (xs ++ ([x].filterMap (leastBelow r.fm imp i)).map fun (d : Nat) => (d : K))) := by
  have htree : r.tree r.freeGrower s = some (x, s') := by
    rw [← (notedTree_forget r s sc hsz).1, h]
    rfl
  obtain ⟨k1, k2⟩ := (tree_ok hr hs).2.1 _ _ htree
  refine ⟨k1, k2, ?_⟩
  unfold RunSetup.notedTree at h
  simp only [Option.bind_eq_bind] at h
  obtain ⟨⟨bag, rng⟩, hd, h⟩ := Option.bind_eq_some_iff.1 h
  obtain ⟨oob, hoob, h⟩ := Option.bind_eq_some_iff.1 h
  obtain ⟨⟨root, st, b⟩, hg, h⟩ := Option.bind_eq_some_iff.1 h
  obtain ⟨im2, him, h⟩ := Option.bind_eq_some_iff.1 h
  obtain ⟨du2, hdu, h⟩ := Option.bind_eq_some_iff.1 h
  cases h
  simp only at hoob hg him hdu
  obtain ⟨-, h2, -⟩ := drawBag_sound hr.fit hs.cases hd
  obtain ⟨oob', ho', hoa⟩ := oobNow_ok r hs.oob h2
  rw [hoob] at ho'
  cases ho'
  have hst : RunState L cans { s.st with oob := oob } := ⟨hs.allocs, hs.cans, hoa⟩
  obtain ⟨-, -, hnotes⟩ := growNoting_notes hr.matrix (treeNoter_searchOk (fp := r.findPredicted) (md := r.maxDepth) (sm := r.splitmissing) hr.setting)
    (treeNoter_decOk (fp := r.findPredicted) (md := r.maxDepth) (sm := r.splitmissing) hr.setting hw ho hv hties) _ _ _ _ _ _ _ _ _ _
    (noMissing_startable hs.branches) hst (Nat.zero_le _) (fun c hc => r.mem_all (h2 c hc)) hg
  obtain ⟨r1, r2⟩ := noteAll_inRange _ _ _ _ hnotes
  obtain ⟨imp', du', e, l1, l2, p1, p2⟩ := noteAll_eq _ _ _ r1 r2
  rw [hnotes] at e
  cases e
  cases him
  cases hdu
  refine ⟨p1, fun i xs hx => ?_⟩
  have hlt : i < r.fm.data.length := by
    rw [← hsz.2]; exact (List.getElem?_eq_some_iff.1 hx).1
  have hdl : du2.length = sc.mmd.length := by rw [l2, List.length_replicate, hsz.2]
  have hd := p2 i 0 (by rw [List.getElem?_replicate, if_pos hlt])
  rw [depthUsed_eq] at hd
  have hc := countDepths_get du2 sc.mmd hdl i _ _ hd hx
  rw [List.filterMap_cons, List.filterMap_nil]
  cases hlow : leastBelow r.fm imp i (⟨root, r.target, .fin (-1)⟩, bag) with
  | none =>
    rw [show ((depthsOf (usesOf r.fm (threeWayDecrease r.fm imp) root bag 0) i).filter (0 < ·)).min? = none from hlow] at hc
    simpa using hc
  | some d =>
    rw [show ((depthsOf (usesOf r.fm (threeWayDecrease r.fm imp) root bag 0) i).filter (0 < ·)).min? = some d from hlow] at hc
    have hd0 : d ≠ 0 := by
      have := List.min?_mem hlow
      rw [List.mem_filter] at this
      simpa using (Nat.pos_iff_ne_zero.1 (by simpa using this.2))
    simpa only [Option.getD_some, if_pos hd0, XF.ofNat, RunningMean.ofList_add, List.map_cons, List.map_nil] using hc

theorem notedTrees_ok {r : RunSetup K τ} {L : TargetLaws r.T r.all} {good : τ → Prop} {cans : List Nat} (hr : r.Ok L good cans)
    {imp : List Nat → K} (hw : L.Weighted imp) (ho : r.o.evaloob = false) (hv : r.o.vet = false)
    (hties : ∀ f ∈ r.fm.data, f.NoNearTies (f.knowns r.all)) :
    ∀ (left started : Nat) (s : WorkerState K) (sc sc' : Scores K) (out : List (Tree K × List Nat)), WorkerOk r L cans s →
      sc.Sized r.fm.data.length → r.notedTrees left started s sc = some (out, sc') →
      (∀ (i : Nat) (xs : List K), sc.imp[i]? = some (.ofList xs) →
        sc'.imp[i]? = some (.ofList (xs ++ (out.flatMap (splitsOn r.fm imp i)).map (·.dec)))) ∧
      ∀ (i : Nat) (xs : List K), sc.mmd[i]? = some (.ofList xs) →
        sc'.mmd[i]? = some (.ofList (xs ++ (out.filterMap (leastBelow r.fm imp i)).map fun (d : Nat) => (d : K))) := by
  intro left
  induction left with
  | zero => intro started s sc sc' out _ _ h; cases h; exact ⟨by simp, by simp⟩
  | succ left ih =>
    intro started s sc sc' out hs hsz h
    unfold RunSetup.notedTrees at h
    simp only [Option.bind_eq_bind] at h
    obtain ⟨⟨x, s1, sc1⟩, ht, h⟩ := Option.bind_eq_some_iff.1 h
    obtain ⟨⟨rest, sc2⟩, hrest, h⟩ := Option.bind_eq_some_iff.1 h
    cases h
    obtain ⟨k1, -, k3, k4⟩ := notedTree_ok hr hw ho hv hties hs hsz ht
    obtain ⟨l3, l4⟩ := ih _ _ _ _ _ (k1.next (r.dotest && decide (started + 1 < r.nTrees))) ((notedTree_forget r s sc hsz).2 _ ht) (by
      simpa only [Bool.and_eq_true, decide_eq_true_eq] using hrest)
    refine ⟨fun i xs hx => ?_, fun i xs hx => ?_⟩
    · rw [l3 i _ (k3 i xs hx)]
      simp
    · rw [l4 i _ (k4 i xs hx)]
      rw [show x :: rest = [x] ++ rest from rfl, List.filterMap_append, List.map_append, List.append_assoc]

theorem countP_filterMap {α β : Type} (g : α → Option β) : ∀ l : List α, (l.filterMap g).length = l.countP fun x => (g x).isSome := by
  intro l
  induction l with
  | nil => rfl
  | cons x l ih =>
    rw [List.filterMap_cons, List.countP_cons]
    cases h : g x <;> simp [ih]

/-- The lines of a run. -/
theorem notedRun_lines {r : RunSetup K τ} {L : TargetLaws r.T r.all} {good : τ → Prop} {cans : List Nat} (hr : r.Ok L good cans)
    {imp : List Nat → K} (hw : L.Weighted imp) (ho : r.o.evaloob = false) (hv : r.o.vet = false)
    (hties : ∀ f ∈ r.fm.data, f.NoNearTies (f.knowns r.all)) (hn : 1 ≤ r.nTrees) {nCats : Nat} (hok : L.Ok (newAllocs nCats))
    {own global : Rng} {out : List (Tree K × List Nat)} {sc : Scores K}
    (h : r.notedRun (nKnown r.missing) nCats cans own global = some (out, sc)) :
    out.length = r.nTrees ∧ (∀ x ∈ out, r.Recorded L cans x) ∧
      ∃ lines, importanceFile r.fm r.nTrees sc = some lines ∧ lines.map (·.1) = r.fm.data.map Feature.name ∧
        ∀ (i : Nat) (ln : String × ImpLine K), lines[i]? = some ln → ImportanceOf r.fm imp out i ln.2 := by
  obtain ⟨f1, f2⟩ := notedRun_forget r (nKnown r.missing) nCats cans own global
  obtain ⟨z1, z2⟩ := f2 _ h
  simp only at z1 z2
  rw [h, Option.map_some] at f1
  unfold RunSetup.notedRun at h
  unfold RunSetup.run at f1
  simp only [Option.bind_eq_bind] at h f1
  obtain ⟨s, hs, h⟩ := Option.bind_eq_some_iff.1 h
  rw [hs, Option.bind_some] at f1
  have hs' : WorkerOk r L cans s := by
    rw [nKnown_eq] at hs
    obtain ⟨s0, e, hs0⟩ := start_ok (r := r) hok own global
    rw [hs] at e
    cases e
    exact hs0
  obtain ⟨t1, t2⟩ := (trees_ok hr _ _ _ hs').2.1 _ f1.symm
  have hlen : out.length = r.nTrees := by rw [t1]; exact Nat.max_eq_right hn
  obtain ⟨p1, p2⟩ := notedTrees_ok hr hw ho hv hties _ _ _ _ _ _ hs' ⟨by simp [Scores.new], by simp [Scores.new]⟩ h
  refine ⟨hlen, t2, ?_⟩
  have hn0 : ((r.nTrees : Nat) : K) ≠ 0 := by
    have : r.nTrees ≠ 0 := by omega
    exact_mod_cast this
  have hline : ∀ i, i < r.fm.data.length → ∃ ln, sc.line r.nTrees i = some ln ∧ ImportanceOf r.fm imp out i ln := by
    intro i hi
    have e1 := p1 i [] (by simp [Scores.new, hi, RunningMean.new_eq])
    have e2 := p2 i [] (by simp [Scores.new, hi, RunningMean.new_eq])
    rw [List.nil_append] at e1 e2
    have hsum : ((((out.flatMap (splitsOn r.fm imp i)).map (·.dec)).sum /
        (((out.flatMap (splitsOn r.fm imp i)).map (·.dec)).length : K)) * (((out.flatMap (splitsOn r.fm imp i)).map (·.dec)).length : K)) =
        ((out.flatMap (splitsOn r.fm imp i)).map (·.dec)).sum := by
      cases hu : (out.flatMap (splitsOn r.fm imp i)).map (·.dec) with
      | nil => simp
      | cons u us =>
        have : (((u :: us).length : Nat) : K) ≠ 0 := by
          rw [List.length_cons]; push_cast; positivity
        field_simp
    refine ⟨_, by simp only [Scores.line, e1, e2, Option.bind_eq_bind, Option.bind_some]; rfl, ?_, ?_, ?_, ?_, ?_, ?_⟩
    · simp [RunningMean.ofList]
    · simp [RunningMean.ofList]
    · simp only [RunningMean.ofList, XF.fin_mul, XF.ofNat, XF.fin_div _ hn0, hsum, hlen]
    · simp only [RunningMean.ofList, List.length_map, countP_filterMap]
    · simp only [RunningMean.ofList, XF.fin_mul, hsum]
    · simp [RunningMean.ofList]
  have hmap : ∀ l : List Nat, (∀ i ∈ l, i < r.fm.data.length) →
      ∃ lines : List (String × ImpLine K), (l.mapM fun i => do
        let f ← r.fm.data[i]?
        let ln ← sc.line r.nTrees i
        some (f.name, ln)) = some lines ∧
      List.Forall₂ (fun i (ln : String × ImpLine K) => (r.fm.data[i]?).map Feature.name = some ln.1 ∧ ImportanceOf r.fm imp out i ln.2) l lines := by
    intro l
    induction l with
    | nil => intro _; exact ⟨[], rfl, .nil⟩
    | cons i l ih =>
      intro hl
      obtain ⟨ls, e, hF⟩ := ih fun j hj => hl j (List.mem_cons_of_mem _ hj)
      have hi := hl i List.mem_cons_self
      obtain ⟨ln, e1, e2⟩ := hline i hi
      refine ⟨((r.fm.data[i]'hi).name, ln) :: ls, ?_, .cons ⟨by rw [List.getElem?_eq_getElem hi]; rfl, e2⟩ hF⟩
      rw [List.mapM_cons, e, List.getElem?_eq_getElem hi]
      simp [e1]
  obtain ⟨lines, e, hF⟩ := hmap (List.range sc.imp.length) (by intro i hi; rw [← z1]; exact List.mem_range.1 hi)
  have hll : lines.length = r.fm.data.length := by rw [← hF.length_eq, List.length_range, z1]
  have hget : ∀ (i : Nat) (ln : String × ImpLine K), lines[i]? = some ln →
      (r.fm.data[i]?).map Feature.name = some ln.1 ∧ ImportanceOf r.fm imp out i ln.2 := by
    intro i ln hi
    obtain ⟨hil, hie⟩ := List.getElem?_eq_some_iff.1 hi
    have := hF.get (i := i) (by rw [List.length_range, z1, ← hll]; exact hil) hil
    simp only [List.get_eq_getElem, List.getElem_range, hie] at this
    exact this
  refine ⟨lines, e, ?_, fun i ln hi => (hget i ln hi).2⟩
  apply List.ext_getElem?
  intro i
  rw [List.getElem?_map, List.getElem?_map]
  cases hi : lines[i]? with
  | none =>
    have : r.fm.data.length ≤ i := by rw [← hll]; exact List.getElem?_eq_none_iff.1 hi
    rw [List.getElem?_eq_none_iff.2 this]
    rfl
  | some ln => exact (hget i ln hi).1.symm

end CloudForest
