import Verif.Lemmas.Ace
import Verif.Lemmas.Commands2
import Verif.Lemmas.Books4
import Verif.Lemmas.Books3
import Verif.Props.Books
import Verif.Props.Run
import Verif.Props.Setup
import Verif.Spec.Ace

/-! # Lemmas about the importances in runs with `-ace` -/

set_option linter.unusedSectionVars false

namespace CloudForest
variable {K : Type} [Field K] [LinearOrder K] [IsStrictOrderedRing K] {τ : Type}

/-! ## A forest -/

theorem noMissing_startable {sm : Bool} {n : Node K} (h : sm = true ∨ noMissing n) : Startable sm n := by
  rcases h with h | h
  · exact .inl h
  · right
    induction n with
    | nil => trivial
    | mk c fi l r m p s ihl ihr ihm => exact ⟨h.1, ihl h.2.1, ihr h.2.2⟩

theorem scoredTree_ok {r : RunSetup K τ} {L : TargetLaws r.T r.all} {good : τ → Prop} {cans : List Nat} (hr : r.Ok L good cans)
    {imp : List Nat → K} (hw : L.Weighted imp) (ho : r.o.evaloob = false) (hv : r.o.vet = false)
    (hties : ∀ f ∈ r.fm.data, f.NoNearTies (f.knowns r.all)) {s s' : WorkerState K} (hs : WorkerOk r L cans s) {x : Tree K × List Nat}
    {im im' : List (RunningMean K)} (h : r.scoredTree s im = some (x, s', im')) :
    WorkerOk r L cans s' ∧ r.Recorded L cans x ∧ im'.length = im.length ∧ ∀ (i : Nat) (xs : List K), im[i]? = some (.ofList xs) →
      im'[i]? = some (.ofList (xs ++ decsOf (usesOf r.fm (threeWayDecrease r.fm imp) x.1.root x.2 0) i)) := by
  unfold RunSetup.scoredTree at h
  simp only [Option.bind_eq_bind] at h
  obtain ⟨⟨bag, rng⟩, hd, h⟩ := Option.bind_eq_some_iff.1 h
  obtain ⟨oob, hoob, h⟩ := Option.bind_eq_some_iff.1 h
  obtain ⟨⟨root, st, b⟩, hg, h⟩ := Option.bind_eq_some_iff.1 h
  obtain ⟨im2, him, h⟩ := Option.bind_eq_some_iff.1 h
  cases h
  simp only at hoob hg him
  have hforget := growNoting_forget _ _ _ _ _ _ _ _ _ _ _ _ hg
  have htree : r.tree r.freeGrower s = some ((⟨root, r.target, .fin (-1)⟩, bag), ⟨root, r.order bag, st, rng⟩) := by
    unfold RunSetup.noter at hforget
    rw [treeNoter_forget] at hforget
    simp only [RunSetup.tree, hd, hoob, Option.bind_eq_bind, Option.bind_some]
    unfold RunSetup.freeGrower
    rw [hforget]
    rfl
  obtain ⟨k1, k2⟩ := (tree_ok hr hs).2.1 _ _ htree
  obtain ⟨-, h2, -⟩ := drawBag_sound hr.fit hs.cases hd
  obtain ⟨oob', ho', hoa⟩ := oobNow_ok r hs.oob h2
  rw [hoob] at ho'
  cases ho'
  have hst : RunState L cans { s.st with oob := oob } := ⟨hs.allocs, hs.cans, hoa⟩
  obtain ⟨-, -, hnotes⟩ := growNoting_notes hr.matrix (treeNoter_searchOk (fp := r.findPredicted) (md := r.maxDepth) (sm := r.splitmissing) hr.setting)
    (treeNoter_decOk (fp := r.findPredicted) (md := r.maxDepth) (sm := r.splitmissing) hr.setting hw ho hv hties) _ _ _ _ _ _ _ _ _ _
    (noMissing_startable hs.branches) hst (Nat.zero_le _) (fun c hc => r.mem_all (h2 c hc)) hg
  obtain ⟨r1, r2⟩ := noteAll_inRange _ _ _ _ hnotes
  obtain ⟨imp', du', e, l1, l2, p1, p2⟩ := noteAll_eq _ _ _ r1 r2
  rw [hnotes] at e
  cases e
  cases him
  exact ⟨k1, k2, l1, p1⟩

theorem scoredTrees_ok {r : RunSetup K τ} {L : TargetLaws r.T r.all} {good : τ → Prop} {cans : List Nat} (hr : r.Ok L good cans)
    {imp : List Nat → K} (hw : L.Weighted imp) (ho : r.o.evaloob = false) (hv : r.o.vet = false)
    (hties : ∀ f ∈ r.fm.data, f.NoNearTies (f.knowns r.all)) (anew : Bool) :
    ∀ (left started : Nat) (s : WorkerState K) (im im' : List (RunningMean K)) (out : List (Tree K × List Nat)), WorkerOk r L cans s →
      r.scoredTrees anew left started s im = some (out, im') →
      out.length = left ∧ (∀ x ∈ out, r.Recorded L cans x) ∧ im'.length = im.length ∧ ∀ (i : Nat) (xs : List K), im[i]? = some (.ofList xs) →
        im'[i]? = some (.ofList (xs ++ out.flatMap fun x => decsOf (usesOf r.fm (threeWayDecrease r.fm imp) x.1.root x.2 0) i)) := by
  intro left
  induction left with
  | zero => intro started s im im' out _ h; cases h; exact ⟨rfl, by simp, rfl, by simp⟩
  | succ left ih =>
    intro started s im im' out hs h
    unfold RunSetup.scoredTrees at h
    simp only [Option.bind_eq_bind] at h
    obtain ⟨⟨x, s1, im1⟩, ht, h⟩ := Option.bind_eq_some_iff.1 h
    obtain ⟨⟨rest, im2⟩, hrest, h⟩ := Option.bind_eq_some_iff.1 h
    cases h
    obtain ⟨k1, k2, k3, k4⟩ := scoredTree_ok hr hw ho hv hties hs ht
    obtain ⟨l1, l2, l3, l4⟩ := ih _ _ _ _ _ (k1.next (anew && r.dotest && decide (started + 1 < r.nTrees))) (by
      simpa only [Bool.and_eq_true, decide_eq_true_eq] using hrest)
    refine ⟨by simp [l1], ?_, by rw [l3, k3], fun i xs hx => ?_⟩
    · intro y hy
      rcases List.mem_cons.1 hy with rfl | hy
      · exact k2
      · exact l2 y hy
    · rw [l4 i _ (k4 i xs hx)]
      simp

theorem decsOf_flatMap {α : Type} (g : α → List (Use K)) (i : Nat) : ∀ out : List α,
    (out.flatMap fun x => decsOf (g x) i) = ((out.flatMap g).filter fun u => u.feature == i).map (·.dec) := by
  intro out
  induction out with
  | nil => rfl
  | cons x out ih => rw [List.flatMap_cons, List.flatMap_cons, List.filter_append, List.map_append, ih]; rfl

/-- A forest with contrasts and its scores. -/
theorem aceForest_ok {r : RunSetup K τ} {fm : FeatureMatrix K} {L : TargetLaws r.T r.all} {good : τ → Prop} {cans : List Nat}
    (hr : ({ r with fm := fm } : RunSetup K τ).Ok L good cans)
    {imp : List Nat → K} (hw : L.Weighted imp) (ho : r.o.evaloob = false) (hv : r.o.vet = false)
    (hties : ∀ f ∈ fm.data, f.NoNearTies (f.knowns r.all)) (hn : 1 ≤ r.nTrees) {nCats : Nat} (hok : L.Ok (newAllocs nCats)) {anew : Bool}
    {own global : Rng} {out : List (Tree K × List Nat)} {scores : List (XF K)}
    (h : r.aceForest fm cans (nKnown r.missing) nCats anew own global = some (out, scores)) :
    out.length = r.nTrees ∧ (∀ x ∈ out, ({ r with fm := fm } : RunSetup K τ).Recorded L cans x) ∧
      scores = (List.range fm.data.length).map fun i => .fin (perTree fm imp r.nTrees out i) := by
  unfold RunSetup.aceForest at h
  simp only [Option.bind_eq_bind] at h
  obtain ⟨s, hs, h⟩ := Option.bind_eq_some_iff.1 h
  obtain ⟨⟨ts, im⟩, hts, h⟩ := Option.bind_eq_some_iff.1 h
  cases h
  have hs' : WorkerOk ({ r with fm := fm } : RunSetup K τ) L cans s := by
    rw [nKnown_eq] at hs
    obtain ⟨s0, e, hs0⟩ := start_ok (r := { r with fm := fm }) hok own global
    have : s0 = s := by
      have := hs.symm.trans e
      exact (Option.some.inj this).symm
    rw [← this]
    exact hs0
  obtain ⟨l1, l2, l3, l4⟩ := scoredTrees_ok hr hw ho hv hties anew _ _ _ _ _ _ hs' hts
  rw [List.length_replicate] at l3
  refine ⟨by rw [l1]; exact Nat.max_eq_right hn, l2, ?_⟩
  have hn0 : ((r.nTrees : Nat) : K) ≠ 0 := by
    have : r.nTrees ≠ 0 := by omega
    exact_mod_cast this
  apply List.ext_getElem?
  intro i
  rw [List.getElem?_map, List.getElem?_map]
  by_cases hi : i < fm.data.length
  · have := l4 i [] (by simp [hi, RunningMean.new_eq])
    rw [this, List.getElem?_range hi, List.nil_append, decsOf_flatMap]
    simp only [Option.map_some, RunningMean.ofList, XF.fin_mul, XF.ofNat, XF.fin_div _ hn0, perTree]
    congr 3
    cases hu : ((ts.flatMap fun x => usesOf fm (threeWayDecrease fm imp) x.1.root x.2 0).filter fun u => u.feature == i).map (·.dec) with
    | nil => simp
    | cons u us =>
      have : (((u :: us).length : Nat) : K) ≠ 0 := by
        rw [List.length_cons]; push_cast; positivity
      field_simp
  · rw [List.getElem?_eq_none_iff.2 (by rw [l3]; omega), List.getElem?_eq_none_iff.2 (by simp; omega)]
    rfl

end CloudForest
