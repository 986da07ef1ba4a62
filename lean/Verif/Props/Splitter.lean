import Verif.Lemmas.Splitter3
import Verif.Props.Search
import Verif.Props.Grow
import Lean.Elab.Tactic.Basic

/-!
# Properties C17, C49 and C09: `BestSplitter`, alone and inside `Tree.Grow`
-/

set_option linter.unusedSectionVars false

namespace CloudForest
variable {K : Type} [Field K] [LinearOrder K] [IsStrictOrderedRing K] {τ : Type}

/-! ## C17 -/

theorem log_subperm {σ : Type} {P : σ → Prop} {G : Nat → Found K → Prop} {cans : List Nat}
    {nc j : Nat} {d : Draw K σ} (hnc : nc ≤ cans.length) (h : DrawInv P G cans nc j d) :
    (d.log.map (·.1)).Subperm (cans.take (cans.length - nc)) := by
  have hsplit : d.cans = d.cans.take d.lastSample ++
      (d.cans.drop d.lastSample).take (cans.length - d.nConst - d.lastSample) ++
      d.cans.drop (cans.length - d.nConst) := by
    conv_lhs => rw [← List.take_append_drop d.lastSample d.cans]
    rw [List.append_assoc]
    congr 1
    conv_lhs => rw [← List.take_append_drop (cans.length - d.nConst - d.lastSample)
      (d.cans.drop d.lastSample)]
    rw [List.drop_drop]
    congr 2
    have := h.fits
    omega
  have hp : (d.cans.take d.lastSample ++
      (d.cans.drop d.lastSample).take (cans.length - d.nConst - d.lastSample) ++
      (d.log.filter (·.2.constant)).map (·.1)).Perm (cans.take (cans.length - nc)) := by
    rw [← List.perm_append_right_iff (cans.drop (cans.length - nc)), List.append_assoc, ← h.news,
      ← hsplit, List.take_append_drop]
    exact h.perm
  have hlog : (d.log.map (·.1)).Perm (((d.log.filter fun e => !e.2.constant).map (·.1)).reverse ++
      (d.log.filter (·.2.constant)).map (·.1)) := by
    have h1 : d.log.Perm ((d.log.filter (·.2.constant)) ++ d.log.filter fun e => !e.2.constant) :=
      (List.filter_append_perm _ _).symm
    refine (h1.map _).trans ?_
    rw [List.map_append]
    exact List.perm_append_comm.trans
      ((List.reverse_perm _).symm.append_right _)
  refine hlog.subperm.trans ?_
  rw [← h.olds]
  refine List.Subperm.trans ?_ hp.subperm
  apply List.Sublist.subperm
  rw [List.append_assoc]
  exact (List.Sublist.refl _).append (List.sublist_append_right _ _)

/-- **C17.** `BestSplitter` returns. It rearranges the cases and the candidates; the candidates
known to be constant stay where they are at the end, and the features newly found constant are
put directly before them. The evaluated features (`d.log`) are different positions of the other
candidates, at most `mTry` of them, except that with `force` all but the last may be constant
ones. The split returned is that of the evaluated feature with the largest value, provided that
is above `minImp`. -/
theorem c17_best_splitter {fm : FeatureMatrix K} {T : Target K} {C : Contrast K τ} {good : τ → Prop}
    {o : SplitOpts} {cases : List Nat} {L : TargetLaws T cases} {st : SplitState K}
    (hS : SplitSetting L fm C good o st.cans st.oob) (hok : L.Ok st.allocs)
    {nc : Nat} (hnc : nc ≤ st.cans.length) {cs : List Nat} (hcs : ∀ c ∈ cs, c ∈ cases) :
    ∃ d, bestSplitter fm T C o st cs nc = some d ∧
      d.st.work.cases.Perm cs ∧ d.st.oob.Perm st.oob ∧ d.cans.Perm st.cans ∧
      nc ≤ d.nConst ∧ d.nConst ≤ st.cans.length ∧
      d.cans.drop (st.cans.length - d.nConst) =
        (d.log.filter (·.2.constant)).map (·.1) ++ st.cans.drop (st.cans.length - nc) ∧
      (d.log.map (·.1)).Subperm (st.cans.take (st.cans.length - nc)) ∧
      (o.force = false → d.log.length ≤ o.mTry) ∧
      (o.mTry < d.log.length → ∀ e ∈ d.log.tail, e.2.constant = true) ∧
      ((d.split = none ∧ d.imp = minImp ∧ ∀ e ∈ d.log, ¬ minImp < e.2.imp) ∨
       (minImp < d.imp ∧ (∃ e ∈ d.log, e.1 = d.fi ∧ e.2.code = d.split ∧ e.2.imp = d.imp) ∧
        ∀ e ∈ d.log, ¬ d.imp < e.2.imp)) := by
  obtain ⟨hM, h3, hC, hgood, hls, hcans, hm, hoob⟩ := hS
  obtain ⟨d, j, e, h, hend, hj, -⟩ := bestSplitter_ok (nc := nc) hM h3 hC hgood hls hcans hm hnc hcs
    hoob hok
  have hrounds : d.log = [] ∨ j ≤ o.mTry ∨
      o.force = true ∧ d.log.tail.all (·.2.constant) = true := by
    rcases hend with hend | hend
    · exact .inl hend.1
    · exact .inr hend.rounds
  refine ⟨d, e, h.st.cases_, h.st.oob_, h.perm, h.more, ?_, h.news, log_subperm hnc h, ?_, ?_, ?_⟩
  · have := h.fits; omega
  · intro hf
    rcases hrounds with hr | hr | hr
    · simp [hr]
    · omega
    · rw [hf] at hr; cases hr.1
  · intro hlt
    rcases hrounds with hr | hr | hr
    · simp [hr]
    · omega
    · exact List.all_eq_true.1 hr.2
  · rcases h.best with hb | hb
    · exact .inl ⟨hb.2.1, hb.1, hb.2.2.2⟩
    · exact .inr hb

/-! An example: a number, a constant and a class feature, and the classes of `exSplitT`. -/

/-- A constant feature. -/
def exConst : NumFeature ℚ := ⟨List.replicate 6 (.fin 7), List.replicate 6 false, "k", false⟩

/-- The example matrix. -/
def exFM3 : FeatureMatrix ℚ :=
  ⟨[.num exSplit, .num exConst, .cat exCat3],
    fun s => if s = "x" then some 0 else if s = "k" then some 1 else if s = "g" then some 2 else none,
    []⟩

theorem exFM3_feats : ∀ f ∈ exFM3.data, FeatOk f [0, 1, 2, 3, 4, 5] := by
  have hn : ∀ f : NumFeature ℚ, f.missing = List.replicate 6 false → f.hasMissing = false →
      f.Finite [0, 1, 2, 3, 4, 5] → FeatOk (.num f) [0, 1, 2, 3, 4, 5] := by
    intro f h1 h2 h3
    refine ⟨fun c hc => ?_, fun c hc => ?_, fun c hc => h3 c (List.mem_of_mem_filter hc)⟩
    · obtain ⟨x, hx⟩ := h3 c hc
      refine ⟨?_, (List.getElem?_eq_some_iff.1 hx).1⟩
      rw [h1]; fin_cases hc <;> simp
    · simp only [Feature.isMissing, h1, List.getElem?_replicate] at hc
      split at hc <;> cases hc
  intro f hf
  simp only [exFM3, List.mem_cons, List.not_mem_nil, or_false] at hf
  rcases hf with rfl | rfl | rfl
  · exact hn exSplit rfl rfl exSplit_finite
  · exact hn exConst rfl rfl (by intro c hc; fin_cases hc <;> simp [exConst])
  · refine ⟨fun c hc => ?_, fun c hc => ?_, fun c hc => exCat3_inRange c (List.mem_of_mem_filter hc)⟩
    · obtain ⟨k, hk, hlt⟩ := exCat3_inRange c hc
      refine ⟨?_, (List.getElem?_eq_some_iff.1 hk).1, ?_⟩
      · fin_cases hc <;> simp [exCat3]
      · intro k' _ hk'
        rw [hk] at hk'; cases hk'; exact hlt
    · simp only [Feature.isMissing, exCat3, List.getElem?_replicate] at hc
      split at hc <;> cases hc

/-- The example call: two tries, forced, vetted, judged by the out-of-bag cases 0 and 3. -/
def exOpts : SplitOpts := ⟨2, 1, true, true, true, false⟩

/-- The state for it, with a random stream. -/
def exState : SplitState ℚ := ⟨exWork.allocs, fun k => 5 * k + 1, [0, 1, 2], [0, 3, 1]⟩

theorem exSetting : SplitSetting (giniLaws (K := ℚ) exSplitT 2 _ exSplitT_inRange) exFM3
    (catContrast exSplitT) (fun g => g.InRange 2 [0, 1, 2, 3, 4, 5] ∧
      g.missing.length = g.catData.length ∧ g.catData.length = exSplitT.catData.length)
    exOpts exState.cans exState.oob where
  feats := exFM3_feats
  total3 _ := countLaws_total3 _ _ _ _ _
  contrast _ := catContrast_ok _ _ _ _ rfl _
  start := ⟨exSplitT_inRange, rfl, rfl⟩
  leafSize := by decide
  exist := by decide
  mTry := by decide
  oobs := by decide

example : ∃ d, bestSplitter exFM3 (giniTarget exSplitT) (catContrast exSplitT) exOpts exState
    [0, 1, 2, 3, 4, 5] 0 = some d ∧ d.cans.Perm [0, 1, 2] := by
  obtain ⟨d, h1, -, -, h2, -⟩ := c17_best_splitter exSetting ⟨rfl, rfl, rfl⟩ (Nat.zero_le _)
    (fun c hc => hc)
  exact ⟨d, h1, h2⟩

/-- Without vetting the example finds the constant first, then the class feature. -/
example : (bestSplitter exFM3 (giniTarget exSplitT) (catContrast exSplitT)
    ⟨2, 1, false, false, false, false⟩ exState [0, 1, 2, 3, 4, 5] 0).map
      (fun d => (d.cans, d.nConst, d.log.map (·.1))) = some ([2, 0, 1], 1, [2, 1]) ∧
    (bestSplitter exFM3 (giniTarget exSplitT) (catContrast exSplitT)
    ⟨2, 1, false, false, false, false⟩ exState [0, 1, 2, 3, 4, 5] 0).map
      (fun d => d.split) = some (some (.int 1)) := by
  decide +kernel

/-! ## C49 -/

/-- **C49 is false of the code.** One candidate, two tries: the second try indexes past the end
of the candidate list. Nothing in growforest keeps `-mTry` below the number of features. -/
theorem c49_mTry_panics :
    (bestSplitter exFM3 (giniTarget exSplitT) (catContrast exSplitT)
      ⟨1, 1, false, false, false, false⟩ { exState with cans := [0] } [0, 1, 2, 3, 4, 5] 0).isSome = true ∧
    (bestSplitter exFM3 (giniTarget exSplitT) (catContrast exSplitT)
      ⟨2, 1, false, false, false, false⟩ { exState with cans := [0] } [0, 1, 2, 3, 4, 5] 0).isSome = false := by
  decide +kernel

/-- **C49, no more tries than candidates.** -/
theorem c49_few_tries_partial {fm : FeatureMatrix K} {T : Target K} {C : Contrast K τ}
    {good : τ → Prop} {o : SplitOpts} {cases : List Nat} {L : TargetLaws T cases} {st : SplitState K}
    (hS : SplitSetting L fm C good o st.cans st.oob) (hok : L.Ok st.allocs)
    {nc : Nat} (hnc : nc ≤ st.cans.length) {cs : List Nat} (hcs : ∀ c ∈ cs, c ∈ cases) :
    bestSplitter fm T C o st cs nc ≠ none := by
  obtain ⟨d, h, -⟩ := c17_best_splitter hS hok hnc hcs
  simp [h]

/-! ## C09 -/

theorem MatrixOk.mono {fm : FeatureMatrix K} {all cases : List Nat} (h : MatrixOk fm all) (hc : ∀ c ∈ cases, c ∈ all) :
    MatrixOk fm cases :=
  ⟨fun f hf c h' => h.valid f hf c (hc c h'), h.sound, h.catwf, h.named⟩

theorem SearchOk.mono {σ : Type} {g : Grower K σ} {fm : FeatureMatrix K} {P : σ → Prop} {Q : Nat → Prop}
    {all cases : List Nat} (h : SearchOk g fm P Q all) (hc : ∀ c ∈ cases, c ∈ all) : SearchOk g fm P Q cases :=
  ⟨fun st cs nc st' res hP hQ hcs => h.perm st cs nc st' res hP hQ fun c h => hc c (hcs c h),
    fun st cs nc st' res code hP hQ hcs => h.fits st cs nc st' res code hP hQ fun c h => hc c (hcs c h),
    fun st cs nc st' res hP hQ hcs => h.keeps st cs nc st' res hP hQ fun c h => hc c (hcs c h)⟩

theorem Admissible.mono {σ : Type} {g : Grower K σ} {fm : FeatureMatrix K} {P : σ → Prop} {Q : Nat → Prop}
    {all cases : List Nat} (h : Admissible g fm P Q all) (hc : ∀ c ∈ cases, c ∈ all) : Admissible g fm P Q cases :=
  fun st cs nc st' res code f hP hQ hcs => h st cs nc st' res code f hP hQ fun c h => hc c (hcs c h)

/-- **C09.** `Tree.Grow` with `BestSplitter` on a sound matrix of finite numbers and categories, from any of its cases
and with any others out of bag: it returns the same tree for every bound on the recursion depth above the number of cases (so no
bound is needed), every left or right child is reached by at least `leafSize` of the in-bag
cases, and no node lies deeper than a positive `maxDepth`. -/
theorem c09_grow {fm : FeatureMatrix K} {T : Target K} {C : Contrast K τ} {good : τ → Prop}
    {o : SplitOpts} {all cases : List Nat} (hM : MatrixOk fm all) (hc : ∀ c ∈ cases, c ∈ all) {L : TargetLaws T all}
    {st : SplitState K} (hS : SplitSetting L fm C good o st.cans st.oob) (hok : L.Ok st.allocs)
    (findPredicted : List Nat → String) (maxDepth : Int) (splitmissing : Bool) :
    ∃ root st', (∀ fuel, cases.length < fuel →
        grow (treeGrower fm T C o findPredicted maxDepth splitmissing) fm fuel .fresh st cases 0 0 =
          some (root, st')) ∧
      (∀ (p : List Dir) (x : Dir), x ≠ .M → subtreeAt root (p ++ [x]) ≠ .nil →
        o.leafSize ≤ (cases.filter (reaches fm root (p ++ [x]))).length) ∧
      (0 < maxDepth → (height root : Int) ≤ maxDepth) := by
  obtain ⟨h1, h2, h3⟩ := treeGrower_searchOk (fp := findPredicted) (md := maxDepth)
    (sm := splitmissing) hS
  have hP : StateOk L fm st.cans st.oob st := ⟨hok, List.Perm.refl _, List.Perm.refl _⟩
  have hM := hM.mono hc
  have h1 := h1.mono hc
  have h2 := h2.mono hc
  obtain ⟨⟨root, st'⟩, hr⟩ := c09_terminates hM h1 h2 hS.leafSize
    (fun st cs nc hst hnc hcs _ => h3 st cs nc hst hnc fun c h => hc c (hcs c h)) st hP (Nat.zero_le _)
  have := c09_limits hM h1 h2 hP (Nat.zero_le _) (hr _ (Nat.lt_succ_self _))
  exact ⟨root, st', hr, this⟩

/-- C08 for the same setting: no assumption on the search is left. -/
theorem c08_grow {fm : FeatureMatrix K} {T : Target K} {C : Contrast K τ} {good : τ → Prop}
    {o : SplitOpts} {all cases : List Nat} (hM : MatrixOk fm all) (hc : ∀ c ∈ cases, c ∈ all) {L : TargetLaws T all}
    {st : SplitState K} (hS : SplitSetting L fm C good o st.cans st.oob) (hok : L.Ok st.allocs)
    (findPredicted : List Nat → String) (maxDepth : Int) (splitmissing : Bool)
    {fuel : Nat} {root : Node K} {st' : SplitState K}
    (h : grow (treeGrower fm T C o findPredicted maxDepth splitmissing) fm fuel .fresh st cases 0 0 =
      some (root, st')) :
    (∀ x ∈ leavesOf root,
      (∃ S, S.Perm (cases.filter fun c => (landing fm root c).map (·.1) == some x.1) ∧
        x.2 = findPredicted S) ∨
      (splitmissing = true ∧ x.1.getLast? = some .M ∧ x.2 = "" ∧
        ∀ c ∈ cases, (landing fm root c).map (·.1) ≠ some x.1)) ∧
    (∀ t w, Tree.voteCases ⟨root.stripCodes, t, w⟩ fm cases =
      Tree.voteCases ⟨root, t, w⟩ fm cases) := by
  obtain ⟨h1, -, -⟩ := treeGrower_searchOk (fp := findPredicted) (md := maxDepth)
    (sm := splitmissing) hS
  have hP : StateOk L fm st.cans st.oob st := ⟨hok, List.Perm.refl _, List.Perm.refl _⟩
  have := c08_leaf_predictions (hM.mono hc) (h1.mono hc) hP (Nat.zero_le _) h
  exact ⟨this.1, this.2.2.1⟩

theorem exFM3_ok : MatrixOk exFM3 [0, 1, 2, 3, 4, 5] := by
  refine ⟨fun f hf => (exFM3_feats f hf).valid, fun f hf => (exFM3_feats f hf).sound, ?_, ?_⟩
  · intro f hf
    simp only [exFM3, List.mem_cons, List.not_mem_nil, or_false] at hf
    rcases hf with rfl | rfl | rfl
    · trivial
    · trivial
    · intro s n
      by_cases ha : s = "a"
      · subst ha
        rcases n with _ | _ | _ | n <;> simp [exCat3, List.findIdx?_cons]
      by_cases hb : s = "b"
      · subst hb
        rcases n with _ | _ | _ | n <;> simp [exCat3, List.findIdx?_cons]
      by_cases hc : s = "c"
      · subst hc
        rcases n with _ | _ | _ | n <;> simp [exCat3, List.findIdx?_cons]
      have ha' : ¬ "a" = s := fun h => ha h.symm
      have hb' : ¬ "b" = s := fun h => hb h.symm
      have hc' : ¬ "c" = s := fun h => hc h.symm
      rcases n with _ | _ | _ | n <;> simp [exCat3, List.findIdx?_cons, ha', hb', hc']
  · intro i f hf
    match i, hf with
    | 0, hf => cases hf; rfl
    | 1, hf => cases hf; rfl
    | 2, hf => cases hf; rfl

/-- In the bag are 2, 4 and twice 5. -/
example : ∃ root st', ∀ fuel, 4 < fuel → grow (treeGrower exFM3 (giniTarget exSplitT)
    (catContrast exSplitT) exOpts (fun _ => "p") 0 true) exFM3 fuel .fresh exState [5, 2, 4, 5] 0 0 =
      some (root, st') := by
  obtain ⟨root, st', h, -⟩ := c09_grow exFM3_ok (cases := [5, 2, 4, 5]) (by decide) exSetting ⟨rfl, rfl, rfl⟩
    (fun _ => "p") 0 true
  exact ⟨root, st', h⟩

/-! ## Infinite values (C47) inside `Tree.Grow` -/

/-- A matrix with one feature, 0, +Inf, +Inf. -/
def exInfFM : FeatureMatrix ℚ := ⟨[.num exInf], fun _ => some 0, []⟩

/-- Growing a tree for the classes 0, 1, 1 from it. -/
def exInfGrower : Grower ℚ (SplitState ℚ) :=
  treeGrower exInfFM (giniTarget exInfT) (catContrast exInfT) ⟨1, 1, false, false, false, false⟩
    (fun _ => "p") 0 false

/-- The scratch values after one search. -/
def exInfAllocs : Allocs ℚ :=
  ((exInfGrower.best ⟨exWork.allocs, fun _ => 0, [0], []⟩ [0, 1, 2] 0).map
    (·.1.allocs)).getD exWork.allocs

open Lean Elab Tactic in
/-- Closes an equation by `Eq.refl`, leaving the comparison to the kernel. -/
elab "kernel_refl" : tactic => do
  let g ← getMainGoal
  let some (_, a, _) := (← instantiateMVars (← g.getType)).eq? | throwError "not an equation"
  g.assign (← Meta.mkEqRefl a)

theorem exInf_first : exInfGrower.best ⟨exWork.allocs, fun _ => 0, [0], []⟩ [0, 1, 2] 0 =
    some (⟨exInfAllocs, fun _ => 0, [0], []⟩, ⟨[0, 1, 2], 0, some (.num .pinf), 0⟩) := by
  kernel_refl

theorem exInf_again : exInfGrower.best ⟨exInfAllocs, fun _ => 0, [0], []⟩ [0, 1, 2] 0 =
    some (⟨exInfAllocs, fun _ => 0, [0], []⟩, ⟨[0, 1, 2], 0, some (.num .pinf), 0⟩) := by
  kernel_refl

/-- **C47 is false of the code, in `Tree.Grow`.** On this data growing a tree does not stop: at
every recursion depth the node is split at +Inf, all cases go left, and the left child is the
same problem again. -/
theorem c47_grow_diverges (fuel : Nat) :
    grow exInfGrower exInfFM fuel .fresh ⟨exWork.allocs, fun _ => 0, [0], []⟩ [0, 1, 2] 0 0 = none := by
  have hcond : ∀ d : Nat, ((d : Int) < exInfGrower.maxDepth ∨ exInfGrower.maxDepth ≤ 0) ∧
      2 * exInfGrower.leafSize ≤ [0, 1, 2].length := fun d => ⟨.inr (le_refl 0), by decide⟩
  have hpts : (Feature.num exInf).splitPoints (.num .pinf) [0, 1, 2] = some ([0, 1, 2], 3, 3) := by
    decide +kernel
  have key : ∀ fuel d, grow exInfGrower exInfFM fuel .fresh ⟨exInfAllocs, fun _ => 0, [0], []⟩
      [0, 1, 2] d 0 = none := by
    intro fuel
    induction fuel with
    | zero => intro d; rfl
    | succ fuel ih =>
      intro d
      rw [Node.fresh, grow]
      simp only []
      rw [if_pos (hcond d), exInf_again]
      simp only [Option.bind_eq_bind, Option.bind_some]
      have hd : exInfFM.data[0]? = some (.num exInf) := rfl
      rw [hd]
      simp only [Option.bind_some, Feature.decodeSplit, hpts]
      have : List.take 3 [0, 1, 2] = [0, 1, 2] := rfl
      rw [this]
      have := ih (d + 1)
      simp only [growChildren, Node.isNil, Bool.or_true, if_true]
      rw [this]
      rfl
  cases fuel with
  | zero => rfl
  | succ fuel =>
    rw [Node.fresh, grow]
    simp only []
    have hc := hcond 0
    rw [if_pos hc, exInf_first]
    simp only [Option.bind_eq_bind, Option.bind_some]
    have hd : exInfFM.data[0]? = some (.num exInf) := rfl
    rw [hd]
    simp only [Option.bind_some, Feature.decodeSplit, hpts]
    have : List.take 3 [0, 1, 2] = [0, 1, 2] := rfl
    rw [this]
    have := key fuel 1
    simp only [growChildren, Node.isNil, Bool.or_true, if_true]
    rw [this]
    rfl

end CloudForest
