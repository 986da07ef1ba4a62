import Verif.Lemmas.Books4

/-!
# Properties C91 and C92: importance scores and minimal depths
-/

set_option linter.unusedSectionVars false

namespace CloudForest
variable {K : Type} [Field K] [LinearOrder K] [IsStrictOrderedRing K] {σ : Type} {τ : Type}

/-! ## C91 -/

/-- Keeping the books does not change the tree. -/
theorem c91_same_tree (g : NotingGrower K σ) (fm : FeatureMatrix K) (fuel : Nat) (n : Node K)
    (st : σ) (cs : List Nat) (b : Books K) (n' : Node K) (st' : σ) (b' : Books K)
    (h : growNoting g fm fuel n st cs 0 0 b = some (n', st', b')) :
    grow g.forget fm fuel n st cs 0 0 = some (n', st') :=
  growNoting_forget g fm fuel n st cs 0 0 b n' st' b' h

/-- **C91.** After a run of `BestSplitter`-grown trees with neither out-of-bag evaluation nor
vetting, on a sound matrix without near ties and for an impurity that is averaged over the parts
of a division: take all splits on feature `i` in all trees, each with the cases of the tree's bag
that arrive there, and the decreases of impurity they bring. The importance file gives their
number, their mean, and their sum divided by the number of trees. Each tree is grown on a new
node or on a tree grown before. -/
theorem c91_importance_partial {fm : FeatureMatrix K} {T : Target K} {C : Contrast K τ}
    {good : τ → Prop} {o : SplitOpts} {cases : List Nat} (hM : MatrixOk fm cases)
    {L : TargetLaws T cases} {imp : List Nat → K} (hw : L.Weighted imp)
    {cans oob : List Nat} (hS : SplitSetting L fm C good o cans oob)
    (ho : o.evaloob = false) (hv : o.vet = false)
    (hties : ∀ f ∈ fm.data, f.NoNearTies (f.knowns cases))
    (fp : List Nat → String) (md : Int) (sm : Bool) {fuel : Nat}
    (jobs : List (Job K (SplitState K))) (hne : jobs ≠ [])
    (hj : ∀ j ∈ jobs, (sm = true ∨ NoMissingBranch j.start) ∧ (∀ c ∈ j.bag, c ∈ cases) ∧
      ∀ st, RunState L cans st → RunState L cans (j.prep st))
    {st : SplitState K} (hst : RunState L cans st) {trees : List (Node K)} {s : Scores K}
    (h : growScored (treeNoter fm T C o fp md sm) fm fuel jobs st (Scores.new fm.data.length) =
      some (trees, s)) (i : Nat) (hi : i < fm.data.length) :
    let uses := (List.zipWith (fun j t => usesOf fm (threeWayDecrease fm imp) t j.bag 0)
      jobs trees).flatten.filter fun u => u.feature == i
    ∃ line, s.line jobs.length i = some line ∧
      line.uses = .fin uses.length ∧
      line.perUse = .fin ((uses.map (·.dec)).sum / uses.length) ∧
      line.perTree = .fin ((uses.map (·.dec)).sum / jobs.length) := by
  intro uses
  obtain ⟨h1, h2, h3⟩ := growScored_ok hM (treeNoter_searchOk (fp := fp) (md := md) (sm := sm) hS)
    (treeNoter_decOk (fp := fp) (md := md) (sm := sm) hS hw ho hv hties) (Nat.zero_le _) jobs st
    (Scores.new fm.data.length) s trees hj hst h (by simp [Scores.new])
  have e1 := h1 i [] (by simp [Scores.new, hi, RunningMean.new_eq])
  have e2 := h2 i [] (by simp [Scores.new, hi, RunningMean.new_eq])
  have hflat : ([] ++ (runUses fm (threeWayDecrease fm imp) jobs trees).flatMap (decsOf · i)) =
      uses.map (·.dec) := by
    rw [List.nil_append]
    show _ = List.map _ (List.filter _ (List.flatten (runUses fm (threeWayDecrease fm imp) jobs trees)))
    generalize runUses fm (threeWayDecrease fm imp) jobs trees = ll
    induction ll with
    | nil => rfl
    | cons us ll ih =>
      rw [List.flatMap_cons, List.flatten_cons, List.filter_append, List.map_append, ih]
      rfl
  rw [hflat] at e1
  have hn : ((jobs.length : Nat) : K) ≠ 0 := by
    simpa using hne
  refine ⟨_, by simp only [Scores.line, e1, e2, Option.bind_eq_bind, Option.bind_some]; rfl, ?_, ?_, ?_⟩
  · simp [RunningMean.ofList]
  · simp [RunningMean.ofList]
  · simp only [RunningMean.ofList, XF.fin_mul, XF.ofNat, XF.fin_div _ hn]
    congr 2
    rw [List.length_map]
    cases hu : uses with
    | nil => simp
    | cons u us =>
      have : (((u :: us).length : Nat) : K) ≠ 0 := by
        rw [List.length_cons]; push_cast; positivity
      field_simp

/-- **C91**, several workers: `RunningMean.Add` holds a lock, so their notes are taken in some
order, and the order does not matter for the importances. -/
theorem c91_any_order (us us' : List (Use K)) (hp : us.Perm us') (n : Nat)
    (hr : ∀ u ∈ us, u.feature < n) (i : Nat) (hi : i < n) :
    ∃ b b' : Books K, noteAll us ⟨some (List.replicate n .new), some (List.replicate n 0)⟩ = some b ∧
      noteAll us' ⟨some (List.replicate n .new), some (List.replicate n 0)⟩ = some b' ∧
      ∃ l l', b.importance = some l ∧ b'.importance = some l' ∧ l[i]? = l'[i]? := by
  obtain ⟨imp, du, e, -, -, p, -⟩ := noteAll_eq us (List.replicate n .new) (List.replicate n 0)
    (by simpa using hr) (by simpa using hr)
  obtain ⟨imp', du', e', -, -, p', -⟩ := noteAll_eq us' (List.replicate n .new)
    (List.replicate n 0) (by simpa using fun u hu => hr u (hp.mem_iff.2 hu))
    (by simpa using fun u hu => hr u (hp.mem_iff.2 hu))
  refine ⟨_, _, e, e', imp, imp', rfl, rfl, ?_⟩
  rw [p i [] (by simp [hi, RunningMean.new_eq]), p' i [] (by simp [hi, RunningMean.new_eq])]
  have : (decsOf us i).Perm (decsOf us' i) := (hp.filter _).map _
  simp [RunningMean.ofList, this.sum_eq, this.length_eq]

/-- A run of two trees on the example matrix, all three features tried at every node. -/
def exBookOpts : SplitOpts := ⟨3, 1, false, false, false, false⟩

@[inherit_doc exBookOpts]
def exBookJobs : List (Job ℚ (SplitState ℚ)) :=
  [⟨id, .fresh, [0, 1, 2, 3, 4, 5]⟩, ⟨id, .fresh, [0, 1, 2, 3, 4]⟩]

@[inherit_doc exBookOpts]
def exBookRun : Option (List (Node ℚ) × Scores ℚ) :=
  growScored (treeNoter exFM3 (giniTarget exSplitT) (catContrast exSplitT) exBookOpts
    (fun _ => "") 0 false) exFM3 10 exBookJobs exState (Scores.new 3)

theorem exBookSetting : SplitSetting (giniLaws (K := ℚ) exSplitT 2 _ exSplitT_inRange) exFM3
    (catContrast exSplitT) (fun g => g.InRange 2 [0, 1, 2, 3, 4, 5] ∧
      g.missing.length = g.catData.length ∧ g.catData.length = exSplitT.catData.length)
    exBookOpts exState.cans exState.oob :=
  ⟨exSetting.feats, (fun h => nomatch h), (fun h => nomatch h), exSetting.start, by decide,
    exSetting.exist, by decide, exSetting.oobs⟩

theorem exFM3_ties : ∀ f ∈ exFM3.data, f.NoNearTies (f.knowns [0, 1, 2, 3, 4, 5]) := by
  intro f hf
  simp only [exFM3, List.mem_cons, List.not_mem_nil, or_false] at hf
  rcases hf with rfl | rfl | rfl
  · exact fun c hc d hd => exSplit_ties c (List.mem_of_mem_filter hc) d (List.mem_of_mem_filter hd)
  · intro c hc d hd h
    exfalso
    have hv : ∀ c ∈ [0, 1, 2, 3, 4, 5], exConst.value c = 7 := by decide +kernel
    rw [hv c (List.mem_of_mem_filter hc), hv d (List.mem_of_mem_filter hd)] at h
    exact lt_irrefl _ h
  · trivial

theorem exBookJobs_ok : ∀ j ∈ exBookJobs, (false = true ∨ NoMissingBranch j.start) ∧
    (∀ c ∈ j.bag, c ∈ [0, 1, 2, 3, 4, 5]) ∧ ∀ st,
      RunState (giniLaws (K := ℚ) exSplitT 2 _ exSplitT_inRange) exState.cans st →
      RunState (giniLaws (K := ℚ) exSplitT 2 _ exSplitT_inRange) exState.cans (j.prep st) := by
  intro j hj
  simp only [exBookJobs, List.mem_cons, List.not_mem_nil, or_false] at hj
  rcases hj with rfl | rfl
  · exact ⟨.inr ⟨rfl, trivial, trivial⟩, by decide, fun st h => h⟩
  · exact ⟨.inr ⟨rfl, trivial, trivial⟩, by decide, fun st h => h⟩

theorem exBookRun_some : exBookRun.isSome = true := by decide +kernel

/-- The theorem applies to the run: feature 2 has one use, of decrease one half. -/
example : ∃ trees s, exBookRun = some (trees, s) ∧ ∀ i < 3, ∃ line, s.line 2 i = some line ∧
    line.uses = .fin ((List.zipWith (fun (j : Job ℚ (SplitState ℚ)) t =>
      usesOf exFM3 (threeWayDecrease exFM3 (exSplitT.gini ℚ 2)) t j.bag 0) exBookJobs
      trees).flatten.filter fun u => u.feature == i).length := by
  obtain ⟨⟨trees, s⟩, h⟩ := Option.isSome_iff_exists.1 exBookRun_some
  refine ⟨trees, s, h, fun i hi => ?_⟩
  obtain ⟨line, h1, h2, -, -⟩ := c91_importance_partial exFM3_ok (giniLaws_weighted exSplitT 2 _
    exSplitT_inRange) exBookSetting rfl rfl exFM3_ties (fun _ => "") 0 false exBookJobs (by decide)
    exBookJobs_ok (st := exState) ⟨⟨rfl, rfl, rfl⟩, .refl _, by decide⟩ h i hi
  exact ⟨line, h1, h2⟩

example : (exBookRun.bind fun r => r.2.line 2 2).map (fun l => (l.uses, l.perUse, l.perTree)) =
    some (.fin 1, .fin (1 / 2), .fin (1 / 4)) := by decide +kernel

/-! ## C92 -/

/-- **C92 is false of the code.** Each of the two trees of the example run splits once, at the
root, on features 2 and 0. According to the importance file no tree uses any feature: depth 0
is taken for "not used". -/
theorem c92_root_not_counted :
    (exBookRun.map fun r => (List.zipWith (fun (j : Job ℚ (SplitState ℚ)) t =>
      (usesOf exFM3 (threeWayDecrease exFM3 (exSplitT.gini ℚ 2)) t j.bag 0).map fun u =>
        (u.feature, u.depth)) exBookJobs r.1)) = some [[(2, 0)], [(0, 0)]] ∧
    (∀ i < 3, (exBookRun.bind fun r => r.2.line 2 i).map (·.treesUsed) = some (.fin 0)) := by
  decide +kernel

/-- Other classes for the example matrix. -/
def exDeepT : CatFeature :=
  ⟨.empty, [1, 0, 1, 0, 1, 1], List.replicate 6 false, "u", false, false⟩

/-- A tree on feature 0 alone. -/
def exDeepRun : Option (List (Node ℚ) × Scores ℚ) :=
  growScored (treeNoter exFM3 (giniTarget exDeepT) (catContrast exDeepT)
    ⟨1, 1, false, false, false, false⟩ (fun _ => "") 0 false) exFM3 10
    [⟨id, .fresh, [0, 1, 2, 3, 4, 5]⟩] { exState with cans := [0] } (Scores.new 3)

/-- **C92 is false of the code.** Feature 0 is used at the root of this tree and again below; the
mean minimal depth reported for it is 1. -/
theorem c92_root_overwritten :
    (exDeepRun.map fun r => r.1.map fun t =>
      (usesOf exFM3 (threeWayDecrease exFM3 (exDeepT.gini ℚ 2)) t [0, 1, 2, 3, 4, 5] 0).map fun u =>
        (u.feature, u.depth)) = some [[(0, 0), (0, 1)]] ∧
    (exDeepRun.bind fun r => r.2.line 1 0).map (fun l => (l.treesUsed, l.meanMinDepth)) =
      some (.fin 1, .fin 1) := by
  decide +kernel

/-- **C92**, features used at no root: under the conditions of C91 the importance file gives the
number of trees that use feature `i` and the mean over these trees of the least depth at which
they use it. -/
theorem c92_below_root_partial {fm : FeatureMatrix K} {T : Target K} {C : Contrast K τ}
    {good : τ → Prop} {o : SplitOpts} {cases : List Nat} (hM : MatrixOk fm cases)
    {L : TargetLaws T cases} {imp : List Nat → K} (hw : L.Weighted imp)
    {cans oob : List Nat} (hS : SplitSetting L fm C good o cans oob)
    (ho : o.evaloob = false) (hv : o.vet = false)
    (hties : ∀ f ∈ fm.data, f.NoNearTies (f.knowns cases))
    (fp : List Nat → String) (md : Int) (sm : Bool) {fuel : Nat}
    (jobs : List (Job K (SplitState K)))
    (hj : ∀ j ∈ jobs, (sm = true ∨ NoMissingBranch j.start) ∧ (∀ c ∈ j.bag, c ∈ cases) ∧
      ∀ st, RunState L cans st → RunState L cans (j.prep st))
    {st : SplitState K} (hst : RunState L cans st) {trees : List (Node K)} {s : Scores K}
    (h : growScored (treeNoter fm T C o fp md sm) fm fuel jobs st (Scores.new fm.data.length) =
      some (trees, s)) (i : Nat) (hi : i < fm.data.length)
    (hroot : ∀ us ∈ List.zipWith (fun (j : Job K (SplitState K)) t =>
      usesOf fm (threeWayDecrease fm imp) t j.bag 0) jobs trees, ∀ u ∈ us, u.feature = i → u.depth ≠ 0) :
    let least := (List.zipWith (fun (j : Job K (SplitState K)) t =>
      usesOf fm (threeWayDecrease fm imp) t j.bag 0) jobs trees).filterMap fun us =>
        ((us.filter fun u => u.feature == i).map (·.depth)).min?
    ∃ line, s.line jobs.length i = some line ∧
      line.treesUsed = .fin ((List.zipWith (fun (j : Job K (SplitState K)) t =>
        usesOf fm (threeWayDecrease fm imp) t j.bag 0) jobs trees).countP (usesFeature · i)) ∧
      line.meanMinDepth = .fin ((least.map fun (d : Nat) => (d : K)).sum / least.length) := by
  intro least
  obtain ⟨h1, h2, h3⟩ := growScored_ok hM (treeNoter_searchOk (fp := fp) (md := md) (sm := sm) hS)
    (treeNoter_decOk (fp := fp) (md := md) (sm := sm) hS hw ho hv hties) (Nat.zero_le _) jobs st
    (Scores.new fm.data.length) s trees hj hst h (by simp [Scores.new])
  have e1 := h1 i [] (by simp [Scores.new, hi, RunningMean.new_eq])
  have e2 := h2 i [] (by simp [Scores.new, hi, RunningMean.new_eq])
  have hleast : (runUses fm (threeWayDecrease fm imp) jobs trees).filterMap (lowDepth · i) = least := by
    apply List.filterMap_congr
    intro us hus
    unfold lowDepth
    rw [List.filter_eq_self.2]
    · rfl
    · intro x hx
      unfold depthsOf at hx
      rw [List.mem_map] at hx
      obtain ⟨u, hu, rfl⟩ := hx
      rw [List.mem_filter] at hu
      have := hroot us hus u hu.1 (by simpa using hu.2)
      simp; omega
  rw [hleast] at e2
  have hcount : least.length = (List.zipWith (fun (j : Job K (SplitState K)) t =>
        usesOf fm (threeWayDecrease fm imp) t j.bag 0) jobs trees).countP (usesFeature · i) := by
    show (List.filterMap _ (List.zipWith (fun (j : Job K (SplitState K)) t =>
        usesOf fm (threeWayDecrease fm imp) t j.bag 0) jobs trees)).length = _
    generalize List.zipWith (fun (j : Job K (SplitState K)) t =>
        usesOf fm (threeWayDecrease fm imp) t j.bag 0) jobs trees = ll
    induction ll with
    | nil => rfl
    | cons us ll ih =>
      rw [List.filterMap_cons, List.countP_cons]
      have hu : usesFeature us i = !((us.filter fun u => u.feature == i).isEmpty) := by
        unfold usesFeature
        rw [Bool.eq_iff_iff]
        simp [List.isEmpty_iff]
      cases hf : us.filter fun u => u.feature == i with
      | nil => simp [hu, hf, ih]
      | cons v vs => simp [hu, hf, ih, List.min?_cons']
  refine ⟨_, by simp only [Scores.line, e1, e2, Option.bind_eq_bind, Option.bind_some]; rfl, ?_, ?_⟩
  · simp [RunningMean.ofList, hcount]
  · simp [RunningMean.ofList]

/-- Classes for which the tree uses feature 2 at the root and feature 0 twice below. -/
def exBelowT : CatFeature :=
  ⟨.empty, [1, 0, 1, 0, 0, 0], List.replicate 6 false, "v", false, false⟩

theorem exBelowT_inRange : exBelowT.InRange 2 [0, 1, 2, 3, 4, 5] := by
  intro c hc; fin_cases hc <;> simp [exBelowT]

theorem exBelowSetting : SplitSetting (giniLaws (K := ℚ) exBelowT 2 _ exBelowT_inRange) exFM3
    (catContrast exBelowT) (fun _ => True) exBookOpts exState.cans exState.oob :=
  ⟨exSetting.feats, (fun h => nomatch h), (fun h => nomatch h), trivial, by decide,
    exSetting.exist, by decide, exSetting.oobs⟩

/-- The run for it. -/
def exBelowRun : Option (List (Node ℚ) × Scores ℚ) :=
  growScored (treeNoter exFM3 (giniTarget exBelowT) (catContrast exBelowT) exBookOpts
    (fun _ => "") 0 false) exFM3 10 [⟨id, .fresh, [0, 1, 2, 3, 4, 5]⟩] exState (Scores.new 3)

theorem exBelowRun_uses : (exBelowRun.map fun r => r.1.map fun t =>
    (usesOf exFM3 (threeWayDecrease exFM3 (exBelowT.gini ℚ 2)) t [0, 1, 2, 3, 4, 5] 0).map fun u =>
      (u.feature, u.depth)) = some [[(2, 0), (0, 1), (0, 2)]] := by
  decide +kernel

example : ∃ trees s, exBelowRun = some (trees, s) ∧ ∃ line, s.line 1 0 = some line ∧
    line.treesUsed = .fin ((List.zipWith (fun (j : Job ℚ (SplitState ℚ)) t =>
        usesOf exFM3 (threeWayDecrease exFM3 (exBelowT.gini ℚ 2)) t j.bag 0)
        [⟨id, .fresh, [0, 1, 2, 3, 4, 5]⟩] trees).countP (usesFeature · 0)) := by
  have hu := exBelowRun_uses
  obtain ⟨⟨trees, s⟩, h, hu⟩ := Option.map_eq_some_iff.1 hu
  refine ⟨trees, s, h, ?_⟩
  obtain ⟨t, rfl⟩ : ∃ t, trees = [t] := by
    have := congrArg List.length hu
    simp only [List.length_map, List.length_cons, List.length_nil] at this
    exact List.length_eq_one_iff.1 this
  obtain ⟨line, h1, h2, -⟩ := c92_below_root_partial exFM3_ok (giniLaws_weighted exBelowT 2 _
    exBelowT_inRange) exBelowSetting rfl rfl exFM3_ties (fun _ => "") 0 false
    [⟨id, .fresh, [0, 1, 2, 3, 4, 5]⟩]
    (by
      intro j hj
      rw [List.mem_singleton.1 hj]
      exact ⟨.inr ⟨rfl, trivial, trivial⟩, by decide, fun st h => h⟩)
    (st := exState) ⟨⟨rfl, rfl, rfl⟩, .refl _, by decide⟩ h 0 (by decide) (by
      intro us hus u hu1 hu2
      simp only [List.zipWith_cons_cons, List.zipWith_nil_right, List.mem_singleton] at hus
      subst hus
      simp only [List.map_cons, List.map_nil, List.cons.injEq, and_true] at hu
      have : (u.feature, u.depth) ∈ [(2, 0), (0, 1), (0, 2)] := by
        rw [← hu]; exact List.mem_map.2 ⟨u, hu1, rfl⟩
      simp only [List.mem_cons, Prod.mk.injEq, List.not_mem_nil, or_false] at this
      omega)
  exact ⟨line, h1, h2⟩

example : (exBelowRun.bind fun r => r.2.line 1 0).map (fun l => (l.treesUsed, l.meanMinDepth)) =
    some (.fin 1, .fin 1) := by decide +kernel

end CloudForest
