import Verif.Lemmas.Boost
import Verif.Props.Sf
import Verif.Spec.Values

/-!
# C36: gradient boosting
-/

set_option linter.unusedSectionVars false

namespace CloudForest
variable {K : Type} [Field K] [LinearOrder K] [IsStrictOrderedRing K]

/-- What a tree's partition and its votes say about each case. -/
theorem tree_votes (parse : String → Option (XF K)) (fm : FeatureMatrix K) (n : Nat) (t : Tree K)
    (hc : fm.allCases = some (List.range n)) (hu : Usable fm (List.range n) t.root) (hp : t.FiniteFor parse fm n) :
    ∃ groups preds votes, t.partition fm = some (groups, preds) ∧ t.vote fm = some votes ∧
      votes = ((groups.zip preds).flatMap fun g => g.1.map fun c => ⟨c, g.2, t.voteWeight⟩) ∧
      groups.length = preds.length ∧
      (∀ g ∈ groups.zip preds, (∀ c ∈ g.1, c < n) ∧ (g.1 ≠ [] → ∀ y, parse g.2 = some y → ∃ z, y = .fin z)) ∧
      ∀ i < n, votedSum parse votes i = treeValue parse fm t i := by
  obtain ⟨groups, preds, votes, h1, h2, h3⟩ := c07_votes t fm _ hc hu
  obtain ⟨groups', preds', _, paths, h1', -, h4, h5, -, h6, -⟩ := c07_partition t fm _ hc hu
  rw [h1] at h1'
  cases h1'
  refine ⟨groups, preds, votes, h1, h2, h3, h4, ?_, ?_⟩
  · intro g hg
    obtain ⟨k, hk, rfl⟩ := List.getElem_of_mem hg
    have hk1 : k < groups.length := by simp at hk; omega
    have hk2 : k < preds.length := by omega
    obtain ⟨h7, h8⟩ := h6 k hk1 hk2 (by omega)
    rw [List.getElem_zip]
    refine ⟨fun c hcm => ?_, fun hne y hy => ?_⟩
    · have := h7.subset hcm
      exact List.mem_range.1 (List.mem_filter.1 this).1
    · obtain ⟨c, hcm⟩ := List.exists_mem_of_ne_nil _ hne
      obtain ⟨hcn, hland⟩ := List.mem_filter.1 (h7.subset hcm)
      exact hp c (List.mem_range.1 hcn) _ (beq_iff_eq.1 hland) y hy
  · intro i hi
    obtain ⟨votes', o, e1, e2⟩ := c06_independent t fm _ hu i
    have hv : t.vote fm = some votes' := by
      simp only [Tree.vote, hc, e1, Option.bind_eq_bind, Option.bind_some]
    rw [h2] at hv
    cases hv
    have hsum : ∀ bs : List (Ballot K), votedSum parse bs i =
        ((bs.filter fun b => b.case == i).map fun b => predVal parse b.pred).sum := by
      intro bs
      induction bs with
      | nil => rfl
      | cons b bs ih =>
        have : votedSum parse (b :: bs) i = (if b.case = i then predVal parse b.pred else 0) + votedSum parse bs i := by
          simp [votedSum]
        rw [this, ih, List.filter_cons]
        by_cases hb : b.case = i
        · simp [hb]
        · have : (b.case == i) = false := by simpa using hb
          simp [hb]
    rw [hsum, e2]
    unfold treeValue
    cases landing fm t.root i with
    | none => rfl
    | some x =>
      have : (List.range n).count i = 1 := List.count_eq_one_of_mem List.nodup_range (List.mem_range.2 hi)
      simp [this]

theorem newGradBoost_values (f : NumFeature K) (lr : XF K) (n : Nat) (y : Nat → K) (hm : f.missing.length = n)
    (hd : f.numData = finList n y) (hn : n ≠ 0) :
    newGradBoost f lr = some ⟨withValues f n fun i => y i - ((List.range n).map y).sum / n, lr,
      .fin (((List.range n).map y).sum / n)⟩ := by
  unfold newGradBoost
  have hsum : ∀ (cs : List Nat) (s : K), (∀ c ∈ cs, c < n) → cs.foldlM (fun (s : XF K) i => do
      let x ← f.numData[i]?
      some (s + x)) (.fin s) = some (.fin (s + (cs.map y).sum)) := by
    intro cs
    induction cs with
    | nil => intro s _; simp
    | cons c cs ih =>
      intro s h
      rw [List.foldlM_cons, hd, finList_get y (h c (by simp)), ← hd]
      refine (ih (s + y c) fun x hx => h x (by simp [hx])).trans ?_
      rw [List.map_cons, List.sum_cons, add_assoc]
  have hall : ∀ c ∈ List.range n, c < n := fun c => List.mem_range.1
  simp only [hm]
  rw [hsum _ _ hall]
  simp only [Option.bind_eq_bind, Option.bind_some, zero_add]
  have hprior : (XF.fin ((List.range n).map y).sum / XF.ofNat n : XF K) = .fin (((List.range n).map y).sum / n) := by
    show XF.div _ _ = _
    unfold XF.div XF.ofNat
    simp [hn]
  rw [hprior]
  generalize ((List.range n).map y).sum / (n : K) = prior
  -- the loop that writes the residuals
  have hput : ∀ (k : Nat) (g : NumFeature K), k ≤ n → g.numData = finList n y → g.missing.length = n →
      (List.range k).foldlM (fun (f : NumFeature K) i => (f.numData[i]?).bind fun x => f.put i (x - .fin prior)) g =
      some { g with numData := finList n fun i => if i < k then y i - prior else y i
                    missing := List.replicate k false ++ g.missing.drop k } := by
    intro k
    induction k with
    | zero =>
      intro g _ h1 h2
      obtain ⟨d, m, a, b⟩ := g
      subst h1
      simp
    | succ k ih =>
      intro g hk h1 h2
      rw [List.range_succ, List.foldlM_append, ih g (by omega) h1 h2]
      simp only [Option.bind_eq_bind, Option.bind_some, List.foldlM_cons, List.foldlM_nil]
      rw [finList_get _ (by omega : k < n)]
      simp only [Option.bind_some, lt_irrefl, if_false]
      have hx : (XF.fin (y k) - XF.fin prior : XF K) = .fin (y k - prior) := by
        show XF.fin (y k + -prior) = _
        rw [sub_eq_add_neg]
      rw [hx]
      unfold NumFeature.put wr
      have hlen : k < (List.replicate k false ++ g.missing.drop k).length := by simp; omega
      simp only [finList_length, if_pos (by omega : k < n), if_pos hlen, Option.bind_eq_bind, Option.bind_some]
      rw [finList_set]
      congr 2
      · apply finList_congr
        intro i _
        by_cases hik : i = k
        · subst hik; simp
        · rw [Function.update_of_ne hik]
          by_cases hlt : i < k
          · rw [if_pos hlt, if_pos (by omega)]
          · rw [if_neg hlt, if_neg (by omega)]
      · rw [List.set_append_right _ _ (by simp), List.length_replicate, Nat.sub_self, List.replicate_succ',
          List.drop_eq_getElem_cons (by omega : k < g.missing.length), List.set_cons_zero]
        simp
  rw [hput n f le_rfl hd hm]
  simp only [Option.bind_some]
  congr 2
  unfold withValues
  congr 1
  · apply finList_congr
    intro i hi
    rw [if_pos hi]
  · rw [List.drop_eq_nil_of_le (by omega), List.append_nil]

/-- The predictions of trees that all have the learning rate as their weight. -/
theorem applySum_eq (parse : String → Option (XF K)) (fm : FeatureMatrix K) (n : Nat) (lr prior : K)
    (trees : List (Tree K)) (hc : fm.allCases = some (List.range n)) (hlr : 0 ≤ lr)
    (ht : ∀ t ∈ trees, Usable fm (List.range n) t.root ∧ t.FiniteFor parse fm n) :
    applySum parse (.fin prior) (trees.map fun t => ({ t with weight := .fin lr } : Tree K)) fm =
      some (finList n fun i => prior + lr * (trees.map fun t => treeValue parse fm t i).sum) := by
  -- the votes
  have hvotes : ∀ (ts : List (Tree K)), (∀ t ∈ ts, Usable fm (List.range n) t.root ∧ t.FiniteFor parse fm n) → ∀ s : Nat → K,
      (ts.map fun t => ({ t with weight := .fin lr } : Tree K)).foldlM (fun (bb : SumBox K) t => do
        let votes ← t.vote fm
        castAll (SumBox.vote parse) bb votes) (finList n s) =
      some (finList n fun i => s i + lr * (ts.map fun t => treeValue parse fm t i).sum) := by
    intro ts
    induction ts with
    | nil => intro _ s; simp
    | cons t ts ih =>
      intro hts s
      obtain ⟨hu, hp⟩ := hts t (by simp)
      obtain ⟨groups, preds, votes, -, h2, h3, -, h5, h6⟩ := tree_votes parse fm n { t with weight := .fin lr } hc hu hp
      have hwt : Tree.voteWeight { t with weight := .fin lr } = .fin lr := by
        unfold Tree.voteWeight
        rw [if_pos (show (XF.fin 0 : XF K) ≤ .fin lr from hlr)]
      rw [List.map_cons, List.foldlM_cons, h2]
      have hcast := castAll_finList parse (n := n) lr votes (by
        intro b hb
        rw [h3, List.mem_flatMap] at hb
        obtain ⟨g, hg, hb⟩ := hb
        obtain ⟨c, hcm, rfl⟩ := List.mem_map.1 hb
        exact ⟨(h5 g hg).1 c hcm, hwt, (h5 g hg).2 (List.ne_nil_of_mem hcm)⟩) s
      simp only [Option.bind_eq_bind, Option.bind_some] at ih ⊢
      rw [hcast]
      simp only [Option.bind_some]
      rw [ih fun x hx => hts x (by simp [hx])]
      congr 1
      apply finList_congr
      intro i hi
      rw [h6 i hi, List.map_cons, List.sum_cons]
      show s i + lr * treeValue parse fm t i + _ = _
      ring
  have hlen0 : ∃ F, fm.data[0]? = some F ∧ F.length = n := by
    simp only [FeatureMatrix.allCases, Option.bind_eq_bind, Option.bind_eq_some_iff, Option.some.injEq] at hc
    obtain ⟨F, h1, h2⟩ := hc
    exact ⟨F, h1, by simpa using congrArg List.length h2⟩
  obtain ⟨F, hF, hFl⟩ := hlen0
  unfold applySum
  have hnew : (SumBox.new n : SumBox K) = finList n fun _ => 0 := by
    unfold SumBox.new finList
    simp
  rw [hF]
  simp only [Option.bind_eq_bind, Option.bind_some, hFl]
  have := hvotes trees ht fun _ => 0
  simp only [Option.bind_eq_bind] at this
  rw [hnew, this]
  simp only [Option.bind_some]
  congr 1
  unfold finList
  rw [List.map_map]
  apply List.map_congr_left
  intro i _
  show XF.fin (0 + lr * _ + prior) = _
  congr 1
  ring

/-- One round. -/
theorem round_withValues (parse : String → Option (XF K)) (fm : FeatureMatrix K) (ti n : Nat) (f : NumFeature K)
    (lr : K) (mean : XF K) (v : Nat → K) (t : Tree K) (hti : fm.data[ti]? = some (.num f))
    (hc : fm.allCases = some (List.range n)) (hf : (Feature.num f).length = n)
    (hu : Usable fm (List.range n) t.root) (ha : t.root.Avoids fm ti) (hp : t.FiniteFor parse fm n) :
    GradBoost.round parse ti ({ fm with data := fm.data.set ti (.num (withValues f n v)) },
        ⟨withValues f n v, .fin lr, mean⟩) t =
      some (({ fm with data := fm.data.set ti (.num (withValues f n fun i => v i - lr * treeValue parse fm t i)) },
        ⟨withValues f n fun i => v i - lr * treeValue parse fm t i, .fin lr, mean⟩), { t with weight := .fin lr }) := by
  obtain ⟨groups, preds, votes, h1, -, h3, h4, h5, h6⟩ := tree_votes parse fm n t hc hu hp
  have hw : (Feature.num (withValues f n v)).length = (Feature.num f).length := by
    rw [hf]; simp [Feature.length, withValues]
  have hpart : t.partition { fm with data := fm.data.set ti (.num (withValues f n v)) } = some (groups, preds) := by
    rw [← h1]
    unfold Tree.partition
    rw [allCases_set fm ti _ _ hti hw]
    simp only [recurse_avoids fm ti _ _ ha]
  have hset : ∀ g : NumFeature K, ({ fm with data := (fm.data.set ti (.num (withValues f n v))).set ti (.num g) } :
      FeatureMatrix K) = { fm with data := fm.data.set ti (.num g) } := by
    intro g; rw [List.set_set]
  rw [GradBoost.round, hpart]
  simp only [Option.bind_eq_bind, Option.bind_some]
  rw [boost_withValues parse f lr mean groups preds t.voteWeight h4 h5 v, ← h3]
  simp only [Option.bind_some, hset]
  have e : withValues f n (fun i => v i - lr * votedSum parse votes i) =
      withValues f n (fun i => v i - lr * treeValue parse fm t i) := by
    unfold withValues
    congr 1
    apply finList_congr
    intro i hi
    rw [h6 i hi]
  rw [e]

/-- **C36.** The target of a matrix is boosted by any sequence of trees that do not split on it. Afterwards, for
every case, the original value is the prediction of the boosted trees (`applyforest -sum` with the target's
intercept) plus the residual that is left. The prediction is the prior plus the learning rate times the sum of what
the trees predict. -/
theorem c36_telescope (parse : String → Option (XF K)) (fm : FeatureMatrix K) (ti n : Nat) (f : NumFeature K)
    (y : Nat → K) (lr : K) (trees : List (Tree K)) (hti : fm.data[ti]? = some (.num f))
    (hc : fm.allCases = some (List.range n)) (hn : n ≠ 0) (hm : f.missing.length = n) (hl : f.numData.length = n)
    (hy : ∀ i < n, f.numData[i]? = some (.fin (y i))) (hlr : 0 ≤ lr)
    (ht : ∀ t ∈ trees, Usable fm (List.range n) t.root ∧ t.root.Avoids fm ti ∧ t.FinitePreds parse) :
    ∃ g fm' g' trees' preds, newGradBoost f (.fin lr) = some g ∧
      GradBoost.rounds parse ti ({ fm with data := fm.data.set ti (.num g.f) }, g) trees = some ((fm', g'), trees') ∧
      applySum parse g'.mean trees' fm = some preds ∧ preds.length = n ∧
      ∃ prior, g.mean = .fin prior ∧ ∀ i < n, ∃ s r,
        preds[i]? = some (.fin s) ∧ g'.f.numData[i]? = some (.fin r) ∧ s + r = y i ∧
        s = prior + lr * (trees.map fun t => treeValue parse fm t i).sum := by
  have hd : f.numData = finList n y := finList_eq hl hy
  have hf : (Feature.num f).length = n := hm
  -- all rounds
  have hround : ∀ (ts : List (Tree K)), (∀ t ∈ ts, Usable fm (List.range n) t.root ∧ t.root.Avoids fm ti ∧
      t.FinitePreds parse) → ∀ (v : Nat → K) (mean : XF K), ∃ fm', GradBoost.rounds parse ti
        ({ fm with data := fm.data.set ti (.num (withValues f n v)) }, ⟨withValues f n v, .fin lr, mean⟩) ts =
      some ((fm', ⟨withValues f n fun i => v i - lr * (ts.map fun t => treeValue parse fm t i).sum, .fin lr, mean⟩),
        ts.map fun t => { t with weight := .fin lr }) := by
    intro ts
    induction ts with
    | nil => intro _ v mean; exact ⟨_, by simp [GradBoost.rounds]; rfl⟩
    | cons t ts ih =>
      intro hts v mean
      obtain ⟨hu, ha, hp⟩ := hts t (by simp)
      obtain ⟨fm', e⟩ := ih (fun x hx => hts x (by simp [hx])) (fun i => v i - lr * treeValue parse fm t i) mean
      refine ⟨fm', ?_⟩
      rw [GradBoost.rounds, round_withValues parse fm ti n f lr mean v t hti hc hf hu ha (hp.for fm n)]
      simp only [Option.bind_eq_bind, Option.bind_some]
      rw [e]
      simp only [Option.bind_some, List.map_cons]
      congr 4
      unfold withValues
      congr 1
      apply finList_congr
      intro i hi
      rw [List.sum_cons]
      ring
  have e0 := newGradBoost_values f (.fin lr) n y hm hd hn
  obtain ⟨fm', e1⟩ := hround trees ht (fun i => y i - ((List.range n).map y).sum / n)
    (.fin (((List.range n).map y).sum / n))
  generalize ((List.range n).map y).sum / (n : K) = prior at e0 e1
  have happly := applySum_eq parse fm n lr prior trees hc hlr fun t h => ⟨(ht t h).1, (ht t h).2.2.for fm n⟩
  refine ⟨_, fm', _, _, _, e0, e1, happly, by simp, prior, rfl, fun i hi => ?_⟩
  refine ⟨_, _, finList_get _ hi, finList_get _ hi, ?_, rfl⟩
  ring

/-- A target and a feature. -/
def exBoostFM : FeatureMatrix ℚ where
  data := [.num ⟨[.fin 4, .fin 1, .fin 1], [false, false, false], "N:y", false⟩,
    .num ⟨[.fin 0, .fin 0, .fin 5], [false, false, true], "N:x", true⟩]
  map s := if s = "N:x" then some 1 else if s = "N:y" then some 0 else none
  caseLabels := ["a", "b", "c"]

/-- A leaf. -/
def exBoostLeaf (p : String) : Node ℚ := .mk none 0 .nil .nil .nil p none

/-- A tree with one split, and a leaf. Case 2 misses its way in the first. -/
def exBoostTrees : List (Tree ℚ) :=
  [⟨.mk none 0 (exBoostLeaf "2") (exBoostLeaf "-3") .nil "" (some ⟨"N:x", true, .fin 1, []⟩), "N:y", .fin (-1)⟩,
    ⟨exBoostLeaf "0.5", "N:y", .fin (-1)⟩]

/-- ParseFloat on some texts. -/
def exBoostParse (s : String) : Option (XF ℚ) := exNums.parse s.toList

theorem exBoost_trees : ∀ t ∈ exBoostTrees, Usable exBoostFM (List.range 3) t.root ∧ t.root.Avoids exBoostFM 0 ∧
    t.FinitePreds exBoostParse := by
  intro t ht
  simp only [exBoostTrees, List.mem_cons, List.not_mem_nil, or_false] at ht
  rcases ht with rfl | rfl
  · refine ⟨⟨⟨.num ⟨[.fin 0, .fin 0, .fin 5], [false, false, true], "N:x", true⟩, rfl, (fun _ _ => rfl),
      fun c hc => ?_⟩, ⟨rfl, rfl⟩, ⟨rfl, rfl⟩, .inl rfl⟩, ⟨fun h => absurd rfl h, fun s hs => ?_,
      ⟨fun h => absurd rfl h, (fun _ h => by cases h), trivial, trivial, trivial⟩,
      ⟨fun h => absurd rfl h, (fun _ h => by cases h), trivial, trivial, trivial⟩, trivial⟩, ?_⟩
    · exact ⟨List.mem_range.1 hc, List.mem_range.1 hc⟩
    · cases hs
      decide
    · intro x hx y hy
      simp only [leavesOf, exBoostLeaf, splits] at hx
      simp at hx
      rcases hx with rfl | rfl
      · exact ⟨2, by have : exBoostParse "2" = some (.fin 2) := by decide +kernel
                     exact Option.some.inj (hy.symm.trans this)⟩
      · exact ⟨-3, by have : exBoostParse "-3" = some (.fin (-3)) := by decide +kernel
                      exact Option.some.inj (hy.symm.trans this)⟩
  · refine ⟨⟨rfl, rfl⟩, ⟨fun h => absurd rfl h, (fun _ h => by cases h), trivial, trivial, trivial⟩, ?_⟩
    intro x hx y hy
    simp only [leavesOf, exBoostLeaf, splits] at hx
    simp at hx
    subst hx
    exact ⟨1 / 2, by have : exBoostParse "0.5" = some (.fin (1 / 2)) := by decide +kernel
                     exact Option.some.inj (hy.symm.trans this)⟩

/-- The hypotheses of `c36_telescope` hold, and this is what is left: 4 = 2 + ½·(2 + ½) + ¾, and so on. -/
example : exBoostFM.allCases = some (List.range 3) ∧ (∀ t ∈ exBoostTrees, Usable exBoostFM (List.range 3) t.root ∧
      t.root.Avoids exBoostFM 0 ∧ t.FinitePreds exBoostParse) ∧
    ((newGradBoost ⟨[.fin 4, .fin 1, .fin 1], [false, false, false], "N:y", false⟩ (.fin (1 / 2))).bind fun g =>
      (GradBoost.rounds exBoostParse 0 ({ exBoostFM with data := exBoostFM.data.set 0 (.num g.f) }, g)
        exBoostTrees).bind fun r => (applySum exBoostParse g.mean r.2 exBoostFM).map fun p =>
          (p, r.1.2.f.numData)) =
      some ([.fin (13 / 4), .fin (13 / 4), .fin (9 / 4)], [.fin (3 / 4), .fin (-9 / 4), .fin (-5 / 4)]) :=
  ⟨by decide +kernel, exBoost_trees, by decide +kernel⟩

/-! ## C62: cases with unknown target -/

/-- **C62** is false: whatever the target is, no case of it is missing after `NewGradBoostTarget`. -/
theorem c62_marks_cleared (f : NumFeature K) (lr : XF K) (g : GradBoost K) (h : newGradBoost f lr = some g) :
    g.f.missing = List.replicate f.missing.length false := by
  unfold newGradBoost at h
  simp only [Option.bind_eq_bind, Option.bind_eq_some_iff] at h
  obtain ⟨sum, -, f', h2, h3⟩ := h
  cases h3
  generalize sum / XF.ofNat f.missing.length = prior at h2
  have key : ∀ (k : Nat) (f' : NumFeature K), k ≤ f.missing.length →
      (List.range k).foldlM (fun (f : NumFeature K) i => (f.numData[i]?).bind fun x => f.put i (x - prior)) f =
        some f' → f'.missing = List.replicate k false ++ f.missing.drop k := by
    intro k
    induction k with
    | zero => intro f' _ e; cases e; simp
    | succ k ih =>
      intro f' hk e
      rw [List.range_succ, List.foldlM_append] at e
      simp only [Option.bind_eq_bind, Option.bind_eq_some_iff, List.foldlM_cons, List.foldlM_nil] at e
      obtain ⟨f1, e1, f2, ⟨x, -, e2⟩, e3⟩ := e
      cases e3
      have hm := ih f1 (by omega) e1
      unfold NumFeature.put wr at e2
      simp only [Option.bind_eq_bind, Option.bind_eq_some_iff] at e2
      obtain ⟨d, -, m, hm2, e4⟩ := e2
      cases e4
      split at hm2
      · cases hm2
        show f1.missing.set k false = _
        rw [hm, List.set_append_right _ _ (by simp), List.length_replicate, Nat.sub_self, List.replicate_succ',
          List.drop_eq_getElem_cons (by omega : k < f.missing.length), List.set_cons_zero]
        simp
      · cases hm2
  have := key _ f' le_rfl h2
  rw [this, List.drop_eq_nil_of_le le_rfl, List.append_nil]

/-- The prior is not the mean of the known values either: two known values 2, and a case that is missing. -/
theorem c62_prior : (newGradBoost (⟨[.fin 2, .fin 0, .fin 2], [false, true, false], "N:y", true⟩ : NumFeature ℚ)
      (.fin 1)).map (fun g => (g.mean, g.f.missing)) = some (.fin (4 / 3), [false, false, false]) ∧
    NumFeature.mean (⟨[.fin 2, .fin 0, .fin 2], [false, true, false], "N:y", true⟩ : NumFeature ℚ) [0, 1, 2] =
      some (.fin 2) :=
  ⟨by decide +kernel, by decide +kernel⟩

/-- **C62**, the part that holds: without missing values the prior is the mean of the values, and each residual is
value minus prior. -/
theorem c62_known_partial (f : NumFeature K) (lr : XF K) (y : Nat → K) (hn : f.missing ≠ [])
    (hl : f.numData.length = f.missing.length) (hk : ∀ b ∈ f.missing, b = false)
    (hy : ∀ i < f.missing.length, f.numData[i]? = some (.fin (y i))) :
    ∃ g, newGradBoost f lr = some g ∧
      g.mean = .fin (((List.range f.missing.length).map y).sum / (f.missing.length : K)) ∧
      g.f.missing = f.missing ∧ ∀ i < f.missing.length,
        g.f.numData[i]? = some (.fin (y i - ((List.range f.missing.length).map y).sum / (f.missing.length : K))) := by
  refine ⟨_, newGradBoost_values f lr _ y rfl (finList_eq hl hy) (by simpa using hn), rfl, ?_, fun i hi => ?_⟩
  · exact (List.eq_replicate_of_mem hk).symm
  · exact finList_get _ hi

example : ((newGradBoost (⟨[.fin 4, .fin 1, .fin 1], [false, false, false], "N:y", false⟩ : NumFeature ℚ)
    (.fin 1)).map fun g => (g.mean, g.f.numData)) = some (.fin 2, [.fin 2, .fin (-1), .fin (-1)]) := by
  decide +kernel

end CloudForest
