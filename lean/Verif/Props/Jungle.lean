import Verif.Lemmas.Jungle2
import Verif.Lemmas.Jungle3
import Verif.Props.Regression
import Verif.Props.Targets3

/-!
# C88 to C90: jungles
-/

set_option linter.unusedSectionVars false

namespace CloudForest
variable {K : Type} [Field K] [LinearOrder K] [IsStrictOrderedRing K] {τ : Type}

/-- Nothing is gained by joining for a target that divisions do not make worse. -/
theorem noGain_of {T : Target K} {cases : List Nat} {L : TargetLaws T cases} (h : L.NeverWorse)
    (fm : FeatureMatrix K) (cans oob : List Nat) :
    NoGain (targetMerger T) (StateOk L fm cans oob) cases := by
  intro st l r hst hl hr hc
  obtain ⟨x, y, hx, hy, hxy⟩ := h l r hl hr hc
  obtain ⟨a1, e1, h1⟩ := L.split st.allocs l r hst.allocs hc
  obtain ⟨a2, e2, h2⟩ := L.impurity a1 (l ++ r) (L.tracks_ok _ _ _ h1) hc
  refine ⟨.fin x - .fin y, { st with allocs := a2 }, ?_, ?_, ⟨h2, hst.cans_, hst.oob_⟩⟩
  · simp [targetMerger, e1, e2, hx, hy]
  · rw [XF.fin_sub]
    intro hlt
    have : (0 : K) < x - y := hlt
    linarith

/-- The Gini target. -/
theorem gini_neverWorse (f : CatFeature) (n : Nat) (cases : List Nat) (h : f.InRange n cases) :
    (giniLaws (K := K) f n cases h).NeverWorse := by
  intro l r hl hr hc
  have hw := giniLaws_weighted (K := K) f n cases h
  refine ⟨_, _, hw.mean l r hl hr hc, hw.finite (l ++ r) (by simp [hl]) hc, ?_⟩
  obtain ⟨s, a', -, e, hle⟩ := c14_split (K := K) f n
    ⟨List.replicate n 0, List.replicate n 0, List.replicate n 0, .fin 0, .fin 0, .fin 0, .fin 0, .fin 0, .fin 0⟩
    (by simp) l r none (l ++ r) (fun c hx => h c (hc c hx)) (by simp [missBlock]) hl hr
  rw [e] at hle
  simpa [missBlock] using hle

/-- The sum of squares target. -/
theorem sse_neverWorse (f : NumFeature K) (cases : List Nat) (h : f.Finite cases) :
    (sseLaws f cases h).NeverWorse := by
  intro l r hl hr hc
  have hw := sseLaws_weighted f cases h
  refine ⟨_, _, hw.mean l r hl hr hc, hw.finite (l ++ r) (by simp [hl]) hc, ?_⟩
  obtain ⟨s, a', -, e, hle⟩ := c15_split_partial (K := K) f
    ⟨[], [], [], .fin 0, .fin 0, .fin 0, .fin 0, .fin 0, .fin 0⟩
    l r none (l ++ r) (fun c hx => h c (hc c hx)) (by simp [missBlock]) hl hr
  rw [e] at hle
  simpa [missBlock] using hle

/-- The entropy target. -/
theorem entropy_neverWorse (f : CatFeature) (n : Nat) (cases : List Nat) (h : f.InRange n cases) :
    (countLaws (K := ℝ) f (entropyFromCounts realLog) n cases h).NeverWorse := by
  intro l r hl hr hc
  have hw := c16_entropy_weighted f n cases h
  refine ⟨_, _, hw.mean l r hl hr hc, hw.finite (l ++ r) (by simp [hl]) hc, ?_⟩
  have := entropy_superadd f n l r
  have hpos : (0 : ℝ) < (l.length : ℝ) + r.length := by
    have : (0 : ℝ) < l.length := by exact_mod_cast List.length_pos_of_ne_nil hl
    have : (0 : ℝ) ≤ r.length := by exact_mod_cast Nat.zero_le _
    linarith
  rw [div_le_iff₀ hpos]
  simp only [List.length_append] at this
  push_cast at this
  linarith

/-! ## C88 -/

/-- **C88**, what holds: with a target that divisions do not make worse (Gini, entropy, sum of squares), `GrowJungle`
returns. Every leaf reached by an in-bag case predicts `FindPredicted` of exactly the in-bag cases that reach it; a
leaf for which this fails is a missing branch at which no in-bag case was missing. Votes do not depend on the codes.
Every left or right child is reached by at least `leafSize` in-bag cases and no node lies deeper than a positive
`maxDepth`.

Missing from the full property: targets that may prefer joined nodes, `c88_joined_leaf`. -/
theorem c88_jungle_partial {fm : FeatureMatrix K} {T : Target K} {C : Contrast K τ} {good : τ → Prop}
    {o : SplitOpts} {all cases : List Nat} (hM : MatrixOk fm all) (hc : ∀ c ∈ cases, c ∈ all) {L : TargetLaws T all}
    (hL : L.NeverWorse)
    {st : SplitState K} (hS : SplitSetting L fm C good o st.cans st.oob) (hok : L.Ok st.allocs)
    (findPredicted : List Nat → String) (maxDepth : Int) (splitmissing : Bool) :
    ∃ s, (∀ fuel, cases.length < fuel → growJungle (treeGrower fm T C o findPredicted maxDepth splitmissing)
        (targetMerger T) fm fuel st cases = some s) ∧
      (∀ x ∈ leavesOf s.root,
        (∃ S, S.Perm (cases.filter fun c => (landing fm s.root c).map (·.1) == some x.1) ∧
          x.2 = findPredicted S) ∨
        (splitmissing = true ∧ x.1.getLast? = some .M ∧ x.2 = "" ∧
          ∀ c ∈ cases, (landing fm s.root c).map (·.1) ≠ some x.1)) ∧
      (∀ t w, Tree.voteCases ⟨s.root.stripCodes, t, w⟩ fm cases = Tree.voteCases ⟨s.root, t, w⟩ fm cases) ∧
      (splitmissing = true → ∀ c ∈ cases, landing fm s.root c ≠ none) ∧
      (∀ (p : List Dir) (x : Dir), x ≠ .M → subtreeAt s.root (p ++ [x]) ≠ .nil →
        o.leafSize ≤ (cases.filter (reaches fm s.root (p ++ [x]))).length) ∧
      (0 < maxDepth → (height s.root : Int) ≤ maxDepth) := by
  obtain ⟨h1, h2, h3⟩ := treeGrower_searchOk (fp := findPredicted) (md := maxDepth) (sm := splitmissing) hS
  have hP : StateOk L fm st.cans st.oob st := ⟨hok, List.Perm.refl _, List.Perm.refl _⟩
  have hM := hM.mono hc
  have h1 := h1.mono hc
  have h2 := h2.mono hc
  obtain ⟨s, hs, hg, -, -⟩ := growJungle_grown hM h1 h2 hS.leafSize
    (fun st cs nc hst hnc hcs _ => h3 st cs nc hst hnc fun c h => hc c (hcs c h))
    (fun st l r h hl hr hlr => noGain_of hL fm _ _ st l r h hl hr fun c h => hc c (hlr c h)) hP (Nat.zero_le _)
  have hu : Usable fm cases s.root := (hg.usable hM).resolve_left hg.not_nil
  refine ⟨s, hs, ?_, ?_, fun hsm => hg.every_lands hsm, hg.leafSize h2 (fun _ h => h), fun hpos => ?_⟩
  · intro x hx
    rcases hg.leaves x hx with h | ⟨h1, h2, h3⟩
    · exact .inl h
    · exact .inr ⟨h1, by simpa using h2, h3⟩
  · intro t w
    exact c02_stripCodes ⟨s.root, t, w⟩ fm cases hu (hg.codesDecoded hM)
  · have := hg.height_le hpos (by simpa [treeGrower] using hpos.le)
    simpa [treeGrower] using this

/-- The example matrix meets the conditions; a jungle on it. -/
example : ∃ s, growJungle (treeGrower exFM3 (giniTarget exSplitT) (catContrast exSplitT) exOpts (fun _ => "p") 0 true)
    (targetMerger (giniTarget exSplitT)) exFM3 7 exState [5, 2, 4, 5] = some s := by
  obtain ⟨s, h, -⟩ := c88_jungle_partial exFM3_ok (cases := [5, 2, 4, 5]) (by decide) (gini_neverWorse _ _ _ _) exSetting ⟨rfl, rfl, rfl⟩ (fun _ => "p") 0 true
  exact ⟨s, h 7 (by decide)⟩

/-- Two features that divide twelve cases into four groups of three. -/
def exGroups : FeatureMatrix ℚ :=
  ⟨[.num (exReg [0, 0, 0, 0, 0, 0, 1, 1, 1, 1, 1, 1]), .num (exReg [0, 0, 0, 1, 1, 1, 0, 0, 0, 1, 1, 1])],
    fun _ => none, []⟩

/-- A target for them; the groups in the middle are 0, 0, 3 and -3/2, 3/2, 3/2. -/
def exGroupT : NumFeature ℚ := exReg [10, 10, 10, 0, 0, 3, -3 / 2, 3 / 2, 3 / 2, -10, -10, -10]

/-- A jungle of them by absolute error, to depth two. -/
def exJungle (findPredicted : List Nat → String) : Option (Jungle ℚ (SplitState ℚ)) :=
  growJungle (treeGrower exGroups (l1Target exGroupT) (numContrast exGroupT) ⟨2, 1, false, false, false, false⟩
    findPredicted 2 false) (targetMerger (l1Target exGroupT)) exGroups 13
    ⟨exScratch, fun k => k, [0, 1], []⟩ [0, 1, 2, 3, 4, 5, 6, 7, 8, 9, 10, 11]

/-- **C88 is false of the code** for absolute error: the two groups in the middle are joined in one leaf (address 4,
the right child of the left and the left child of the right node), but the leaf predicts from the first of them only. -/
theorem c88_joined_leaf (findPredicted : List Nat → String) :
    (exJungle findPredicted).map (fun s => s.arena.map fun n => (n.left, n.right)) =
      some [(some 1, some 2), (some 3, some 4), (some 4, some 6), (none, none), (none, none), (none, none), (none, none)] ∧
    (exJungle findPredicted).map (fun s => (s.arena[4]?).map (·.pred)) = some (some (findPredicted [4, 3, 5])) ∧
    (exJungle findPredicted).map (fun s => [0, 1, 2, 3, 4, 5, 6, 7, 8, 9, 10, 11].filter fun c =>
      (landing exGroups s.root c).map (·.1) == some [.R, .L]) = some [6, 7, 8] ∧
    (exJungle findPredicted).map (fun s => leavesOf s.root) = some
      [([.L, .L], findPredicted [0, 1, 2]), ([.L, .R], findPredicted [4, 3, 5]), ([.R, .L], findPredicted [4, 3, 5]),
       ([.R, .R], findPredicted [11, 9, 10])] := by
  refine ⟨?_, ?_, ?_, ?_⟩ <;> kernel_refl

/-! ## C89 -/

/-- **C89 is false of the code.** With a target that divisions do not make worse (Gini, entropy, sum of squares) no
two nodes are ever joined: the root has no parent and every other node exactly one. The jungle is a tree. -/
theorem c89_never_joined {fm : FeatureMatrix K} {T : Target K} {C : Contrast K τ} {good : τ → Prop}
    {o : SplitOpts} {all cases : List Nat} (hM : MatrixOk fm all) (hc : ∀ c ∈ cases, c ∈ all) {L : TargetLaws T all}
    (hL : L.NeverWorse)
    {st : SplitState K} (hS : SplitSetting L fm C good o st.cans st.oob) (hok : L.Ok st.allocs)
    (findPredicted : List Nat → String) (maxDepth : Int) (splitmissing : Bool) {fuel : Nat} (hfuel : cases.length < fuel) :
    ∃ s, growJungle (treeGrower fm T C o findPredicted maxDepth splitmissing)
        (targetMerger T) fm fuel st cases = some s ∧
      pointersTo s.arena 0 = 0 ∧ ∀ i, 0 < i → i < s.arena.length → pointersTo s.arena i = 1 := by
  obtain ⟨h1, h2, h3⟩ := treeGrower_searchOk (fp := findPredicted) (md := maxDepth) (sm := splitmissing) hS
  have hP : StateOk L fm st.cans st.oob st := ⟨hok, List.Perm.refl _, List.Perm.refl _⟩
  obtain ⟨s, hs, -, hpos, hk⟩ := growJungle_grown (hM.mono hc) (h1.mono hc) (h2.mono hc) hS.leafSize
    (fun st cs nc hst hnc hcs _ => h3 st cs nc hst hnc fun c h => hc c (hcs c h))
    (fun st l r h hl hr hlr => noGain_of hL fm _ _ st l r h hl hr fun c h => hc c (hlr c h)) hP (Nat.zero_le _)
  refine ⟨s, hs fuel hfuel, ?_, ?_⟩
  · rw [pointersTo, hk.count_eq, List.count_eq_zero]
    simp
  · intro i hi hlt
    rw [pointersTo, hk.count_eq]
    exact List.count_eq_one_of_mem List.nodup_range' (List.mem_range'_1.2 (by omega))

/-- The example matrix: no sharing. -/
example : ∃ s, growJungle (treeGrower exFM3 (giniTarget exSplitT) (catContrast exSplitT) exOpts (fun _ => "p") 0 true)
    (targetMerger (giniTarget exSplitT)) exFM3 7 exState [5, 2, 4, 5] = some s ∧ pointersTo s.arena 0 = 0 := by
  obtain ⟨s, h, h', -⟩ := c89_never_joined exFM3_ok (cases := [5, 2, 4, 5]) (by decide) (gini_neverWorse _ _ _ _) exSetting ⟨rfl, rfl, rfl⟩ (fun _ => "p") 0
    true (show [5, 2, 4, 5].length < 7 by decide)
  exact ⟨s, h, h'⟩

/-- The entry `j` may be joined to `ei`, and by how much the impurity then falls. -/
def JoinGain (G : List Nat → List Nat → List Nat → XF K) {σ : Type} (s : Jungle K σ) (ei : JEntry) (j : Nat) (x : XF K) :
    Prop :=
  ∃ ej l r u, s.entries[j]? = some ej ∧ ej.dead = false ∧ ei.stop = ej.start ∧ ei.parent ≠ ej.parent ∧
    sliceOf s.cases ei.start ei.stop = some l ∧ sliceOf s.cases ej.start ej.stop = some r ∧
    sliceOf s.cases ei.start ej.stop = some u ∧ x = G l r u

/-- **C89**, what holds: of the nodes whose cases follow those of a node and that have another parent, the one joined
to it is one with the largest fall of impurity, provided that is positive; if there is no such fall none is joined.
(`G` is what `gain` computes, which may not depend on its scratch state.)

Missing from the full property: for most targets there never is such a fall, `c89_never_joined`. -/
theorem c89_best_partner_partial {σ : Type} (G : List Nat → List Nat → List Nat → XF K) {gain : Merger K σ}
    (hG : ∀ st l r u x st', gain st l r u = some (x, st') → x = G l r u) (s : Jungle K σ) (ei : JEntry)
    (js : List Nat) (st st' : σ) (c : Option Nat) (h : s.partner gain ei js st (.fin 0) none = some (c, st')) :
    (c = none ∧ ∀ j ∈ js, ∀ x, JoinGain G s ei j x → ¬ .fin 0 < x) ∨
    (∃ j ∈ js, ∃ x, c = some j ∧ JoinGain G s ei j x ∧ .fin 0 < x ∧
      ∀ j' ∈ js, ∀ x', JoinGain G s ei j' x' → ¬ x < x') := by
  suffices H : ∀ (js seen : List Nat) (st : σ) (mx : XF K) (c0 : Option Nat),
      ((c0 = none ∧ mx = .fin 0) ∨ (∃ j ∈ seen, c0 = some j ∧ JoinGain G s ei j mx ∧ .fin 0 < mx)) →
      (∀ j ∈ seen, ∀ x, JoinGain G s ei j x → ¬ mx < x) →
      s.partner gain ei js st mx c0 = some (c, st') →
      ∃ mx', ((c = none ∧ mx' = .fin 0) ∨ (∃ j ∈ seen ++ js, c = some j ∧ JoinGain G s ei j mx' ∧ .fin 0 < mx')) ∧
        ∀ j ∈ seen ++ js, ∀ x, JoinGain G s ei j x → ¬ mx' < x by
    obtain ⟨mx, h1, h2⟩ := H js [] st (.fin 0) none (.inl ⟨rfl, rfl⟩) (by simp) h
    rcases h1 with ⟨h1, rfl⟩ | ⟨j, hj, h1, h3, h4⟩
    · exact .inl ⟨h1, by simpa using h2⟩
    · exact .inr ⟨j, by simpa using hj, mx, h1, h3, h4, by simpa using h2⟩
  intro js
  induction js with
  | nil =>
    intro seen st mx c0 h1 h2 h
    cases h
    exact ⟨mx, by simpa using h1, by simpa using h2⟩
  | cons j js ih =>
    intro seen st mx c0 h1 h2 h
    rw [Jungle.partner] at h
    obtain ⟨ej, hej, h⟩ := Option.bind_eq_some_iff.1 h
    have hskip : ∀ st, (∀ x, JoinGain G s ei j x → ¬ mx < x) → s.partner gain ei js st mx c0 = some (c, st') →
        ∃ mx', ((c = none ∧ mx' = .fin 0) ∨
          (∃ j' ∈ seen ++ j :: js, c = some j' ∧ JoinGain G s ei j' mx' ∧ .fin 0 < mx')) ∧
        ∀ j' ∈ seen ++ j :: js, ∀ x, JoinGain G s ei j' x → ¬ mx' < x := by
      intro st hx h
      have := ih (seen ++ [j]) st mx c0 (by
        rcases h1 with h1 | ⟨j', hj', h1⟩
        · exact .inl h1
        · exact .inr ⟨j', by simp [hj'], h1⟩) (by
        intro j' hj' x hg
        rcases List.mem_append.1 hj' with hj' | hj'
        · exact h2 j' hj' x hg
        · simp only [List.mem_cons, List.not_mem_nil, or_false] at hj'
          subst hj'
          exact hx x hg) h
      simpa using this
    split at h
    · rename_i hd
      refine hskip _ ?_ h
      rintro x ⟨ej', l, r, u, e1, e2, -⟩
      rw [hej] at e1; cases e1
      rw [e2] at hd; cases hd
    rename_i hd
    split at h
    swap
    · rename_i hc
      refine hskip _ ?_ h
      rintro x ⟨ej', l, r, u, e1, e2, e3, e4, -⟩
      rw [hej] at e1; cases e1
      exact absurd ⟨e3, e4⟩ hc
    rename_i hc
    obtain ⟨l, hl, h⟩ := Option.bind_eq_some_iff.1 h
    obtain ⟨r, hr, h⟩ := Option.bind_eq_some_iff.1 h
    obtain ⟨u, hu, h⟩ := Option.bind_eq_some_iff.1 h
    obtain ⟨⟨x, st1⟩, hx, h⟩ := Option.bind_eq_some_iff.1 h
    have hxG := hG _ _ _ _ _ _ hx
    have huniq : ∀ y, JoinGain G s ei j y → y = x := by
      rintro y ⟨ej', l', r', u', e1, e2, e3, e4, e5, e6, e7, e8⟩
      rw [hej] at e1; cases e1
      rw [hl] at e5; cases e5
      rw [hr] at e6; cases e6
      rw [hu] at e7; cases e7
      rw [e8, hxG]
    have hself : JoinGain G s ei j x :=
      ⟨ej, l, r, u, hej, by simpa using hd, hc.1, hc.2, hl, hr, hu, hxG⟩
    simp only at h
    split at h
    · rename_i hlt
      have h0 : .fin 0 < x := by
        rcases h1 with ⟨-, rfl⟩ | ⟨-, -, -, -, h1⟩
        · exact hlt
        · exact XF.lt_trans' h1 hlt
      have := ih (seen ++ [j]) st1 x (some j) (.inr ⟨j, by simp, rfl, hself, h0⟩) (by
        intro j' hj' y hg hxy
        rcases List.mem_append.1 hj' with hj' | hj'
        · exact h2 j' hj' y hg (XF.lt_trans' hlt hxy)
        · simp only [List.mem_cons, List.not_mem_nil, or_false] at hj'
          subst hj'
          rw [huniq y hg] at hxy
          exact absurd hxy (XF.lt_irrefl' _)) h
      simpa using this
    · rename_i hlt
      exact hskip _ (fun y hg => by rw [huniq y hg]; exact hlt) h

/-- In the jungle of absolute error the groups in the middle are joined: a fall of 1/12. -/
example : ∃ s : Jungle ℚ (SplitState ℚ), (exJungle fun _ => "p") = some s ∧ pointersTo s.arena 4 = 2 ∧
    pointersTo s.arena 5 = 0 := by
  obtain ⟨s, hs⟩ := Option.isSome_iff_exists.1 (show (exJungle fun _ => "p").isSome = true by decide +kernel)
  have h1 : (exJungle fun _ => "p").map (fun s => (pointersTo s.arena 4, pointersTo s.arena 5)) = some (2, 0) := by
    decide +kernel
  rw [hs] at h1
  simp only [Option.map_some, Option.some.injEq, Prod.mk.injEq] at h1
  exact ⟨s, hs, h1.1, h1.2⟩

/-! ## C90 -/

/-- **C90.** Whatever the search finds and whichever nodes are joined, a jungle is made of levels: the root is at level
0, the children of a node are at the next level, and none is deeper than a positive `maxDepth`. So there are no cycles,
no path is longer than the number of nodes, and what can be reached from the root is a finite tree. -/
theorem c90_levels {σ : Type} {g : Grower K σ} {fm : FeatureMatrix K} {gain : Merger K σ} {fuel : Nat} {st : σ}
    {cases : List Nat} {s : Jungle K σ} (h : growJungle g gain fm fuel st cases = some s) :
    (∃ lev : Nat → Nat, lev 0 = 0 ∧ ∀ i n, s.arena[i]? = some n → ∀ j ∈ n.kids,
      j < s.arena.length ∧ lev j = lev i + 1 ∧ (0 < g.maxDepth → (lev j : Int) ≤ g.maxDepth)) ∧
    ∀ k, s.arena.length ≤ k → unfoldNode k s.arena 0 = s.root := by
  obtain ⟨lev, h0, hpos, hk⟩ := growJungle_levels h
  refine ⟨⟨lev, h0, fun i n hi j hj => ?_⟩, fun k hle => ?_⟩
  · obtain ⟨-, h2, h3, h4⟩ := hk i n hi j hj
    exact ⟨h2, h3, fun hp => by rw [h3]; push_cast; omega⟩
  · exact unfoldNode_fuel (fun i n hi j hj => (hk i n hi j hj).1) _ _ _ (by omega) (by omega)

/-- It applies to the jungle with joined nodes. -/
example : ∃ s : Jungle ℚ (SplitState ℚ), (exJungle fun _ => "p") = some s ∧ s.arena.length = 7 ∧
    ∃ lev : Nat → Nat, lev 0 = 0 ∧ ∀ i n, s.arena[i]? = some n → ∀ j ∈ n.kids, lev j = lev i + 1 := by
  obtain ⟨s, hs⟩ := Option.isSome_iff_exists.1 (show (exJungle fun _ => "p").isSome = true by decide +kernel)
  have h1 : (exJungle fun _ => "p").map (fun s => s.arena.length) = some 7 := by decide +kernel
  rw [hs] at h1
  obtain ⟨⟨lev, h2, h3⟩, -⟩ := c90_levels hs
  exact ⟨s, hs, by simpa using h1, lev, h2, fun i n hi j hj => (h3 i n hi j hj).2.1⟩

end CloudForest
