import Verif.Model.Library
import Verif.Props.Saved
import Verif.Props.Sampling

/-!
# C112: GrowRandomForest
-/

set_option linter.unusedSectionVars false

namespace CloudForest
variable {K : Type} [Field K] [LinearOrder K] [IsStrictOrderedRing K] {τ : Type}

/-! ## Specification -/

/-- A tree for the cases `bag`: every leaf predicts from the cases of the bag that reach it (or is a missing branch that
none reaches), every left or right child is reached by at least `leafSize` of them, and no node is deeper than
`maxDepth`. -/
def TreeOf (fm : FeatureMatrix K) (findPredicted : List Nat → String) (leafSize : Nat) (maxDepth : Int)
    (splitmissing : Bool) (bag : List Nat) (root : Node K) : Prop :=
  (∀ x ∈ leavesOf root,
    (∃ S, S.Perm (bag.filter fun c => (landing fm root c).map (·.1) == some x.1) ∧ x.2 = findPredicted S) ∨
    (splitmissing = true ∧ x.1.getLast? = some .M ∧ x.2 = "" ∧
      ∀ c ∈ bag, (landing fm root c).map (·.1) ≠ some x.1)) ∧
  (∀ (p : List Dir) (x : Dir), x ≠ .M → subtreeAt root (p ++ [x]) ≠ .nil →
    leafSize ≤ (bag.filter (reaches fm root (p ++ [x]))).length) ∧
  (0 < maxDepth → (height root : Int) ≤ maxDepth)

/-! ## Proof -/

section
variable {fm : FeatureMatrix K} {T : Target K} {C : Contrast K τ} {good : τ → Prop} {o : SplitOpts} {n : Nat}
  {L : TargetLaws T (List.range n)} {cans : List Nat}

theorem MatrixOk.of_subset {cases bag : List Nat} (h : MatrixOk fm cases) (hs : ∀ c ∈ bag, c ∈ cases) :
    MatrixOk fm bag :=
  ⟨fun f hf c hc => h.valid f hf c (hs c hc), h.sound, h.catwf, h.named⟩

/-- One tree. -/
theorem growBag_ok (hM : MatrixOk fm (List.range n)) (hS : SplitSetting L fm C good o cans [])
    (findPredicted : List Nat → String) (maxDepth : Int) (splitmissing : Bool) (st : SplitState K) (hok : L.Ok st.allocs)
    (hc : st.cans.Perm cans) (ho : st.oob = []) (bag : List Nat) (hb : ∀ c ∈ bag, c < n) (fuel : Nat)
    (hfuel : bag.length < fuel) :
    ∃ root st', grow (treeGrower fm T C o findPredicted maxDepth splitmissing) fm fuel .fresh st bag 0 0 =
        some (root, st') ∧ L.Ok st'.allocs ∧ st'.cans.Perm cans ∧
      TreeOf fm findPredicted o.leafSize maxDepth splitmissing bag root := by
  obtain ⟨h1, h2, h3⟩ := treeGrower_search_any hS findPredicted maxDepth splitmissing
  have hsub : ∀ c ∈ bag, c ∈ List.range n := fun c h => List.mem_range.2 (hb c h)
  have hP : L.Ok st.allocs ∧ st.cans.Perm cans ∧ ∀ c ∈ st.oob, c ∈ List.range n := ⟨hok, hc, by simp [ho]⟩
  obtain ⟨⟨root, st'⟩, hr⟩ := Option.ne_none_iff_exists'.1 (grow_total hM h1 h2 hS.leafSize
    (fun st cs nc hst hnc hcs _ => h3 st cs nc hst hnc hcs) fuel 0 "" st bag 0 0 hP (Nat.zero_le _) hsub hfuel)
  obtain ⟨hP', hg⟩ := grow_grown hM h1 fuel 0 "" _ bag 0 0 root st' hP (Nat.zero_le _) hsub hr
  refine ⟨root, st', hr, hP'.1, hP'.2.1, ?_, (hg false).leafSize h2 hsub, fun hpos => ?_⟩
  · intro x hx
    rcases (hg false).leaves x hx with h | ⟨h1, h2, h3, h4⟩
    · exact .inl h
    · rcases h2 with ⟨h, -⟩ | h2
      · cases h
      · exact .inr ⟨h1, h2, h3, h4⟩
  · have := (hg false).height_le hpos (by simpa [treeGrower] using hpos.le)
    simpa [treeGrower] using this

/-- One round. -/
theorem growOne_ok (hall : fm.allCases = some (List.range n)) (hn : 0 < n) (hM : MatrixOk fm (List.range n))
    (hS : SplitSetting L fm C good o cans []) (findPredicted : List Nat → String) (maxDepth : Int)
    (splitmissing : Bool) (nSamples : Nat) (st : SplitState K) (hok : L.Ok st.allocs) (hc : st.cans.Perm cans) :
    ∃ root st' bag rng, growOne fm T C o findPredicted maxDepth splitmissing nSamples st =
        some (⟨root, "", .fin (-1)⟩, st') ∧
      L.Ok st'.allocs ∧ st'.cans.Perm cans ∧ sampleWithReplacement n nSamples st.rng = some (bag, rng) ∧
      bag.length = nSamples ∧ (∀ c ∈ bag, c < n) ∧
      TreeOf fm findPredicted o.leafSize maxDepth splitmissing bag root := by
  obtain ⟨f, hf, hlen⟩ : ∃ f, fm.data[0]? = some f ∧ f.length = n := by
    unfold FeatureMatrix.allCases at hall
    obtain ⟨f, hf, h⟩ := Option.bind_eq_some_iff.1 hall
    refine ⟨f, hf, ?_⟩
    have := congrArg List.length (Option.some.inj h)
    simpa using this
  obtain ⟨bag, rng, e, hl, hb⟩ := (c20_with_replacement n nSamples hn).1 st.rng
  obtain ⟨root, st', hr, h1, h2, h3⟩ := growBag_ok hM hS findPredicted maxDepth splitmissing
    { st with rng := rng, oob := [] } hok hc rfl bag hb (nSamples + 1) (by omega)
  refine ⟨root, st', bag, rng, ?_, h1, h2, e, hl, hb, h3⟩
  unfold growOne
  rw [hf]
  simp only [Option.bind_eq_bind, Option.bind_some, hlen, e, hr]

/-- **C112**, the part that holds. `GrowRandomForest` on a sound matrix returns, for all random numbers, a forest for its
target of `nTrees` trees, each the tree of `nSamples` existing cases. -/
theorem c112_forest_partial (hall : fm.allCases = some (List.range n)) (hn : 0 < n) (hM : MatrixOk fm (List.range n))
    (hS : SplitSetting L fm C good o cans []) (findPredicted : List Nat → String) (name : String) (maxDepth : Int)
    (splitmissing : Bool) (nSamples nTrees : Nat) (st : SplitState K) (hok : L.Ok st.allocs) (hc : st.cans.Perm cans) :
    ∃ f, growRandomForest fm T C o findPredicted name nSamples nTrees maxDepth splitmissing st = some f ∧
      f.target = name ∧ f.trees.length = nTrees ∧
      ∀ t ∈ f.trees, t.weight = .fin (-1) ∧ ∃ bag : List Nat, bag.length = nSamples ∧ (∀ c ∈ bag, c < n) ∧
        TreeOf fm findPredicted o.leafSize maxDepth splitmissing bag t.root := by
  have key : ∀ (k : Nat) (st : SplitState K), L.Ok st.allocs → st.cans.Perm cans →
      ∃ ts st', growTrees fm T C o findPredicted maxDepth splitmissing nSamples k st = some (ts, st') ∧ ts.length = k ∧
        ∀ t ∈ ts, t.weight = .fin (-1) ∧ ∃ bag : List Nat, bag.length = nSamples ∧ (∀ c ∈ bag, c < n) ∧
          TreeOf fm findPredicted o.leafSize maxDepth splitmissing bag t.root := by
    intro k
    induction k with
    | zero => intro st _ _; exact ⟨[], st, rfl, rfl, by simp⟩
    | succ k ih =>
      intro st hok hc
      obtain ⟨root, st1, bag, rng, e, hok1, hc1, -, hl, hb, ht⟩ :=
        growOne_ok hall hn hM hS findPredicted maxDepth splitmissing nSamples st hok hc
      obtain ⟨ts, st2, e2, hl2, h2⟩ := ih st1 hok1 hc1
      refine ⟨⟨root, "", .fin (-1)⟩ :: ts, st2, by rw [growTrees, e]; simp only [Option.bind_eq_bind, Option.bind_some, e2], by simp [hl2], ?_⟩
      intro t h
      rcases List.mem_cons.1 h with rfl | h
      · exact ⟨rfl, bag, hl, hb, ht⟩
      · exact h2 t h
  obtain ⟨ts, st', e, hl, h⟩ := key nTrees st hok hc
  exact ⟨_, by rw [growRandomForest, e]; rfl, rfl, hl, h⟩

/-- **C112 is false of the code** if targets are unknown. Whatever cases one names, of known target or not, for some random
numbers they are the cases of the first tree. -/
theorem c112_unknown (hall : fm.allCases = some (List.range n)) (hn : 0 < n) (hM : MatrixOk fm (List.range n))
    (hS : SplitSetting L fm C good o cans []) (findPredicted : List Nat → String) (name : String) (maxDepth : Int)
    (splitmissing : Bool) (nTrees : Nat) (a : Allocs K) (hok : L.Ok a) (bag : List Nat) (hb : ∀ c ∈ bag, c < n) :
    ∃ rng f t, growRandomForest fm T C o findPredicted name bag.length (nTrees + 1) maxDepth splitmissing
        ⟨a, rng, cans, []⟩ = some f ∧ f.trees.head? = some t ∧
      TreeOf fm findPredicted o.leafSize maxDepth splitmissing bag t.root := by
  obtain ⟨rng, rng', e⟩ := (c20_with_replacement n bag.length hn).2 bag rfl hb
  obtain ⟨f, hf, -⟩ := c112_forest_partial hall hn hM hS findPredicted name maxDepth splitmissing bag.length (nTrees + 1)
    ⟨a, rng, cans, []⟩ hok (List.Perm.refl _)
  obtain ⟨root, st', bag', rng2, e1, -, -, e2, -, -, ht⟩ :=
    growOne_ok hall hn hM hS findPredicted maxDepth splitmissing bag.length ⟨a, rng, cans, []⟩ hok (List.Perm.refl _)
  simp only at e2
  rw [e] at e2
  cases e2
  have hf' := hf
  unfold growRandomForest at hf'
  obtain ⟨⟨ts, s1⟩, h1, h2⟩ := Option.bind_eq_some_iff.1 hf'
  rw [growTrees, e1] at h1
  simp only [Option.bind_eq_bind, Option.bind_some] at h1
  obtain ⟨⟨ts', s2⟩, -, h3⟩ := Option.bind_eq_some_iff.1 h1
  cases h3
  cases h2
  exact ⟨rng, _, _, hf, rfl, ht⟩

end

/-! ## Example -/

example : ∃ f, growRandomForest exFM3 (giniTarget exSplitT) (catContrast exSplitT) exOpts (fun _ => "p") "C:y" 4 10 2 true
    exState = some f ∧ f.trees.length = 10 := by
  obtain ⟨f, h1, -, h2, -⟩ := c112_forest_partial (n := 6) rfl (by decide) exFM3_ok
    (L := giniLaws (K := ℚ) exSplitT 2 _ exSplitT_inRange) (cans := [0, 1, 2])
    ⟨exSetting.feats, exSetting.total3, exSetting.contrast, exSetting.start, exSetting.leafSize, exSetting.exist,
      exSetting.mTry, by simp⟩ (fun _ => "p") "C:y" 2 true 4 10 exState ⟨rfl, rfl, rfl⟩ (List.Perm.refl _)
  exact ⟨f, h1, h2⟩

/-- The classes of the example, that of case 2 unknown. -/
def exUnknownT : CatFeature := { exSplitT with missing := [false, false, true, false, false, false], hasMissing := true }

/-- A forest can be grown from case 2 alone. -/
example : exUnknownT.missing[2]? = some true ∧
    ∃ rng f t, growRandomForest exFM3 (giniTarget exUnknownT) (catContrast exUnknownT) ⟨2, 1, false, false, false, false⟩
      (fun _ => "p") "C:y" [2, 2, 2].length (0 + 1) 0 false ⟨exWork.allocs, rng, [0, 1, 2], []⟩ = some f ∧ f.trees.head? = some t ∧
      TreeOf exFM3 (fun _ => "p") 1 0 false [2, 2, 2] t.root := by
  refine ⟨rfl, ?_⟩
  have hset : SplitSetting (giniLaws (K := ℚ) exUnknownT 2 _ exSplitT_inRange) exFM3 (catContrast exUnknownT)
      (fun _ => True) ⟨2, 1, false, false, false, false⟩ [0, 1, 2] [] :=
    { feats := exSetting.feats
      total3 := fun h => absurd h (by decide)
      contrast := fun h => absurd h (by decide)
      start := trivial
      leafSize := le_refl _
      exist := exSetting.exist
      mTry := by decide
      oobs := by simp }
  have h := c112_unknown (n := 6) rfl (by decide) exFM3_ok hset (fun _ => "p") "C:y" 0 false 0 exWork.allocs
    ⟨rfl, rfl, rfl⟩ [2, 2, 2] (by decide)
  exact h

end CloudForest
