import Verif.Lemmas.RoundedGrow
import Verif.Props.RoundedGini
import Verif.Props.Splitter

/-!
# C150: growing trees in double precision
-/

set_option linter.unusedSectionVars false

namespace CloudForest
variable {K : Type} [Field K] [LinearOrder K] [IsStrictOrderedRing K] {τ : Type}

/-- With rounding that changes nothing, growing rounded is growing. -/
theorem treeGrowerR_exact (fm : FeatureMatrix K) (T : Target K) (C : Contrast K τ) (o : SplitOpts)
    (findPredicted : List Nat → String) (maxDepth : Int) (splitmissing : Bool) :
    treeGrowerR .fin (.fin cutoff) fm T C o findPredicted maxDepth splitmissing =
      treeGrower fm T C o findPredicted maxDepth splitmissing := by
  have hid : ∀ v : XF K, XF.rounded .fin v = v := fun v => by cases v <;> rfl
  have hb : ∀ (F : Feature K) (T : Target K) (p : XF K) (leafSize : Nat) (rs : Bool) (w : Work K),
      F.bestSplitR .fin (.fin cutoff) T p leafSize rs w = F.bestSplit T p leafSize rs w := by
    intro F T p leafSize rs w
    unfold Feature.bestSplitR Feature.bestSplit
    simp only [searchR_exact, penaltyR, hid]
  have ho : ∀ (F : Feature K) (best : XF K) (res : Found K) (s : Searching K τ),
      oobStepR .fin F T o best res s = oobStep F T o best res s := by
    intro F best res s
    unfold oobStepR
    simp only [hid, ite_self]
    exact Option.map_id'
  have he : ∀ p, evalFeatureR .fin (.fin cutoff) fm T C o p = evalFeature fm T C o p := by
    intro p
    funext s best i
    unfold evalFeatureR evalFeature vetStepR vetStep
    simp only [hb, ho, hid]
  have hs : ∀ st cs nc, bestSplitterR .fin (.fin cutoff) fm T C o st cs nc = bestSplitter fm T C o st cs nc := by
    intro st cs nc
    unfold bestSplitterR bestSplitter
    simp only [he]
    rfl
  unfold treeGrowerR treeGrower
  simp only [hs]

/-- **C150.** `Tree.Grow` with every operation rounded, on a sound matrix whose values rounding leaves apart: it returns
the same tree for every bound on the recursion depth above the number of cases, every left or right child is reached by
at least `leafSize` of the cases, and no node lies deeper than a positive `maxDepth`. -/
theorem c150_ends_partial {rep : K → Prop} {r : K → XF K} (hr : RoundsTo rep r) {cut : K} (hcut : 0 ≤ cut)
    {fm : FeatureMatrix K} {T : Target K} {C : Contrast K τ} {good : τ → Prop}
    {o : SplitOpts} {all cases : List Nat} (hM : MatrixOk fm all) (hc : ∀ c ∈ cases, c ∈ all) {L : TargetLaws T all}
    (hap : ∀ f ∈ fm.data, f.Apart rep r (.fin cut) (f.knowns all))
    {st : SplitState K} (hS : SplitSetting L fm C good o st.cans st.oob) (hok : L.Ok st.allocs)
    (findPredicted : List Nat → String) (maxDepth : Int) (splitmissing : Bool) :
    ∃ root st', (∀ fuel, cases.length < fuel →
        grow (treeGrowerR r (.fin cut) fm T C o findPredicted maxDepth splitmissing) fm fuel .fresh st cases 0 0 =
          some (root, st')) ∧
      (∀ (p : List Dir) (x : Dir), x ≠ .M → subtreeAt root (p ++ [x]) ≠ .nil →
        o.leafSize ≤ (cases.filter (reaches fm root (p ++ [x]))).length) ∧
      (0 < maxDepth → (height root : Int) ≤ maxDepth) := by
  obtain ⟨h1, h2, h3⟩ := treeGrowerR_searchOk (fp := findPredicted) (md := maxDepth)
    (sm := splitmissing) hr hcut hS hap
  have hP : StateOk L fm st.cans st.oob st := ⟨hok, List.Perm.refl _, List.Perm.refl _⟩
  have hM := hM.mono hc
  have h1 := h1.mono hc
  have h2 := h2.mono hc
  obtain ⟨⟨root, st'⟩, hr⟩ := c09_terminates hM h1 h2 hS.leafSize
    (fun st cs nc hst hnc hcs _ => h3 st cs nc hst hnc fun c h => hc c (hcs c h)) st hP (Nat.zero_le _)
  have := c09_limits hM h1 h2 hP (Nat.zero_le _) (hr _ (Nat.lt_succ_self _))
  exact ⟨root, st', hr, this⟩

/-- **C150.** And in the tree grown the leaf a case lands in predicts what is predicted for the cases that land in it;
the rounded codes and the splitters made from them agree. -/
theorem c150_leaves_partial {rep : K → Prop} {r : K → XF K} (hr : RoundsTo rep r) {cut : K} (hcut : 0 ≤ cut)
    {fm : FeatureMatrix K} {T : Target K} {C : Contrast K τ} {good : τ → Prop}
    {o : SplitOpts} {all cases : List Nat} (hM : MatrixOk fm all) (hc : ∀ c ∈ cases, c ∈ all) {L : TargetLaws T all}
    (hap : ∀ f ∈ fm.data, f.Apart rep r (.fin cut) (f.knowns all))
    {st : SplitState K} (hS : SplitSetting L fm C good o st.cans st.oob) (hok : L.Ok st.allocs)
    (findPredicted : List Nat → String) (maxDepth : Int) (splitmissing : Bool)
    {fuel : Nat} {root : Node K} {st' : SplitState K}
    (h : grow (treeGrowerR r (.fin cut) fm T C o findPredicted maxDepth splitmissing) fm fuel .fresh st cases 0 0 =
      some (root, st')) :
    (∀ x ∈ leavesOf root,
      (∃ S, S.Perm (cases.filter fun c => (landing fm root c).map (·.1) == some x.1) ∧
        x.2 = findPredicted S) ∨
      (splitmissing = true ∧ x.1.getLast? = some .M ∧ x.2 = "" ∧
        ∀ c ∈ cases, (landing fm root c).map (·.1) ≠ some x.1)) ∧
    (∀ t w, Tree.voteCases ⟨root.stripCodes, t, w⟩ fm cases =
      Tree.voteCases ⟨root, t, w⟩ fm cases) := by
  obtain ⟨h1, -, -⟩ := treeGrowerR_searchOk (fp := findPredicted) (md := maxDepth)
    (sm := splitmissing) hr hcut hS hap
  have hP : StateOk L fm st.cans st.oob st := ⟨hok, List.Perm.refl _, List.Perm.refl _⟩
  have := c08_leaf_predictions (hM.mono hc) (h1.mono hc) hP (Nat.zero_le _) h
  exact ⟨this.1, this.2.2.1⟩

/-! ## Values that rounding leaves apart -/

theorem rep64_double {v : ℚ} (h : Rep64 v) (hv : |v| ≤ 2 ^ 1000) : Rep64 (2 * v) := by
  obtain ⟨n, e, h1, h2, h3, -⟩ := h
  refine ⟨n, e + 1, h1, by omega, ?_, ?_⟩
  · rw [h3, zpow_add₀ (by norm_num)]; ring
  · rw [abs_mul, abs_two]
    have : (2 : ℚ) * 2 ^ 1000 < 2 ^ 1024 := by
      rw [← pow_succ']
      exact pow_lt_pow_right₀ (by norm_num) (by norm_num)
    exact lt_of_le_of_lt (mul_le_mul_of_nonneg_left hv (by norm_num)) this

/-- **C150.** Values of double precision that are at most a hundred million and a millionth apart when they differ remain
apart. -/
theorem c150_spaced {f : NumFeature ℚ} {cs : List Nat} (h : f.Spaced cs) : f.Apart Rep64 F64.round F64.cutoff cs := by
  have key : ∀ c ∈ cs, |f.value c| ≤ 10 ^ 8 := fun c hc => (h.small c hc).2
  have htiny : tiny64 ≤ 1 / 2 ^ 53 := by
    have := tiny_le
    have h2 := tiny64_pos
    unfold ulp64 at this
    linarith
  refine ⟨fun c hc => ⟨(h.small c hc).1, rep64_double (h.small c hc).1 ((key c hc).trans ?_)⟩, ?_, ?_⟩
  · calc (10 : ℚ) ^ 8 ≤ 2 ^ 27 := by norm_num
      _ ≤ 2 ^ 1000 := pow_le_pow_right₀ (by norm_num) (by norm_num)
  · intro c hc d hd hlt hle
    have hgap := h.gaps c hc d hd hlt
    obtain ⟨e, he, h0, h1⟩ := f64_cutoff
    have hs : |f.value c + e| ≤ 10 ^ 8 + 1 := by
      refine (abs_add_le _ _).trans (add_le_add (key c hc) ?_)
      rw [abs_of_nonneg h0]
      exact h1.le.trans (by norm_num)
    obtain ⟨y, hy, herr⟩ := round_small (hs.trans (by norm_num))
    rw [he] at hle
    unfold XF.plusCut at hle
    have e1 : (XF.fin (f.value c) + XF.fin e : XF ℚ) = .fin (f.value c + e) := rfl
    rw [e1] at hle
    have e2 : XF.rounded F64.round (.fin (f.value c + e)) = .fin y := hy
    rw [e2, XF.fin_le] at hle
    have h3 := (abs_le.1 herr).2
    have h4 : ulp64 * |f.value c + e| ≤ 1 / 2 ^ 53 * (10 ^ 8 + 1) := by
      unfold ulp64
      exact mul_le_mul_of_nonneg_left hs (by positivity)
    have h5 : (1 : ℚ) / 2 ^ 53 * (10 ^ 8 + 1) + 1 / 2 ^ 53 + 1 / 2 ^ 23 < 1 / 10 ^ 6 := by norm_num
    linarith
  · intro c hc d hd hlt
    have hgap := h.gaps c hc d hd hlt
    have hs : |f.value c + f.value d| ≤ 2 * 10 ^ 8 := by
      refine (abs_add_le _ _).trans ?_
      have := key c hc
      have := key d hd
      linarith
    obtain ⟨y, hy, herr⟩ := round_small (hs.trans (by norm_num))
    have h4 : ulp64 * |f.value c + f.value d| ≤ 1 / 2 ^ 53 * (2 * 10 ^ 8) := by
      unfold ulp64
      exact mul_le_mul_of_nonneg_left hs (by positivity)
    have hy2 : |y| ≤ 3 * 10 ^ 8 := by
      have e : y = (y - (f.value c + f.value d)) + (f.value c + f.value d) := by ring
      rw [e]
      refine (abs_add_le _ _).trans ?_
      have : (1 : ℚ) / 2 ^ 53 * (2 * 10 ^ 8) + 1 / 2 ^ 53 ≤ 10 ^ 8 := by norm_num
      linarith
    have hs2 : |y / 2| ≤ 3 * 10 ^ 8 := by
      rw [abs_div, abs_two]
      have := abs_nonneg y
      linarith
    obtain ⟨z, hz, herr2⟩ := round_small (hs2.trans (by norm_num))
    have h6 : ulp64 * |y / 2| ≤ 1 / 2 ^ 53 * (3 * 10 ^ 8) := by
      unfold ulp64
      exact mul_le_mul_of_nonneg_left hs2 (by positivity)
    unfold XF.midpoint
    have e1 : XF.rounded F64.round (XF.fin (f.value c) + XF.fin (f.value d)) = .fin y := hy
    rw [e1]
    have e2 : (XF.fin y / XF.fin 2 : XF ℚ) = .fin (y / 2) := XF.fin_div _ (by norm_num)
    rw [e2]
    have e3 : XF.rounded F64.round (.fin (y / 2)) = .fin z := hz
    rw [e3, XF.fin_lt]
    have h7 := (abs_le.1 herr).2
    have h8 := (abs_le.1 herr2).2
    have h9 : (1 : ℚ) / 2 ^ 53 * (2 * 10 ^ 8) / 2 + 1 / 2 ^ 53 / 2 + 1 / 2 ^ 53 * (3 * 10 ^ 8) + 1 / 2 ^ 53 < 1 / 10 ^ 6 / 2 := by
      norm_num
    linarith

/-- **C150.** Growing in double precision, impurities included or not, ends and respects the limits when the values of
every numerical feature are at most a hundred million and a millionth apart when they differ. -/
theorem c150_double_partial {fm : FeatureMatrix ℚ} {T : Target ℚ} {C : Contrast ℚ τ} {good : τ → Prop}
    {o : SplitOpts} {all cases : List Nat} (hM : MatrixOk fm all) (hc : ∀ c ∈ cases, c ∈ all) {L : TargetLaws T all}
    (hsp : ∀ f, .num f ∈ fm.data → f.Spaced ((Feature.num f).knowns all))
    {st : SplitState ℚ} (hS : SplitSetting L fm C good o st.cans st.oob) (hok : L.Ok st.allocs)
    (findPredicted : List Nat → String) (maxDepth : Int) (splitmissing : Bool) :
    ∃ root st', (∀ fuel, cases.length < fuel →
        grow (treeGrowerR F64.round F64.cutoff fm T C o findPredicted maxDepth splitmissing) fm fuel .fresh st cases 0 0 =
          some (root, st')) ∧
      (∀ (p : List Dir) (x : Dir), x ≠ .M → subtreeAt root (p ++ [x]) ≠ .nil →
        o.leafSize ≤ (cases.filter (reaches fm root (p ++ [x]))).length) ∧
      (0 < maxDepth → (height root : Int) ≤ maxDepth) := by
  obtain ⟨c, h1, h2, -⟩ := f64_cutoff
  rw [h1]
  refine c150_ends_partial c125_rounds h2 hM hc ?_ hS hok findPredicted maxDepth splitmissing
  intro f hf
  cases f with
  | num f => rw [← h1]; exact c150_spaced (hsp f hf)
  | cat f => trivial

theorem exFM3_spaced : ∀ f, .num f ∈ exFM3.data → f.Spaced ((Feature.num f).knowns [0, 1, 2, 3, 4, 5]) := by
  have key : ∀ f : NumFeature ℚ, (∀ c ∈ [0, 1, 2, 3, 4, 5], ∃ n : ℤ, |n| ≤ 10 ∧ f.value c = n) →
      f.Spaced ((Feature.num f).knowns [0, 1, 2, 3, 4, 5]) := by
    intro f h
    refine ⟨fun c hc => ?_, fun c hc d hd hlt => ?_⟩
    · obtain ⟨n, hn, e⟩ := h c (List.mem_of_mem_filter hc)
      rw [e]
      refine ⟨rep64_int (hn.trans (by norm_num)), ?_⟩
      have : |(n : ℚ)| ≤ 10 := by exact_mod_cast hn
      exact this.trans (by norm_num)
    · obtain ⟨n, hn, e⟩ := h c (List.mem_of_mem_filter hc)
      obtain ⟨m, hm, e'⟩ := h d (List.mem_of_mem_filter hd)
      rw [e, e'] at hlt ⊢
      have h1 : n < m := by exact_mod_cast hlt
      have h2 : (n : ℚ) + 1 ≤ m := by exact_mod_cast h1
      have : (1 : ℚ) / 10 ^ 6 ≤ 1 := by norm_num
      linarith
  intro f hf
  simp only [exFM3, List.mem_cons, List.not_mem_nil, or_false, Feature.num.injEq, reduceCtorEq] at hf
  rcases hf with rfl | rfl
  · apply key
    intro c hc
    fin_cases hc
    · exact ⟨3, by decide, rfl⟩
    · exact ⟨1, by decide, rfl⟩
    · exact ⟨2, by decide, rfl⟩
    · exact ⟨5, by decide, rfl⟩
    · exact ⟨4, by decide, rfl⟩
    · exact ⟨2, by decide, rfl⟩
  · apply key
    intro c hc
    exact ⟨7, by decide, by fin_cases hc <;> rfl⟩

/-- The setting of the example in double precision, impurities included, neither vetted nor judged out of bag. -/
theorem exSettingR : SplitSetting (giniLawsR F64.round exSplitT 2 _ exSplitT_inRange) exFM3
    (catContrast exSplitT) (fun _ => True) ⟨2, 1, true, false, false, false⟩ exState.cans exState.oob where
  feats := exFM3_feats
  total3 h := by cases h
  contrast h := by cases h
  start := trivial
  leafSize := by decide
  exist := by decide
  mTry := by decide
  oobs := by decide

/-- In the bag are 2, 4 and twice 5. -/
example : ∃ root st', ∀ fuel, 4 < fuel → grow (treeGrowerR F64.round F64.cutoff exFM3 (giniTargetR F64.round exSplitT)
    (catContrast exSplitT) ⟨2, 1, true, false, false, false⟩ (fun _ => "p") 0 true) exFM3 fuel .fresh exState
      [5, 2, 4, 5] 0 0 = some (root, st') := by
  obtain ⟨root, st', h, -⟩ := c150_double_partial exFM3_ok (cases := [5, 2, 4, 5]) (by decide) exFM3_spaced exSettingR
    ⟨rfl, rfl, rfl⟩ (fun _ => "p") 0 true
  exact ⟨root, st', h⟩

/-! ## Where it fails -/

theorem grow_loops {σ : Type} {g : Grower K σ} {fm : FeatureMatrix K} {st0 st1 : σ} {cs0 cs1 : List Nat} {fi n : Nat}
    {F : NumFeature K} {t : XF K} (hd : g.maxDepth ≤ 0) (hl0 : 2 * g.leafSize ≤ cs0.length)
    (hl1 : 2 * g.leafSize ≤ cs1.length)
    (h0 : g.best st0 cs0 0 = some (st1, ⟨cs1, fi, some (.num t), 0⟩))
    (h1 : g.best st1 cs1 0 = some (st1, ⟨cs1, fi, some (.num t), 0⟩)) (hf : fm.data[fi]? = some (.num F))
    (hpts : (Feature.num F).splitPoints (.num t) cs1 = some (cs1, n, n)) (hn : cs1.take n = cs1) (fuel : Nat) :
    grow g fm fuel .fresh st0 cs0 0 0 = none := by
  have key : ∀ fuel d, grow g fm fuel .fresh st1 cs1 d 0 = none := by
    intro fuel
    induction fuel with
    | zero => intro d; rfl
    | succ fuel ih =>
      intro d
      rw [Node.fresh, grow]
      simp only []
      rw [if_pos ⟨.inr hd, hl1⟩, h1]
      simp only [Option.bind_eq_bind, Option.bind_some]
      rw [hf]
      simp only [Option.bind_some, Feature.decodeSplit, hpts]
      rw [hn]
      have := ih (d + 1)
      simp only [growChildren, Node.isNil, Bool.or_true, if_true]
      rw [this]
      rfl
  cases fuel with
  | zero => rfl
  | succ fuel =>
    rw [Node.fresh, grow]
    simp only []
    rw [if_pos ⟨.inr hd, hl0⟩, h0]
    simp only [Option.bind_eq_bind, Option.bind_some]
    rw [hf]
    simp only [Option.bind_some, Feature.decodeSplit, hpts]
    rw [hn]
    have := key fuel 1
    simp only [growChildren, Node.isNil, Bool.or_true, if_true]
    rw [this]
    rfl

/-- A matrix with one numerical feature. -/
def exOneFM (f : NumFeature ℚ) : FeatureMatrix ℚ := ⟨[.num f], fun _ => some 0, []⟩

/-- Growing a tree for the classes 0, 1, 1, 0 from it, in double precision. -/
def exOneGrower (f : NumFeature ℚ) : Grower ℚ (SplitState ℚ) :=
  treeGrowerR F64.round F64.cutoff (exOneFM f) (giniTargetR F64.round exCloseT) (catContrast exCloseT)
    ⟨1, 1, false, false, false, false⟩ (fun _ => "p") 0 false

/-- The scratch values after one search. -/
def exOneAllocs (f : NumFeature ℚ) : Allocs ℚ :=
  (((exOneGrower f).best ⟨exWork.allocs, fun _ => 0, [0], []⟩ [0, 1, 2, 3] 0).map
    (·.1.allocs)).getD exWork.allocs

/-- **C150 is false of the code.** Four cases, the values two neighbouring numbers of double precision: growing a tree
does not end. At every depth the search reports that the classes can be parted, the threshold is rounded up to the larger
value and all four cases go left. In exact numbers the same program ends with two leaves. -/
theorem c150_neighbours_never_end (fuel : Nat) :
    grow (exOneGrower exClose) (exOneFM exClose) fuel .fresh ⟨exWork.allocs, fun _ => 0, [0], []⟩ [0, 1, 2, 3] 0 0 =
      none := by
  refine grow_loops (st1 := ⟨exOneAllocs exClose, fun _ => 0, [0], []⟩) (cs1 := [0, 3, 1, 2]) (fi := 0) (n := 4)
    (F := exClose) (t := .fin (2 ^ 53 + 4)) (le_refl 0) (by decide) (by decide) ?_ ?_ rfl ?_ rfl fuel
  · kernel_refl
  · kernel_refl
  · decide +kernel

theorem c150_neighbours_exact :
    ((grow (treeGrower (exOneFM exClose) (giniTarget exCloseT) (catContrast exCloseT)
      ⟨1, 1, false, false, false, false⟩ (fun _ => "p") 0 false) (exOneFM exClose) 5 .fresh
      ⟨exWork.allocs, fun _ => 0, [0], []⟩ [0, 1, 2, 3] 0 0).map fun x => (leavesOf x.1).length) = some 2 := by
  decide +kernel

/-- **C150 is false of the code.** Four cases, the values 2¹⁰²³ and 2¹⁰²³ + 2¹⁰²²: their sum overflows, the threshold is
+∞, and growing a tree does not end. -/
theorem c150_overflow_never_ends (fuel : Nat) :
    grow (exOneGrower exHuge) (exOneFM exHuge) fuel .fresh ⟨exWork.allocs, fun _ => 0, [0], []⟩ [0, 1, 2, 3] 0 0 =
      none := by
  refine grow_loops (st1 := ⟨exOneAllocs exHuge, fun _ => 0, [0], []⟩) (cs1 := [0, 3, 1, 2]) (fi := 0) (n := 4)
    (F := exHuge) (t := .pinf) (le_refl 0) (by decide) (by decide) ?_ ?_ rfl ?_ rfl fuel
  · kernel_refl
  · kernel_refl
  · decide +kernel

end CloudForest
