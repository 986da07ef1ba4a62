import Verif.Lemmas.Units4
import Verif.Props.Greedy

/-!
# Property C124: a tree does not depend on the order of its cases, nor on the units of its features
-/

set_option linter.unusedSectionVars false

namespace CloudForest
variable {K : Type} [Field K] [LinearOrder K] [IsStrictOrderedRing K] {τ : Type}

/-- All at once: other units, another order, a target with the same impurities. -/
theorem grow_alike {fm fm' : FeatureMatrix K} {T T' : Target K} {C C' : Contrast K τ} {good good' : τ → Prop} {o : SplitOpts}
    {all cases cases' : List Nat} (hM : MatrixOk fm all) (hM' : MatrixOk fm' all) (hc : ∀ c ∈ cases, c ∈ all)
    {L : TargetLaws T all} {L' : TargetLaws T' all} (hE : L.Agrees L') {st st' : SplitState K}
    (hS : SplitSetting L fm C good o st.cans st.oob) (hS' : SplitSetting L' fm' C' good' o st'.cans st'.oob)
    (hok : L.Ok st.allocs) (hok' : L'.Ok st'.allocs) (hrng : st'.rng = st.rng) (hcans : st'.cans = st.cans)
    (hvet : o.vet = false) (hoob : o.evaloob = false) (hR : fm.Rescaled fm' all)
    (ht : fm' = fm ∨ ∀ i ∈ st.cans, ∀ F F', fm.data[i]? = some F → fm'.data[i]? = some F' →
      F.NoNearTies (F.knowns all) ∧ F'.NoNearTies (F.knowns all))
    (hp : cases'.Perm cases) {findPredicted : List Nat → String}
    (hfp : ∀ cs cs' : List Nat, cs'.Perm cs → (∀ c ∈ cs, c ∈ all) → findPredicted cs' = findPredicted cs)
    (maxDepth : Int) (splitmissing : Bool) :
    ∃ root root' st1 st1', (∀ fuel, cases.length < fuel →
        grow (treeGrower fm T C o findPredicted maxDepth splitmissing) fm fuel .fresh st cases 0 0 = some (root, st1) ∧
        grow (treeGrower fm' T' C' o findPredicted maxDepth splitmissing) fm' fuel .fresh st' cases' 0 0 =
          some (root', st1')) ∧ TreatAlike fm fm' root root' cases := by
  obtain ⟨root, st1, h, -⟩ := c09_grow hM hc hS hok findPredicted maxDepth splitmissing
  obtain ⟨root', st1', h', -⟩ := c09_grow hM' (fun c hc' => hc c (hp.mem_iff.1 hc')) hS' hok' findPredicted maxDepth splitmissing
  refine ⟨root, root', st1, st1', fun fuel hf => ⟨h fuel hf, h' fuel (by rw [hp.length_eq]; exact hf)⟩, ?_⟩
  have hfm : ∀ i ∈ st.cans, ∃ F F', fm.data[i]? = some F ∧ fm'.data[i]? = some F' ∧ TwinFeat F F' all := by
    intro i hi
    have h1 := hS.exist i hi
    have h2 := hS'.exist i (by rw [hcans]; exact hi)
    have hr := hR.2 _ _ _ (List.getElem?_eq_getElem h1) (List.getElem?_eq_getElem h2)
    refine ⟨_, _, List.getElem?_eq_getElem h1, List.getElem?_eq_getElem h2, hr, hS.feats _ (List.getElem_mem _),
      hS'.feats _ (List.getElem_mem _), ?_⟩
    rcases ht with rfl | ht
    · exact .inl rfl
    · exact .inr (ht i hi _ _ (List.getElem?_eq_getElem h1) (List.getElem?_eq_getElem h2))
  obtain ⟨n', s', e, -, hta⟩ := grow_twin hE (C := C) (C' := C') hM hM' hfm hvet hoob hS.leafSize hfp maxDepth splitmissing
    (cases.length + 1) 0 "" st st' cases cases' 0 0 root st1 ⟨hok, hok', hrng, hcans, List.Perm.refl _⟩ hp hc
    (h _ (Nat.lt_succ_self _))
  have := h' (cases.length + 1) (by rw [hp.length_eq]; exact Nat.lt_succ_self _)
  rw [show (Node.fresh : Node K) = .mk none 0 .nil .nil .nil "" none from rfl, e] at this
  cases this
  exact hta

theorem TargetLaws.agrees_refl {T : Target K} {all : List Nat} (L : TargetLaws T all) : L.Agrees L :=
  ⟨fun _ _ => rfl, fun _ _ _ => rfl⟩

/-- **C124, order.** With the same random numbers, the bag in another order gives the same tree. -/
theorem c124_order {fm : FeatureMatrix K} {T : Target K} {C : Contrast K τ} {good : τ → Prop} {o : SplitOpts}
    {all cases cases' : List Nat} (hM : MatrixOk fm all) (hc : ∀ c ∈ cases, c ∈ all)
    {L : TargetLaws T all} {st : SplitState K} (hS : SplitSetting L fm C good o st.cans st.oob) (hok : L.Ok st.allocs)
    (hvet : o.vet = false) (hoob : o.evaloob = false)
    (hp : cases'.Perm cases) {findPredicted : List Nat → String}
    (hfp : ∀ cs cs' : List Nat, cs'.Perm cs → (∀ c ∈ cs, c ∈ all) → findPredicted cs' = findPredicted cs)
    (maxDepth : Int) (splitmissing : Bool) :
    ∃ root st1 st1', ∀ fuel, cases.length < fuel →
      grow (treeGrower fm T C o findPredicted maxDepth splitmissing) fm fuel .fresh st cases 0 0 = some (root, st1) ∧
      grow (treeGrower fm T C o findPredicted maxDepth splitmissing) fm fuel .fresh st cases' 0 0 = some (root, st1') := by
  have hR : fm.Rescaled fm all := by
    refine ⟨rfl, fun i F F' hF hF' => ?_⟩
    rw [hF] at hF'
    cases hF'
    cases F with
    | num f => exact ⟨rfl, rfl, fun _ _ _ _ => Iff.rfl⟩
    | cat f => exact (rfl : f = f)
  obtain ⟨root, root', st1, st1', h, hta⟩ := grow_alike hM hM hc L.agrees_refl hS hS hok hok rfl rfl hvet hoob hR (.inl rfl) hp hfp maxDepth splitmissing
  cases treatAlike_eq hta
  exact ⟨root, st1, st1', h⟩

/-- **C124, units.** With the same random numbers, features in units that keep the order of the values give a tree of the
same form that takes each case of the bag to the same prediction. -/
theorem c124_monotone {fm fm' : FeatureMatrix K} {T : Target K} {C C' : Contrast K τ} {good good' : τ → Prop} {o : SplitOpts}
    {all cases : List Nat} (hM : MatrixOk fm all) (hM' : MatrixOk fm' all) (hc : ∀ c ∈ cases, c ∈ all)
    {L : TargetLaws T all} {st : SplitState K} (hS : SplitSetting L fm C good o st.cans st.oob)
    (hS' : SplitSetting L fm' C' good' o st.cans st.oob) (hok : L.Ok st.allocs)
    (hvet : o.vet = false) (hoob : o.evaloob = false) (hR : fm.Rescaled fm' all)
    (ht : ∀ i ∈ st.cans, ∀ F F', fm.data[i]? = some F → fm'.data[i]? = some F' →
      F.NoNearTies (F.knowns all) ∧ F'.NoNearTies (F.knowns all))
    {findPredicted : List Nat → String}
    (hfp : ∀ cs cs' : List Nat, cs'.Perm cs → (∀ c ∈ cs, c ∈ all) → findPredicted cs' = findPredicted cs)
    (maxDepth : Int) (splitmissing : Bool) :
    ∃ root root' st1 st1', (∀ fuel, cases.length < fuel →
        grow (treeGrower fm T C o findPredicted maxDepth splitmissing) fm fuel .fresh st cases 0 0 = some (root, st1) ∧
        grow (treeGrower fm' T C' o findPredicted maxDepth splitmissing) fm' fuel .fresh st cases 0 0 =
          some (root', st1')) ∧
      TreatAlike fm fm' root root' cases ∧ ∀ c ∈ cases, AnswerAlike fm fm' root root' c := by
  obtain ⟨root, root', st1, st1', h, hta⟩ := grow_alike hM hM' hc L.agrees_refl hS hS' hok hok rfl rfl hvet hoob hR (.inr ht) (List.Perm.refl _) hfp
    maxDepth splitmissing
  exact ⟨root, root', st1, st1', h, hta, treatAlike_answer hR hta⟩

/-- **C124, conversion.** If the units are affine, as Fahrenheit for Celsius, every case whatever, in the bag or not, is
taken to the same prediction. -/
theorem c124_converted {fm fm' : FeatureMatrix K} {T : Target K} {C C' : Contrast K τ} {good good' : τ → Prop} {o : SplitOpts}
    {all cases : List Nat} (hM : MatrixOk fm all) (hM' : MatrixOk fm' all) (hc : ∀ c ∈ cases, c ∈ all)
    {L : TargetLaws T all} {st : SplitState K} (hS : SplitSetting L fm C good o st.cans st.oob)
    (hS' : SplitSetting L fm' C' good' o st.cans st.oob) (hok : L.Ok st.allocs)
    (hvet : o.vet = false) (hoob : o.evaloob = false) (hR : fm.Converted fm')
    (ht : ∀ i ∈ st.cans, ∀ F F', fm.data[i]? = some F → fm'.data[i]? = some F' →
      F.NoNearTies (F.knowns all) ∧ F'.NoNearTies (F.knowns all))
    {findPredicted : List Nat → String}
    (hfp : ∀ cs cs' : List Nat, cs'.Perm cs → (∀ c ∈ cs, c ∈ all) → findPredicted cs' = findPredicted cs)
    (maxDepth : Int) (splitmissing : Bool) :
    ∃ root root' st1 st1', (∀ fuel, cases.length < fuel →
        grow (treeGrower fm T C o findPredicted maxDepth splitmissing) fm fuel .fresh st cases 0 0 = some (root, st1) ∧
        grow (treeGrower fm' T C' o findPredicted maxDepth splitmissing) fm' fuel .fresh st cases 0 0 =
          some (root', st1')) ∧
      ∀ c, AnswerAlike fm fm' root root' c := by
  have hfin : ∀ (i : Nat) (F : Feature K), fm.data[i]? = some F → F.Searchable (F.knowns all) :=
    fun i F hF => (hS.feats F (List.mem_of_getElem? hF)).vals
  obtain ⟨root, root', st1, st1', h, hta⟩ := grow_alike hM hM' hc L.agrees_refl hS hS' hok hok rfl rfl hvet hoob (converted_rescaled hR hfin) (.inr ht)
    (List.Perm.refl _) hfp maxDepth splitmissing
  exact ⟨root, root', st1, st1', h, treatAlike_converted hR hfin hc hta⟩

/-- What a leaf predicts does not depend on the order of its cases: classes. -/
theorem c124_class (f : CatFeature) (cs cs' : List Nat) (h : cs'.Perm cs) :
    (f.findPredicted cs').getD "" = (f.findPredicted cs).getD "" := by
  rw [catFindPredicted_perm f h]

/-- What a leaf predicts does not depend on the order of its cases: means. -/
theorem c124_mean (nt : NumText K) (f : NumFeature K) (cs cs' : List Nat) (h : cs'.Perm cs) :
    (f.findPredicted nt cs').getD "" = (f.findPredicted nt cs).getD "" := by
  rw [numFindPredicted_perm nt f h]

/-! Examples -/

/-- The example feature in another unit: 2x + 1. -/
def exSplitF : NumFeature ℚ := { exSplit with numData := exSplit.numData.map (XF.inUnit 2 1) }
@[inherit_doc exSplitF]
def exConstF : NumFeature ℚ := { exConst with numData := exConst.numData.map (XF.inUnit 2 1) }
/-- The example matrix in those units. -/
def exFM3F : FeatureMatrix ℚ := { exFM3 with data := [.num exSplitF, .num exConstF, .cat exCat3] }

theorem exFM3F_converted : exFM3.Converted exFM3F := by
  refine ⟨rfl, fun i F F' hF hF' => ?_⟩
  rcases i with _ | _ | _ | i
  · cases hF; cases hF'
    exact ⟨rfl, rfl, 2, 1, by norm_num, rfl⟩
  · cases hF; cases hF'
    exact ⟨rfl, rfl, 2, 1, by norm_num, rfl⟩
  · cases hF; cases hF'
    exact (rfl : exCat3 = exCat3)
  · cases hF

theorem exFM3F_feats : ∀ f ∈ exFM3F.data, FeatOk f [0, 1, 2, 3, 4, 5] := by
  have hn : ∀ f : NumFeature ℚ, f.missing = List.replicate 6 false → f.hasMissing = false →
      f.Finite [0, 1, 2, 3, 4, 5] → FeatOk (.num f) [0, 1, 2, 3, 4, 5] := by
    intro f h1 h2 h3
    refine ⟨fun c hc => ?_, fun c hc => ?_, fun c hc => h3 c (List.mem_of_mem_filter hc)⟩
    · obtain ⟨x, hx⟩ := h3 c hc
      refine ⟨?_, (List.getElem?_eq_some_iff.1 hx).1⟩
      rw [h1]; fin_cases hc <;> simp
    · simp only [Feature.isMissing, h1, List.getElem?_replicate] at hc
      split at hc <;> cases hc
  intro f hf
  simp only [exFM3F, List.mem_cons, List.not_mem_nil, or_false] at hf
  rcases hf with rfl | rfl | rfl
  · exact hn exSplitF rfl rfl (by intro c hc; fin_cases hc <;> exact ⟨_, rfl⟩)
  · exact hn exConstF rfl rfl (by intro c hc; fin_cases hc <;> exact ⟨_, rfl⟩)
  · exact exFM3_feats _ (by simp [exFM3])

theorem exFM3F_ok : MatrixOk exFM3F [0, 1, 2, 3, 4, 5] where
  valid f hf := (exFM3F_feats f hf).valid
  sound f hf := (exFM3F_feats f hf).sound
  catwf := by
    intro f hf
    simp only [exFM3F, List.mem_cons, List.not_mem_nil, or_false] at hf
    rcases hf with rfl | rfl | rfl
    · trivial
    · trivial
    · exact exFM3_ok.catwf _ (by simp [exFM3])
  named := by
    intro i f hf
    rcases i with _ | _ | _ | i <;> cases hf <;> decide

theorem exUnits_ties : ∀ i ∈ [0, 1], ∀ F F', exFM3.data[i]? = some F → exFM3F.data[i]? = some F' →
    F.NoNearTies (F.knowns [0, 1, 2, 3, 4, 5]) ∧ F'.NoNearTies (F.knowns [0, 1, 2, 3, 4, 5]) := by
  intro i hi F F' hF hF'
  simp only [List.mem_cons, List.not_mem_nil, or_false] at hi
  rcases hi with rfl | rfl <;> cases hF <;> cases hF'
  · exact ⟨show ∀ c ∈ (Feature.num exSplit).knowns [0, 1, 2, 3, 4, 5], ∀ d ∈ (Feature.num exSplit).knowns [0, 1, 2, 3, 4, 5],
        exSplit.value c < exSplit.value d → exSplit.value c + cutoff < exSplit.value d by decide +kernel,
      show ∀ c ∈ (Feature.num exSplit).knowns [0, 1, 2, 3, 4, 5], ∀ d ∈ (Feature.num exSplit).knowns [0, 1, 2, 3, 4, 5],
        exSplitF.value c < exSplitF.value d → exSplitF.value c + cutoff < exSplitF.value d by decide +kernel⟩
  · exact ⟨show ∀ c ∈ (Feature.num exConst).knowns [0, 1, 2, 3, 4, 5], ∀ d ∈ (Feature.num exConst).knowns [0, 1, 2, 3, 4, 5],
        exConst.value c < exConst.value d → exConst.value c + cutoff < exConst.value d by decide +kernel,
      show ∀ c ∈ (Feature.num exConst).knowns [0, 1, 2, 3, 4, 5], ∀ d ∈ (Feature.num exConst).knowns [0, 1, 2, 3, 4, 5],
        exConstF.value c < exConstF.value d → exConstF.value c + cutoff < exConstF.value d by decide +kernel⟩

/-- A state with both numerical features as candidates. -/
def exUnitsState : SplitState ℚ := ⟨exWork.allocs, fun k => 5 * k + 1, [0, 1], []⟩

theorem exUnitsSetting {fm : FeatureMatrix ℚ} (h : ∀ f ∈ fm.data, FeatOk f [0, 1, 2, 3, 4, 5]) (hl : fm.data.length = 3) :
    SplitSetting (giniLaws (K := ℚ) exSplitT 2 _ exSplitT_inRange) fm
    (catContrast exSplitT) (fun g => g.InRange 2 [0, 1, 2, 3, 4, 5] ∧
      g.missing.length = g.catData.length ∧ g.catData.length = exSplitT.catData.length)
    ⟨2, 1, true, false, false, true⟩ exUnitsState.cans exUnitsState.oob where
  feats := h
  total3 _ := countLaws_total3 _ _ _ _ _
  contrast _ := catContrast_ok _ _ _ _ rfl _
  start := ⟨exSplitT_inRange, rfl, rfl⟩
  leafSize := by decide
  exist := by rw [hl]; decide
  mTry := by decide
  oobs := by decide

/-- The same bag in two orders, one case in it twice, random thresholds. -/
example : ∃ root st1 st1', ∀ fuel, 6 < fuel →
    grow (treeGrower exFM3 (giniTarget exSplitT) (catContrast exSplitT) ⟨2, 1, true, false, false, true⟩
      (fun cs => (exSplitT.findPredicted cs).getD "") 0 true) exFM3 fuel .fresh exUnitsState [5, 2, 4, 5, 0, 3] 0 0 =
        some (root, st1) ∧
    grow (treeGrower exFM3 (giniTarget exSplitT) (catContrast exSplitT) ⟨2, 1, true, false, false, true⟩
      (fun cs => (exSplitT.findPredicted cs).getD "") 0 true) exFM3 fuel .fresh exUnitsState [0, 2, 3, 4, 5, 5] 0 0 =
        some (root, st1') :=
  c124_order exFM3_ok (cases := [5, 2, 4, 5, 0, 3]) (cases' := [0, 2, 3, 4, 5, 5]) (by decide) (exUnitsSetting exFM3_feats rfl) ⟨rfl, rfl, rfl⟩ rfl rfl (by decide)
    (fun cs cs' h _ => c124_class exSplitT cs cs' h) 0 true

/-- The same bag in two units. -/
example : ∃ root root' st1 st1', (∀ fuel, 6 < fuel →
    grow (treeGrower exFM3 (giniTarget exSplitT) (catContrast exSplitT) ⟨2, 1, true, false, false, true⟩
      (fun cs => (exSplitT.findPredicted cs).getD "") 0 true) exFM3 fuel .fresh exUnitsState [5, 2, 4, 5, 0, 3] 0 0 =
        some (root, st1) ∧
    grow (treeGrower exFM3F (giniTarget exSplitT) (catContrast exSplitT) ⟨2, 1, true, false, false, true⟩
      (fun cs => (exSplitT.findPredicted cs).getD "") 0 true) exFM3F fuel .fresh exUnitsState [5, 2, 4, 5, 0, 3] 0 0 =
        some (root', st1')) ∧ ∀ c, AnswerAlike exFM3 exFM3F root root' c :=
  c124_converted exFM3_ok exFM3F_ok (cases := [5, 2, 4, 5, 0, 3]) (by decide) (exUnitsSetting exFM3_feats rfl) (exUnitsSetting exFM3F_feats rfl)
    ⟨rfl, rfl, rfl⟩ rfl rfl exFM3F_converted exUnits_ties (fun cs cs' h _ => c124_class exSplitT cs cs' h) 0 true

example : ∃ root root' st1 st1', (∀ fuel, 6 < fuel →
    grow (treeGrower exFM3 (giniTarget exSplitT) (catContrast exSplitT) ⟨2, 1, true, false, false, true⟩
      (fun cs => (exSplitT.findPredicted cs).getD "") 0 true) exFM3 fuel .fresh exUnitsState [5, 2, 4, 5, 0, 3] 0 0 =
        some (root, st1) ∧
    grow (treeGrower exFM3F (giniTarget exSplitT) (catContrast exSplitT) ⟨2, 1, true, false, false, true⟩
      (fun cs => (exSplitT.findPredicted cs).getD "") 0 true) exFM3F fuel .fresh exUnitsState [5, 2, 4, 5, 0, 3] 0 0 =
        some (root', st1')) ∧ TreatAlike exFM3 exFM3F root root' [5, 2, 4, 5, 0, 3] ∧
      ∀ c ∈ [5, 2, 4, 5, 0, 3], AnswerAlike exFM3 exFM3F root root' c :=
  c124_monotone exFM3_ok exFM3F_ok (cases := [5, 2, 4, 5, 0, 3]) (by decide) (exUnitsSetting exFM3_feats rfl) (exUnitsSetting exFM3F_feats rfl)
    ⟨rfl, rfl, rfl⟩ rfl rfl (converted_rescaled exFM3F_converted fun i F hF => (exFM3_feats F (List.mem_of_getElem? hF)).vals)
    exUnits_ties (fun cs cs' h _ => c124_class exSplitT cs cs' h) 0 true

/-- The roots ask 5/2 and 6. -/
example : ([exFM3, exFM3F].map fun fm => (grow (treeGrower fm (giniTarget exSplitT) (catContrast exSplitT)
      ⟨2, 1, true, false, false, false⟩ (fun _ => "p") 0 true) fm 7 .fresh exUnitsState [5, 2, 4, 5, 0, 3] 0 0).map
        (fun r => match r.1 with
          | .mk c fi _ _ _ _ _ => (c, fi)
          | .nil => (none, 9))) = [some (some (.num (.fin (5 / 2))), 0), some (some (.num (.fin 6)), 0)] := by
  decide +kernel

/-! ## Where it fails -/

/-- The form of a tree: 0 for a leaf, 1 for an inner node. -/
def rootKind (r : Option (Node ℚ × SplitState ℚ)) : Option Nat :=
  r.map fun r => if r.1.isLeaf then 0 else 1

/-- The example feature in a unit so large that its values become small: x / 10⁸. -/
def exTiny : NumFeature ℚ := { exSplit with numData := exSplit.numData.map (XF.inUnit (1 / 100000000) 0) }

/-- **C124 fails for large units.** Values in meters divide the bag; the same values in units of 10⁸ meters are all taken
for equal, and the tree is a single leaf. -/
theorem c124_large_unit :
    (Feature.num exSplit).Converted (.num exTiny) ∧
    rootKind (grow (treeGrower ⟨[.num exSplit], fun _ => some 0, []⟩ (giniTarget exSplitT) (catContrast exSplitT)
      ⟨1, 1, true, false, false, false⟩ (fun _ => "p") 0 true) ⟨[.num exSplit], fun _ => some 0, []⟩ 7 .fresh
      ⟨exWork.allocs, fun _ => 0, [0], []⟩ [0, 1, 2, 3, 4, 5] 0 0) = some 1 ∧
    rootKind (grow (treeGrower ⟨[.num exTiny], fun _ => some 0, []⟩ (giniTarget exSplitT) (catContrast exSplitT)
      ⟨1, 1, true, false, false, false⟩ (fun _ => "p") 0 true) ⟨[.num exTiny], fun _ => some 0, []⟩ 7 .fresh
      ⟨exWork.allocs, fun _ => 0, [0], []⟩ [0, 1, 2, 3, 4, 5] 0 0) = some 0 :=
  ⟨⟨rfl, rfl, 1 / 100000000, 0, by norm_num, rfl⟩, by decide +kernel, by decide +kernel⟩

/-- Six cases with two values, their classes, and the matrix of them. -/
def exVetOrdV : NumFeature ℚ := ⟨[.fin 1, .fin 1, .fin 1, .fin 2, .fin 2, .fin 2], List.replicate 6 false, "x", false⟩
@[inherit_doc exVetOrdV]
def exVetOrdT : CatFeature := ⟨.empty, [0, 0, 1, 1, 1, 1], List.replicate 6 false, "t", false, false⟩
@[inherit_doc exVetOrdV]
def exVetOrdM : FeatureMatrix ℚ := ⟨[.num exVetOrdV], fun _ => some 0, []⟩

/-- **C124 fails with vetting.** With the same random numbers the bag in one order is divided, in the other order not. -/
theorem c124_vet_order :
    rootKind (grow (treeGrower exVetOrdM (giniTarget exVetOrdT) (catContrast exVetOrdT) ⟨1, 1, true, true, false, false⟩
      (fun _ => "p") 0 false) exVetOrdM 7 .fresh ⟨exWork.allocs, fun k => 6 / 2 ^ k, [0], []⟩ [0, 1, 2, 3, 4, 5] 0 0) = some 1 ∧
    rootKind (grow (treeGrower exVetOrdM (giniTarget exVetOrdT) (catContrast exVetOrdT) ⟨1, 1, true, true, false, false⟩
      (fun _ => "p") 0 false) exVetOrdM 7 .fresh ⟨exWork.allocs, fun k => 6 / 2 ^ k, [0], []⟩ [5, 4, 3, 2, 1, 0] 0 0) = some 0 := by
  decide +kernel

/-- The values 1, 3, 3 and 2.2, and their cubes. -/
def exLine : NumFeature ℚ := ⟨[.fin 1, .fin 3, .fin 3, .fin (11 / 5)], List.replicate 4 false, "x", false⟩
@[inherit_doc exLine]
def exCube : NumFeature ℚ := ⟨[.fin 1, .fin 27, .fin 27, .fin (1331 / 125)], List.replicate 4 false, "x", false⟩
@[inherit_doc exLine]
def exCubeT : CatFeature := ⟨.empty, [0, 1, 1, 1], List.replicate 4 false, "t", false, false⟩

/-- **C124 fails for new cases in units that are not affine.** A tree grown from the cases 0, 1 and 2 takes case 3 right;
the tree grown from the cubes of the same values, which are in the same order, takes it left. -/
theorem c124_cube :
    ([exLine, exCube].map fun f => (grow (treeGrower ⟨[.num f], fun _ => some 0, []⟩ (giniTarget exCubeT)
      (catContrast exCubeT) ⟨1, 1, true, false, false, false⟩ (fun _ => "p") 0 false) ⟨[.num f], fun _ => some 0, []⟩ 4
      .fresh ⟨exWork.allocs, fun _ => 0, [0], []⟩ [0, 1, 2] 0 0).map fun r =>
        (reaches ⟨[.num f], fun _ => some 0, []⟩ r.1 [.L] 3, reaches ⟨[.num f], fun _ => some 0, []⟩ r.1 [.R] 3)) =
      [some (false, true), some (true, false)] ∧
    (Feature.num exLine).Rescaled (.num exCube) [0, 1, 2, 3] :=
  ⟨by decide +kernel, rfl, rfl, by decide +kernel⟩

end CloudForest
