import Verif.Lemmas.RoundedGrow3
import Verif.Props.RoundedGrow
import Verif.Props.Fit

/-!
# C151: trees grown in double precision are the best they can be up to rounding, and fit
-/

set_option linter.unusedSectionVars false

namespace CloudForest
variable {τ : Type}

section
variable {fm : FeatureMatrix ℚ} {f : CatFeature} {k : Nat} {C : Contrast ℚ τ} {good : τ → Prop} {o : SplitOpts}
  {all cases : List Nat}

/-- **C151.** `Tree.Grow` for classes with every operation in double precision, impurities included, trying every
candidate, without vetting, out-of-bag evaluation or random thresholds, for up to 2²⁴ classes and 2²⁶ cases, on candidates
that are searched completely and whose values are a millionth apart: whatever the random numbers, every split of the tree is
the best any candidate offers for the cases that reach its node, and no leaf above the depth limit could be divided to
advantage, both up to `(k + 3) / 2⁴⁷`. Impurities in the conclusion are exact. Missing from the full property: what is
missing from C121, and values that are nearer to each other (`c150_neighbours_never_end`). -/
theorem c151_greedy_partial (hM : MatrixOk fm all) (hc : ∀ c ∈ cases, c ∈ all) (hf : f.InRange k all) (hk : k ≤ 2 ^ 24)
    (hn : cases.length ≤ 2 ^ 26) {st : SplitState ℚ}
    (hS : SplitSetting (giniLawsR F64.round f k all hf) fm C good o st.cans st.oob)
    (hok : (giniLawsR F64.round f k all hf).Ok st.allocs)
    (hvet : o.vet = false) (hoob : o.evaloob = false) (hrand : o.extraRandom = false) (hall : o.mTry = st.cans.length)
    (hsp : ∀ g, .num g ∈ fm.data → g.Spaced ((Feature.num g).knowns all))
    (hsome : ∀ i ∈ st.cans, ∀ F, fm.data[i]? = some F → F.Exhaustive)
    (findPredicted : List Nat → String) (maxDepth : Int) (splitmissing : Bool) :
    ∃ root st', (∀ fuel, cases.length < fuel →
        grow (treeGrowerR F64.round F64.cutoff fm (giniTargetR F64.round f) C o findPredicted maxDepth splitmissing) fm fuel
          .fresh st cases 0 0 = some (root, st')) ∧
      GreedyUpTo (((k : ℚ) + 3) / 2 ^ 47) fm st.cans (f.gini ℚ k) o.leafSize maxDepth root cases 0 := by
  obtain ⟨root, st', h, -⟩ := c150_double_partial hM hc hsp hS hok findPredicted maxDepth splitmissing
  refine ⟨root, st', h, ?_⟩
  obtain ⟨c, h1, h2, -⟩ := f64_cutoff
  rw [h1] at h
  have := (grow_near (cut := c) hM (giniLawsR_near f hk all hf) h2 hS.feats
    (fun i hi F hF => ⟨hsome i hi F hF, by
      cases F with
      | num g => rw [← h1]; exact c150_spaced (hsp g (List.mem_of_getElem? hF))
      | cat g => trivial⟩)
    hvet hoob hrand hS.leafSize hS.start hS.exist hall findPredicted maxDepth
    splitmissing _ _ _ st cases 0 0 root st' ⟨hok, List.Perm.refl _⟩ (Nat.zero_le _) hc hn
    (by simp) (h _ (Nat.lt_succ_self _))).2.2
  rwa [show (8 : ℚ) * ((k + 3) / 2 ^ 50) = (k + 3) / 2 ^ 47 by ring] at this

/-- **C151.** `Tree.Grow` in double precision without limits (leaf size 1, no depth limit), for up to 65536 classes, one of
the candidates a number that is known for all training cases and tells their classes apart: every training case that ends
in a leaf gets its own class there, unless that number is the same for all training cases in the leaf but one, or there are
more than 215 of them. Missing from the full property: what is missing from C130. -/
theorem c151_fits_partial (hM : MatrixOk fm all) (hc : ∀ c ∈ cases, c ∈ all) (hf : f.InRange k all) (hk : k ≤ 2 ^ 16)
    (hn : cases.length ≤ 2 ^ 26) {st : SplitState ℚ}
    (hS : SplitSetting (giniLawsR F64.round f k all hf) fm C good o st.cans st.oob)
    (hok : (giniLawsR F64.round f k all hf).Ok st.allocs)
    (hvet : o.vet = false) (hoob : o.evaloob = false) (hrand : o.extraRandom = false) (hall : o.mTry = st.cans.length)
    (hsp : ∀ g, .num g ∈ fm.data → g.Spaced ((Feature.num g).knowns all))
    (hsome : ∀ i ∈ st.cans, ∀ F, fm.data[i]? = some F → F.Exhaustive)
    (hleaf : o.leafSize = 1) (splitmissing : Bool)
    (hcons : f.Consistent) (hknown : ∀ c ∈ cases, f.missing[c]? = some false)
    {i : Nat} {F : NumFeature ℚ} (hi : i ∈ st.cans) (hF : fm.data[i]? = some (.num F))
    (hFk : ∀ c ∈ cases, (Feature.num F).isMissing c = some false)
    (htell : ∀ c ∈ cases, ∀ d ∈ cases, F.value c = F.value d → f.catData[c]? = f.catData[d]?) :
    ∃ root st', (∀ fuel, cases.length < fuel →
        grow (treeGrowerR F64.round F64.cutoff fm (giniTargetR F64.round f) C o
          (fun S => (f.findPredicted S).getD "") 0 splitmissing) fm fuel .fresh st cases 0 0 = some (root, st')) ∧
      ((∀ i ∈ st.cans, ∀ F, fm.data[i]? = some F → ∀ c ∈ cases, F.isMissing c = some false) →
        ∀ c ∈ cases, landing fm root c ≠ none) ∧
      ∀ c ∈ cases, ∀ pred, (landing fm root c).map (·.2) = some pred → (leafMates fm root cases c).length ≤ 215 →
        f.getStr c = some pred ∨ F.AlmostConstant (leafMates fm root cases c) := by
  obtain ⟨root, st', h, hg⟩ := c151_greedy_partial hM hc hf (hk.trans (by norm_num)) hn hS hok hvet hoob hrand hall hsp hsome
    (fun S => (f.findPredicted S).getD "") 0 splitmissing
  obtain ⟨cut, e1, e2, -⟩ := f64_cutoff
  have hap : ∀ G ∈ fm.data, G.Apart Rep64 F64.round (.fin cut) (G.knowns all) := by
    intro G hG
    cases G with
    | num g => rw [← e1]; exact c150_spaced (hsp g hG)
    | cat g => trivial
  have hP : StateOk (giniLawsR F64.round f k all hf) fm st.cans st.oob st := ⟨hok, List.Perm.refl _, List.Perm.refl _⟩
  obtain ⟨h1, -, -⟩ := treeGrowerR_searchOk (fp := fun S => (f.findPredicted S).getD "") (md := 0) (sm := splitmissing)
    F64.rounds e2 hS hap
  have hg' := h _ (Nat.lt_succ_self _)
  rw [e1] at hg'
  have hplain : root.Plain := ((grow_grown (hM.mono hc) (h1.mono hc) (cases.length + 1) 0 "" st cases 0 0 root st' hP
    (Nat.zero_le _) (fun _ h => h) hg').2 false).plain
  have h8 := (c150_leaves_partial F64.rounds e2 hM hc hap hS hok _ 0 splitmissing hg').1
  refine ⟨root, st', h, fun hk c hcc => greedyUpTo_lands root hplain cases 0 hg hk c hcc, fun c hcc pred hpred hlen => ?_⟩
  obtain ⟨⟨path, pred'⟩, hl, hpp⟩ := Option.map_eq_some_iff.1 hpred
  cases hpp
  have hmates : leafMates fm root cases c = cases.filter fun e => (landing fm root e).map (·.1) == some path := by
    unfold leafMates
    rw [hl]
    rfl
  have hoff := greedyUpTo_landing le_rfl root hplain cases 0 hg c hcc path _ hl i hi _ hF
  rw [← hmates] at hoff
  obtain ⟨S, hperm, hS⟩ : ∃ S, S.Perm (leafMates fm root cases c) ∧ pred' = (f.findPredicted S).getD "" := by
    rw [hmates]
    rcases h8 (path, _) (landing_mem root c _ hl) with h | ⟨-, -, -, h⟩
    · exact h
    · exact absurd (by rw [hl]; rfl) (h c hcc)
  have hsub : ∀ d ∈ leafMates fm root cases c, d ∈ cases := fun d hd => (List.mem_filter.1 hd).1
  have hcm : c ∈ leafMates fm root cases c := List.mem_filter.2 ⟨hcc, by simp⟩
  by_cases hv : F.AlmostConstant (leafMates fm root cases c)
  · exact .inr hv
  left
  by_cases hpure : ∀ d ∈ leafMates fm root cases c, f.catData[d]? = f.catData[c]?
  · have hp := pure_predicted hcons hperm hcm (fun d hd => hknown d (hsub d hd)) hpure
    have hcl : c < f.catData.length := by
      rw [hcons.lengths]
      exact (List.getElem?_eq_some_iff.1 (hknown c hcc)).1
    have hk := hcons.valid c _ (hknown c hcc) (List.getElem?_eq_getElem hcl)
    have hg : f.getStr c = some f.cm.back[f.catData[c]] := by
      rw [CatFeature.getStr_known (hknown c hcc), List.getElem?_eq_getElem hcl]
      exact List.getElem?_eq_getElem hk
    rw [hS, ← hp, hg]
    rfl
  · exfalso
    push Not at hpure
    obtain ⟨d, hd, hdc⟩ := hpure
    obtain ⟨p, q1, q2, q3, q4⟩ := gini_offers_cube (K := ℚ) (n := k) (fun e he => hf e (hc e (hsub e he)))
      (fun e he => hFk e (hsub e he)) (fun a ha b hb => htell a (hsub a ha) b (hsub b hb)) hv ⟨d, hd, c, hcm, hdc⟩
    have hpos : 0 < ((leafMates fm root cases c).length : ℚ) := by
      have := List.length_pos_of_mem hcm
      exact_mod_cast this
    have hN : ((leafMates fm root cases c).length : ℚ) ≤ 215 := by exact_mod_cast hlen
    have hkq : (k : ℚ) ≤ 2 ^ 16 := by exact_mod_cast hk
    have hcube : (1 : ℚ) / 10000000 + (k + 3) / 2 ^ 47 < 1 / ((leafMates fm root cases c).length : ℚ) ^ 3 := by
      have a1 : (1 : ℚ) / 215 ^ 3 ≤ 1 / ((leafMates fm root cases c).length : ℚ) ^ 3 :=
        one_div_le_one_div_of_le (by positivity) (pow_le_pow_left₀ hpos.le hN 3)
      have a2 : ((k : ℚ) + 3) / 2 ^ 47 ≤ (2 ^ 16 + 3) / 2 ^ 47 := by gcongr
      have a3 : (1 : ℚ) / 10000000 + (2 ^ 16 + 3) / 2 ^ 47 < 1 / 215 ^ 3 := by norm_num
      linarith
    rw [hleaf] at hoff
    exact absurd (hoff p q1 q2 (hcube.trans_le q3)) (not_le.2 (hcube.trans_le q4))

end

/-! ## Examples -/

theorem exFitSettingR : SplitSetting (giniLawsR F64.round exFitT 2 _ exFitT_inRange) exFM3
    (catContrast exFitT) (fun _ => True) ⟨3, 1, true, false, false, false⟩ exState.cans exState.oob where
  feats := exFM3_feats
  total3 h := by cases h
  contrast h := by cases h
  start := trivial
  leafSize := by decide
  exist := by decide
  mTry := by decide
  oobs := by decide

/-- The hypotheses of `c151_greedy_partial` are met: a bag of five cases, one of them twice. -/
example : ∃ root st', (∀ fuel, 6 < fuel → grow (treeGrowerR F64.round F64.cutoff exFM3 (giniTargetR F64.round exFitT)
      (catContrast exFitT) ⟨3, 1, true, false, false, false⟩ (fun _ => "p") 0 true) exFM3 fuel .fresh exState
        [5, 2, 4, 5, 0, 3] 0 0 = some (root, st')) ∧
    GreedyUpTo (5 / 2 ^ 47) exFM3 [0, 1, 2] (exFitT.gini ℚ 2) 1 0 root [5, 2, 4, 5, 0, 3] 0 := by
  have := c151_greedy_partial exFM3_ok (cases := [5, 2, 4, 5, 0, 3]) (by decide) exFitT_inRange (by norm_num) (by decide)
    exFitSettingR ⟨rfl, rfl, rfl⟩ rfl rfl rfl rfl exFM3_spaced (fun i hi F hF => (exFM3_plain i hi F hF).1) (fun _ => "p") 0
    true
  norm_num at this ⊢
  exact this

/-- The hypotheses of `c151_fits_partial` are met by the same bag. -/
example : ∃ root st', (∀ fuel, 6 < fuel → grow (treeGrowerR F64.round F64.cutoff exFM3 (giniTargetR F64.round exFitT)
      (catContrast exFitT) ⟨3, 1, true, false, false, false⟩ (fun S => (exFitT.findPredicted S).getD "") 0 true) exFM3 fuel
        .fresh exState [5, 2, 4, 5, 0, 3] 0 0 = some (root, st')) ∧
    ∀ c ∈ [5, 2, 4, 5, 0, 3], ∀ pred, (landing exFM3 root c).map (·.2) = some pred →
      exFitT.getStr c = some pred ∨ exSplit.AlmostConstant (leafMates exFM3 root [5, 2, 4, 5, 0, 3] c) := by
  obtain ⟨root, st', h1, -, h2⟩ := c151_fits_partial exFM3_ok (cases := [5, 2, 4, 5, 0, 3]) (by decide) exFitT_inRange
    (by norm_num) (by decide) exFitSettingR ⟨rfl, rfl, rfl⟩ rfl rfl rfl rfl exFM3_spaced
    (fun i hi F hF => (exFM3_plain i hi F hF).1) rfl true exFitT_consistent (by decide +kernel)
    (i := 0) (F := exSplit) (by decide) rfl (by decide +kernel) (by decide +kernel)
  refine ⟨root, st', h1, fun c hc pred hp => h2 c hc pred hp ?_⟩
  exact (List.length_filter_le _ _).trans (by decide)

/-- Every case of that bag gets its class. -/
example : ((grow (treeGrowerR F64.round F64.cutoff exFM3 (giniTargetR F64.round exFitT) (catContrast exFitT)
      ⟨3, 1, true, false, false, false⟩ (fun S => (exFitT.findPredicted S).getD "") 0 true) exFM3 7 .fresh exState
        [5, 2, 4, 5, 0, 3] 0 0).map fun r => [5, 2, 4, 5, 0, 3].map fun c => (landing exFM3 r.1 c).map (·.2)) =
    some [some "a", some "a", some "b", some "a", some "b", some "b"] := by
  decide +kernel

/-! ## Where it fails -/

/-- **C151 is false of the code,** as C130 is: two cases with different values of the only feature stay in one leaf, and
the second is predicted to be of the class of the first. -/
theorem c151_last_case :
    exGreedyTwo.value 0 ≠ exGreedyTwo.value 1 ∧ exFitTwo.getStr 0 = some "b" ∧ exFitTwo.getStr 1 = some "a" ∧
    ((grow (treeGrowerR F64.round F64.cutoff ⟨[.num exGreedyTwo], fun _ => some 0, []⟩ (giniTargetR F64.round exFitTwo)
        (catContrast exFitTwo) ⟨1, 1, false, false, false, false⟩ (fun S => (exFitTwo.findPredicted S).getD "") 0 false)
        ⟨[.num exGreedyTwo], fun _ => some 0, []⟩ 3 .fresh ⟨exWork.allocs, fun _ => 0, [0], []⟩ [0, 1] 0 0).map fun r =>
          [0, 1].map fun c => (landing ⟨[.num exGreedyTwo], fun _ => some 0, []⟩ r.1 c).map (·.2)) =
      some [some "b", some "b"] := by
  decide +kernel

end CloudForest
