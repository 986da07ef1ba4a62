import Verif.Lemmas.RoundedSse
import Verif.Lemmas.UpTo
import Verif.Props.RoundedFit
import Verif.Props.RoundedTarget

/-!
# C152: regression trees grown in double precision are the best they can be up to rounding, and fit whole numbers
-/

set_option linter.unusedSectionVars false

namespace CloudForest
variable {τ : Type}

section
variable {fm : FeatureMatrix ℚ} {f : NumFeature ℚ} {k A : Nat} {C : Contrast ℚ τ} {good : τ → Prop} {o : SplitOpts}
  {all cases : List Nat}

theorem sseUpTo_agree (N : Nat) (f : NumFeature ℚ) : (sseTargetR F64.round f).AgreeUpTo N (sseUpTo N f) where
  impurity a cs h := by
    show _ = if _ then _ else _
    rw [if_pos h]
    rfl
  split a l g h := by
    show _ = if _ then _ else _
    rw [if_pos h]
    rfl
  update a l g mv h := by
    show _ = if _ then _ else _
    rw [if_pos h]
    rfl

theorem WholeOver.with (h : f.WholeOver k A all) : ∃ n : Nat → ℤ, WholeWith f k n A all := by
  classical
  refine ⟨fun c => if hc : c ∈ all then (h c hc).choose else 0, fun c hc => ?_⟩
  have := (h c hc).choose_spec
  simp only [dif_pos hc]
  exact this

theorem sseUpTo_setting {N : Nat} {n : Nat → ℤ} (hk : k ≤ 400) (hn : N * A ≤ 2 ^ 25) (hw : WholeWith f k n A all)
    (hf : f.Finite all) {cans oob : List Nat} (hS : SplitSetting (sseLaws f all hf) fm C good o cans oob)
    (hvet : o.vet = false) (hoob : o.evaloob = false) : SplitSetting (sseUpToLaws hk hn hw) fm C good o cans oob where
  feats := hS.feats
  total3 h := by rw [hoob] at h; cases h
  contrast h := by rw [hvet] at h; cases h
  start := hS.start
  leafSize := hS.leafSize
  exist := hS.exist
  mTry := hS.mTry
  oobs := hS.oobs

/-- A leaf whose targets vary by more than `t` on average is not the best it can be. -/
theorem sse_offers_above {F : NumFeature ℚ} {cs : List Nat} {t : ℚ}
    (hk : ∀ c ∈ cs, (Feature.num F).isMissing c = some false)
    (hne : cs ≠ []) (hv : ¬ F.AlmostConstant cs) (hmix : (cs.length : ℚ) * t < f.sse cs) :
    ∃ p, (Feature.num F).Divides p ∧ (Feature.num F).Room 1 p cs ∧ t < (Feature.num F).knownGain f.sse p cs ∧
      t < (Feature.num F).gain3 f.sse p cs := by
  obtain ⟨c, hc, hm, hroom⟩ := least_room hk hne hv
  obtain ⟨l, hl⟩ : ∃ l, l = cs.filter fun d => decide (F.value d ≤ F.value c) := ⟨_, rfl⟩
  obtain ⟨r, hr⟩ : ∃ r, r = cs.filter fun d => !decide (F.value d ≤ F.value c) := ⟨_, rfl⟩
  have hL : (Feature.num F).toLeft (fun d => decide (F.value d ≤ F.value c)) cs = l := by
    unfold Feature.toLeft
    rw [knowns_all hk, hl]
  have hR : (Feature.num F).toRight (fun d => decide (F.value d ≤ F.value c)) cs = r := by
    unfold Feature.toRight
    rw [knowns_all hk, hr]
  have hperm : (l ++ r).Perm cs := by
    rw [hl, hr]
    exact List.filter_append_perm _ _
  have hroom' := hroom
  obtain ⟨h1, h2⟩ := hroom'
  have h2 : 1 < ((Feature.num F).toRight (fun d => decide (F.value d ≤ F.value c)) cs).length := h2
  rw [hL] at h1
  rw [hR] at h2
  have hlr : (l.length + r.length : ℚ) = cs.length := by
    rw [← hperm.length_eq, List.length_append]
    push_cast
    rfl
  have hl1 : (1 : ℚ) ≤ l.length := by exact_mod_cast h1
  have hr1 : (1 : ℚ) ≤ r.length := by exact_mod_cast h2.le
  have hsup := sse_superadd f l r
  rw [sse_perm f hperm] at hsup
  have hl0 := sse_nonneg f l
  have hr0 := sse_nonneg f r
  have hgain : t < f.sse cs - (l.length * f.sse l + r.length * f.sse r) / cs.length := by
    rw [← hlr] at hmix ⊢
    obtain ⟨x, hx⟩ : ∃ x : ℚ, x = l.length := ⟨_, rfl⟩
    obtain ⟨y, hy⟩ : ∃ y : ℚ, y = r.length := ⟨_, rfl⟩
    rw [← hx] at hl1 hmix ⊢
    rw [← hy] at hr1 hmix ⊢
    have hpos : 0 < x + y := by linarith
    have e : f.sse cs - (x * f.sse l + y * f.sse r) / (x + y) =
        ((x + y) * f.sse cs - x * f.sse l - y * f.sse r) / (x + y) := by
      field_simp
      ring
    rw [e, lt_div_iff₀ hpos]
    have a1 : x * f.sse l ≤ (x + y - 1) * f.sse l := mul_le_mul_of_nonneg_right (by linarith) hl0
    have a2 : y * f.sse r ≤ (x + y - 1) * f.sse r := mul_le_mul_of_nonneg_right (by linarith) hr0
    have a3 : (x + y - 1) * (f.sse l + f.sse r) ≤ (x + y - 1) * f.sse cs :=
      mul_le_mul_of_nonneg_left hsup (by linarith)
    linarith
  refine ⟨fun d => decide (F.value d ≤ F.value c), ⟨F.value c, fun _ => rfl⟩, hroom, ?_, ?_⟩
  · unfold Feature.knownGain
    rw [hL, hR, knowns_all hk]
    exact hgain
  · unfold Feature.gain3
    rw [hL, hR, missings_none hk]
    simpa using hgain

/-- **C152.** `Tree.Grow` for numbers with every operation in double precision, impurities included, trying every
candidate, without vetting, out-of-bag evaluation or random thresholds, for targets that are whole numbers over `2ᵏ`, the
whole numbers at most `A` and `A` times the number of cases at most 2²⁵, on candidates that are searched completely and
whose values are a millionth apart: whatever the random numbers, every split of the tree is the best any candidate offers
for the cases that reach its node, and no leaf above the depth limit could be divided to advantage, both up to 2⁻⁴⁵ times the
number of cases times the square of the largest possible target. Impurities in the conclusion are exact. Missing from the
full property: what is missing from C121, other targets (`c152_divides_equal`), and values that are nearer to each other
(`c150_neighbours_never_end`). -/
theorem c152_greedy_partial (hM : MatrixOk fm all) (hc : ∀ c ∈ cases, c ∈ all) (hne : cases ≠ []) (hf : f.Finite all)
    (hk : k ≤ 400) (hw : f.WholeOver k A all) (hA : 1 ≤ A) (hn : cases.length * A ≤ 2 ^ 25) {st : SplitState ℚ}
    (hS : SplitSetting (sseLaws f all hf) fm C good o st.cans st.oob)
    (hvet : o.vet = false) (hoob : o.evaloob = false) (hrand : o.extraRandom = false) (hall : o.mTry = st.cans.length)
    (hsp : ∀ g, .num g ∈ fm.data → g.Spaced ((Feature.num g).knowns all))
    (hsome : ∀ i ∈ st.cans, ∀ F, fm.data[i]? = some F → F.Exhaustive)
    (findPredicted : List Nat → String) (maxDepth : Int) (splitmissing : Bool) :
    ∃ root st', (∀ fuel, cases.length < fuel →
        grow (treeGrowerR F64.round F64.cutoff fm (sseTargetR F64.round f) C o findPredicted maxDepth splitmissing) fm fuel
          .fresh st cases 0 0 = some (root, st')) ∧
      GreedyUpTo (cases.length * ((A : ℚ) / 2 ^ k) ^ 2 / 2 ^ 45) fm st.cans f.sse o.leafSize maxDepth root cases 0 := by
  obtain ⟨n, hw⟩ := WholeOver.with hw
  have hS' := sseUpTo_setting hk hn hw hf hS hvet hoob
  obtain ⟨root, st', h, -⟩ := c150_double_partial hM hc hsp hS' trivial findPredicted maxDepth splitmissing
  refine ⟨root, st', fun fuel hfuel => ?_, ?_⟩
  · rw [growR_agree (sseUpTo_agree cases.length f) hvet hoob _ _ _ _ _ _ _ _ _ le_rfl]
    exact h fuel hfuel
  obtain ⟨c, h1, h2, -⟩ := f64_cutoff
  rw [h1] at h
  have := (grow_near (cut := c) hM (sseUpToLaws_near hk hA (List.length_pos_iff.2 hne) hn hw) h2 hS.feats
    (fun i hi F hF => ⟨hsome i hi F hF, by
      cases F with
      | num g => rw [← h1]; exact c150_spaced (hsp g (List.mem_of_getElem? hF))
      | cat g => trivial⟩)
    hvet hoob hrand hS.leafSize hS.start hS.exist hall findPredicted maxDepth
    splitmissing _ _ _ st cases 0 0 root st' ⟨trivial, List.Perm.refl _⟩ (Nat.zero_le _) hc le_rfl
    (by simp) (h _ (Nat.lt_succ_self _))).2.2
  have e : (8 : ℚ) * (sseBound cases.length A k / 2 ^ 48) = cases.length * ((A : ℚ) / 2 ^ k) ^ 2 / 2 ^ 45 := by
    unfold sseBound
    rw [mul_comm 2 k, pow_mul]
    ring
  rwa [e] at this

/-- **C152.** Without limits (leaf size 1, no depth limit), one of the candidates a number that is known for all training
cases: in every leaf the squared deviation of the targets from their mean is on average at most `1e-7` and what rounding
may hide, unless that number is the same for all training cases in the leaf but one. -/
theorem c152_fits_partial (hM : MatrixOk fm all) (hc : ∀ c ∈ cases, c ∈ all) (hne : cases ≠ []) (hf : f.Finite all)
    (hk : k ≤ 400) (hw : f.WholeOver k A all) (hA : 1 ≤ A) (hn : cases.length * A ≤ 2 ^ 25) {st : SplitState ℚ}
    (hS : SplitSetting (sseLaws f all hf) fm C good o st.cans st.oob)
    (hvet : o.vet = false) (hoob : o.evaloob = false) (hrand : o.extraRandom = false) (hall : o.mTry = st.cans.length)
    (hsp : ∀ g, .num g ∈ fm.data → g.Spaced ((Feature.num g).knowns all))
    (hsome : ∀ i ∈ st.cans, ∀ F, fm.data[i]? = some F → F.Exhaustive)
    (hleaf : o.leafSize = 1) (splitmissing : Bool) (findPredicted : List Nat → String)
    {i : Nat} {F : NumFeature ℚ} (hi : i ∈ st.cans) (hF : fm.data[i]? = some (.num F))
    (hFk : ∀ c ∈ cases, (Feature.num F).isMissing c = some false) :
    ∃ root st', (∀ fuel, cases.length < fuel →
        grow (treeGrowerR F64.round F64.cutoff fm (sseTargetR F64.round f) C o findPredicted 0 splitmissing) fm fuel
          .fresh st cases 0 0 = some (root, st')) ∧
      ((∀ i ∈ st.cans, ∀ F, fm.data[i]? = some F → ∀ c ∈ cases, F.isMissing c = some false) →
        ∀ c ∈ cases, landing fm root c ≠ none) ∧
      ∀ c ∈ cases, ∀ pred, (landing fm root c).map (·.2) = some pred →
        (∃ S, S.Perm (leafMates fm root cases c) ∧ pred = findPredicted S) ∧
        (((leafMates fm root cases c).map fun d => (f.value d - f.meanOf (leafMates fm root cases c)) ^ 2).sum ≤
            (leafMates fm root cases c).length * (1 / 10000000 + cases.length * ((A : ℚ) / 2 ^ k) ^ 2 / 2 ^ 45) ∨
          F.AlmostConstant (leafMates fm root cases c)) := by
  obtain ⟨root, st', h, hg⟩ := c152_greedy_partial hM hc hne hf hk hw hA hn hS hvet hoob hrand hall hsp hsome
    findPredicted 0 splitmissing
  obtain ⟨n, hw⟩ := WholeOver.with hw
  have hS' := sseUpTo_setting hk hn hw hf hS hvet hoob
  obtain ⟨cut, e1, e2, -⟩ := f64_cutoff
  have hap : ∀ G ∈ fm.data, G.Apart Rep64 F64.round (.fin cut) (G.knowns all) := by
    intro G hG
    cases G with
    | num g => rw [← e1]; exact c150_spaced (hsp g hG)
    | cat g => trivial
  have hP : StateOk (sseUpToLaws hk hn hw) fm st.cans st.oob st := ⟨trivial, List.Perm.refl _, List.Perm.refl _⟩
  obtain ⟨h1, -, -⟩ := treeGrowerR_searchOk (fp := findPredicted) (md := 0) (sm := splitmissing)
    F64.rounds e2 hS' hap
  have hg' := h _ (Nat.lt_succ_self _)
  rw [e1, growR_agree (sseUpTo_agree cases.length f) hvet hoob _ _ _ _ _ _ _ _ _ le_rfl] at hg'
  have hplain : root.Plain := ((grow_grown (hM.mono hc) (h1.mono hc) (cases.length + 1) 0 "" st cases 0 0 root st' hP
    (Nat.zero_le _) (fun _ h => h) hg').2 false).plain
  have h8 := (c150_leaves_partial F64.rounds e2 hM hc hap hS' trivial _ 0 splitmissing hg').1
  refine ⟨root, st', h, fun hk c hcc => greedyUpTo_lands root hplain cases 0 hg hk c hcc, fun c hcc pred hpred => ?_⟩
  obtain ⟨⟨path, pred'⟩, hl, hpp⟩ := Option.map_eq_some_iff.1 hpred
  cases hpp
  have hmates : leafMates fm root cases c = cases.filter fun e => (landing fm root e).map (·.1) == some path := by
    unfold leafMates
    rw [hl]
    rfl
  have hoff := greedyUpTo_landing le_rfl root hplain cases 0 hg c hcc path _ hl i hi _ hF
  rw [← hmates] at hoff
  refine ⟨?_, ?_⟩
  · rw [hmates]
    rcases h8 (path, _) (landing_mem root c _ hl) with h | ⟨-, -, -, h⟩
    · exact h
    · exact absurd (by rw [hl]; rfl) (h c hcc)
  have hsub : ∀ d ∈ leafMates fm root cases c, d ∈ cases := fun d hd => (List.mem_filter.1 hd).1
  have hcm : c ∈ leafMates fm root cases c := List.mem_filter.2 ⟨hcc, by simp⟩
  by_cases hv : F.AlmostConstant (leafMates fm root cases c)
  · exact .inr hv
  left
  by_contra hgt
  obtain ⟨p, q1, q2, q3, q4⟩ := sse_offers_above (f := f) (fun e he => hFk e (hsub e he)) (List.ne_nil_of_mem hcm) hv
    (not_le.1 hgt)
  rw [hleaf] at hoff
  exact absurd (hoff p q1 q2 q3) (not_le.2 q4)

/-- Different whole numbers deviate from their mean by one half at least. -/
theorem sse_whole {cs : List Nat} (hw : f.WholeOver 0 A cs) {c d : Nat} (hc : c ∈ cs) (hd : d ∈ cs)
    (hne : f.value c ≠ f.value d) : 1 / 2 ≤ f.sse cs := by
  obtain ⟨m, hm, -⟩ := hw c hc
  obtain ⟨m', hm', -⟩ := hw d hd
  have v1 : f.value c = m := by unfold NumFeature.value; rw [hm]; simp
  have v2 : f.value d = m' := by unfold NumFeature.value; rw [hm']; simp
  have hmm : m ≠ m' := fun h => hne (by rw [v1, v2, h])
  have h1 : (1 : ℚ) ≤ ((m : ℚ) - m') ^ 2 := by
    have : 1 ≤ (m - m') ^ 2 := by
      have : 0 < (m - m') ^ 2 := by
        have : m - m' ≠ 0 := sub_ne_zero.2 hmm
        positivity
      omega
    exact_mod_cast this
  have hcd : c ≠ d := fun h => hne (by rw [h])
  obtain ⟨μ, hμ⟩ : ∃ μ, μ = f.meanOf cs := ⟨_, rfl⟩
  have h2 : (f.value c - μ) ^ 2 + (f.value d - μ) ^ 2 ≤ f.sse cs := by
    unfold NumFeature.sse
    rw [← hμ]
    have hp : cs.Perm (c :: d :: (cs.erase c).erase d) := by
      refine (List.perm_cons_erase hc).trans (List.Perm.cons _ (List.perm_cons_erase ?_))
      exact (List.mem_erase_of_ne hcd.symm).2 hd
    rw [(hp.map fun c => (f.value c - μ) ^ 2).sum_eq]
    simp only [List.map_cons, List.sum_cons]
    have : 0 ≤ (((cs.erase c).erase d).map fun c => (f.value c - μ) ^ 2).sum := sum_nonneg' _ _ fun _ _ => sq_nonneg _
    linarith
  rw [v1, v2] at h2
  nlinarith [sq_nonneg ((m : ℚ) - μ + (m' - μ))]

/-- **C152.** For whole numbers, at most `A` and `A` times the number of cases at most 2²⁰: all training cases in a leaf
have the same target, unless the known candidate is the same for all of them but one. Missing from the full property: that
exception (`c152_last_case`), and other numbers (`c131_small`). -/
theorem c152_whole_partial (hM : MatrixOk fm all) (hc : ∀ c ∈ cases, c ∈ all) (hne : cases ≠ []) (hf : f.Finite all)
    (hw : f.WholeOver 0 A all) (hA : 1 ≤ A) (hn : cases.length * A ≤ 2 ^ 20) {st : SplitState ℚ}
    (hS : SplitSetting (sseLaws f all hf) fm C good o st.cans st.oob)
    (hvet : o.vet = false) (hoob : o.evaloob = false) (hrand : o.extraRandom = false) (hall : o.mTry = st.cans.length)
    (hsp : ∀ g, .num g ∈ fm.data → g.Spaced ((Feature.num g).knowns all))
    (hsome : ∀ i ∈ st.cans, ∀ F, fm.data[i]? = some F → F.Exhaustive)
    (hleaf : o.leafSize = 1) (splitmissing : Bool) (findPredicted : List Nat → String)
    {i : Nat} {F : NumFeature ℚ} (hi : i ∈ st.cans) (hF : fm.data[i]? = some (.num F))
    (hFk : ∀ c ∈ cases, (Feature.num F).isMissing c = some false) :
    ∃ root st', (∀ fuel, cases.length < fuel →
        grow (treeGrowerR F64.round F64.cutoff fm (sseTargetR F64.round f) C o findPredicted 0 splitmissing) fm fuel
          .fresh st cases 0 0 = some (root, st')) ∧
      ((∀ i ∈ st.cans, ∀ F, fm.data[i]? = some F → ∀ c ∈ cases, F.isMissing c = some false) →
        ∀ c ∈ cases, landing fm root c ≠ none) ∧
      ∀ c ∈ cases, ∀ pred, (landing fm root c).map (·.2) = some pred →
        (∃ S, S.Perm (leafMates fm root cases c) ∧ pred = findPredicted S) ∧
        ((∀ d ∈ leafMates fm root cases c, f.value d = f.value c) ∨ F.AlmostConstant (leafMates fm root cases c)) := by
  obtain ⟨root, st', h, h1, h2⟩ := c152_fits_partial hM hc hne hf (by omega) hw hA (hn.trans (by norm_num)) hS hvet hoob
    hrand hall hsp hsome hleaf splitmissing findPredicted hi hF hFk
  refine ⟨root, st', h, h1, fun c hcc pred hpred => ?_⟩
  obtain ⟨h3, h4⟩ := h2 c hcc pred hpred
  refine ⟨h3, h4.imp_left fun h4 => ?_⟩
  have hsub : ∀ d ∈ leafMates fm root cases c, d ∈ cases := fun d hd => (List.mem_filter.1 hd).1
  have hcm : c ∈ leafMates fm root cases c := List.mem_filter.2 ⟨hcc, by simp⟩
  intro d hd
  by_contra hdc
  have h5 := sse_whole (fun e he => hw e (hc e (hsub e he))) hd hcm hdc
  have hlen : ((leafMates fm root cases c).length : ℚ) ≤ cases.length := by
    exact_mod_cast List.length_filter_le _ _
  have hNA : (cases.length : ℚ) * A ≤ 2 ^ 20 := by exact_mod_cast hn
  have hA1 : (1 : ℚ) ≤ A := by exact_mod_cast hA
  have hN0 : (0 : ℚ) ≤ cases.length := by positivity
  have hN : (cases.length : ℚ) ≤ 2 ^ 20 := by nlinarith
  have h6 : f.sse (leafMates fm root cases c) ≤ _ := h4
  have h7 : ((leafMates fm root cases c).length : ℚ) * (1 / 10000000 + cases.length * ((A : ℚ) / 2 ^ 0) ^ 2 / 2 ^ 45) ≤
      cases.length * (1 / 10000000 + cases.length * ((A : ℚ) / 2 ^ 0) ^ 2 / 2 ^ 45) :=
    mul_le_mul_of_nonneg_right hlen (by positivity)
  have h8 : (cases.length : ℚ) * (1 / 10000000 + cases.length * ((A : ℚ) / 2 ^ 0) ^ 2 / 2 ^ 45) =
      cases.length / 10000000 + (cases.length * A) ^ 2 / 2 ^ 45 := by ring
  have h9 : ((cases.length : ℚ) * A) ^ 2 / 2 ^ 45 ≤ (2 ^ 20) ^ 2 / 2 ^ 45 :=
    div_le_div_of_nonneg_right (pow_le_pow_left₀ (by positivity) hNA 2) (by positivity)
  have h10 : ((2 : ℚ) ^ 20) ^ 2 / 2 ^ 45 = 1 / 32 := by norm_num
  have h11 : (cases.length : ℚ) / 10000000 ≤ 2 ^ 20 / 10000000 := div_le_div_of_nonneg_right hN (by norm_num)
  have h12 : (2 : ℚ) ^ 20 / 10000000 ≤ 1 / 5 := by norm_num
  linarith

end

/-! ## Examples -/

/-- Whole targets for the cases of the example matrix of C121. -/
def exWholeT : NumFeature ℚ :=
  ⟨([3, -2, 7, 3, 3, 40] : List ℚ).map .fin, List.replicate 6 false, "N:t", false⟩

theorem exWholeT_finite : exWholeT.Finite [0, 1, 2, 3, 4, 5] := by
  intro c hc
  fin_cases hc <;> exact ⟨_, rfl⟩

theorem exWholeT_whole : exWholeT.WholeOver 0 40 [0, 1, 2, 3, 4, 5] := by
  intro c hc
  fin_cases hc
  · exact ⟨3, by norm_num [exWholeT], by norm_num⟩
  · exact ⟨-2, by norm_num [exWholeT], by norm_num⟩
  · exact ⟨7, by norm_num [exWholeT], by norm_num⟩
  · exact ⟨3, by norm_num [exWholeT], by norm_num⟩
  · exact ⟨3, by norm_num [exWholeT], by norm_num⟩
  · exact ⟨40, by norm_num [exWholeT], by norm_num⟩

theorem exWholeSetting : SplitSetting (sseLaws exWholeT _ exWholeT_finite) exFM3 (numContrast exWholeT) (fun _ => True)
    ⟨3, 1, true, false, false, false⟩ exState.cans exState.oob where
  feats := exFM3_feats
  total3 h := by cases h
  contrast h := by cases h
  start := trivial
  leafSize := by decide
  exist := by decide
  mTry := by decide
  oobs := by decide

/-- The hypotheses of `c152_greedy_partial` are met: a bag of five cases, one of them twice. -/
example : ∃ root st', (∀ fuel, 6 < fuel → grow (treeGrowerR F64.round F64.cutoff exFM3 (sseTargetR F64.round exWholeT)
      (numContrast exWholeT) ⟨3, 1, true, false, false, false⟩ (fun _ => "p") 0 true) exFM3 fuel .fresh exState
        [5, 2, 4, 5, 0, 3] 0 0 = some (root, st')) ∧
    GreedyUpTo (6 * 40 ^ 2 / 2 ^ 45) exFM3 [0, 1, 2] exWholeT.sse 1 0 root [5, 2, 4, 5, 0, 3] 0 := by
  have := c152_greedy_partial exFM3_ok (cases := [5, 2, 4, 5, 0, 3]) (by decide) (by decide) exWholeT_finite (by norm_num)
    exWholeT_whole (by norm_num) (by decide) exWholeSetting rfl rfl rfl rfl exFM3_spaced
    (fun i hi F hF => (exFM3_plain i hi F hF).1) (fun _ => "p") 0 true
  norm_num at this ⊢
  exact this

/-- The hypotheses of `c152_whole_partial` are met by the same bag. -/
example : ∃ root st', (∀ fuel, 6 < fuel → grow (treeGrowerR F64.round F64.cutoff exFM3 (sseTargetR F64.round exWholeT)
      (numContrast exWholeT) ⟨3, 1, true, false, false, false⟩ (fun _ => "p") 0 true) exFM3 fuel .fresh exState
        [5, 2, 4, 5, 0, 3] 0 0 = some (root, st')) ∧
    ∀ c ∈ [5, 2, 4, 5, 0, 3], ∀ pred, (landing exFM3 root c).map (·.2) = some pred →
      (∀ d ∈ leafMates exFM3 root [5, 2, 4, 5, 0, 3] c, exWholeT.value d = exWholeT.value c) ∨
        exSplit.AlmostConstant (leafMates exFM3 root [5, 2, 4, 5, 0, 3] c) := by
  obtain ⟨root, st', h1, -, h2⟩ := c152_whole_partial exFM3_ok (cases := [5, 2, 4, 5, 0, 3]) (by decide) (by decide)
    exWholeT_finite exWholeT_whole (by norm_num) (by decide) exWholeSetting rfl rfl rfl rfl exFM3_spaced
    (fun i hi F hF => (exFM3_plain i hi F hF).1) rfl true (fun _ => "p") (i := 0) (F := exSplit) (by decide) rfl
    (by decide +kernel)
  exact ⟨root, st', h1, fun c hc pred hp => (h2 c hc pred hp).2⟩

/-- The leaves of that tree. -/
example : ((grow (treeGrowerR F64.round F64.cutoff exFM3 (sseTargetR F64.round exWholeT) (numContrast exWholeT)
      ⟨3, 1, true, false, false, false⟩ (fun _ => "p") 0 true) exFM3 7 .fresh exState
        [5, 2, 4, 5, 0, 3] 0 0).map fun r => [5, 2, 4, 5, 0, 3].map fun c => (landing exFM3 r.1 c).map (·.1)) =
    some [some [.L], some [.R, .L], some [.R, .R], some [.L], some [.R, .R], some [.R, .R]] := by
  decide +kernel

/-! ## Where it fails -/

/-- **C152 is false of the code,** as C131 is: two cases with targets 0 and 100 and different values stay in one leaf. -/
theorem c152_last_case :
    (grow (treeGrowerR F64.round F64.cutoff exFitFM (sseTargetR F64.round (exFitNum 0 100 0))
        (numContrast (exFitNum 0 100 0)) ⟨1, 1, false, false, false, false⟩ (fun _ => "") 0 false) exFitFM 4
        .fresh ⟨exWork.allocs, fun _ => 0, [0], []⟩ [0, 1] 0 0).map (fun r =>
          [0, 1].map fun c => (landing exFitFM r.1 c).map (·.1)) = some [some [], some []] := by
  decide +kernel

/-- **C152 is false of the code** where targets are not small: nine cases that all cost 19999.95 are divided, although their
exact impurity is zero. -/
theorem c152_divides_equal : exPrices.sse [0, 1, 2, 3, 4, 5, 6, 7, 8] = 0 ∧
    (grow (treeGrowerR F64.round F64.cutoff exPriceFM (sseTargetR F64.round exPrices)
        (numContrast exPrices) ⟨1, 4, false, false, false, false⟩ (fun _ => "") 0 false) exPriceFM 10
        .fresh ⟨exWork.allocs, fun _ => 0, [0], []⟩ [0, 1, 2, 3, 4, 5, 6, 7, 8] 0 0).map (fun r =>
          [0, 8].map fun c => (landing exPriceFM r.1 c).map (·.1)) = some [some [.L], some [.R]] := by
  decide +kernel

end CloudForest
