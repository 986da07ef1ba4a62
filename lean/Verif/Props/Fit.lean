import Verif.Spec.Fit
import Verif.Lemmas.Fit
import Verif.Props.Values
import Verif.Lemmas.Matrix
import Verif.Props.Greedy

/-!
# C130, C131: fully grown trees and their training cases
-/

set_option linter.unusedSectionVars false

namespace CloudForest
variable {K : Type} [Field K] [LinearOrder K] [IsStrictOrderedRing K] {τ : Type}

/-- A mixed leaf whose classes the feature tells apart can be divided to advantage. -/
theorem gini_offers_cube {f : CatFeature} {n : Nat} {F : NumFeature K} {cs : List Nat} (hf : f.InRange n cs)
    (hk : ∀ c ∈ cs, (Feature.num F).isMissing c = some false)
    (htell : ∀ c ∈ cs, ∀ d ∈ cs, F.value c = F.value d → f.catData[c]? = f.catData[d]?)
    (hv : ¬ F.AlmostConstant cs) (hmix : ∃ c ∈ cs, ∃ d ∈ cs, f.catData[c]? ≠ f.catData[d]?) :
    ∃ p, (Feature.num F).Divides p ∧ (Feature.num F).Room 1 p cs ∧
      1 / (cs.length : K) ^ 3 ≤ (Feature.num F).knownGain (f.gini K n) p cs ∧
      1 / (cs.length : K) ^ 3 ≤ (Feature.num F).gain3 (f.gini K n) p cs := by
  have hne : cs ≠ [] := by
    rintro rfl
    obtain ⟨c, hc, -⟩ := hmix
    cases hc
  obtain ⟨c, hc, hm, hroom⟩ := least_room hk hne hv
  obtain ⟨l, hl⟩ : ∃ l, l = cs.filter fun d => decide (F.value d ≤ F.value c) := ⟨_, rfl⟩
  obtain ⟨r, hr⟩ : ∃ r, r = cs.filter fun d => !decide (F.value d ≤ F.value c) := ⟨_, rfl⟩
  have hL : (Feature.num F).toLeft (fun d => decide (F.value d ≤ F.value c)) cs = l := by
    unfold Feature.toLeft
    rw [knowns_all hk, hl]
  have hR : (Feature.num F).toRight (fun d => decide (F.value d ≤ F.value c)) cs = r := by
    unfold Feature.toRight
    rw [knowns_all hk, hr]
  have hperm : (l ++ r).Perm cs := by
    rw [hl, hr]
    exact List.filter_append_perm _ _
  obtain ⟨k, hck, hkn⟩ := hf c hc
  have hcl : c ∈ l := by
    rw [hl]
    exact List.mem_filter.2 ⟨hc, by simp⟩
  have hlk : ∀ d ∈ l, f.catData[d]? = some k := by
    intro d hd
    rw [hl] at hd
    obtain ⟨h1, h2⟩ := List.mem_filter.1 hd
    rw [← hck]
    exact htell d h1 c hc (le_antisymm (of_decide_eq_true h2) (hm d h1))
  have hrk : ∃ d ∈ r, f.catData[d]? ≠ some k := by
    by_contra hno
    push Not at hno
    have hall : ∀ d ∈ cs, f.catData[d]? = some k := by
      intro d hd
      rcases List.mem_append.1 (hperm.mem_iff.2 hd) with h | h
      · exact hlk d h
      · exact hno d h
    obtain ⟨a, ha, b, hb, hab⟩ := hmix
    exact hab ((hall a ha).trans (hall b hb).symm)
  have hpart := gini_part (K := K) f n l r k hkn (List.ne_nil_of_mem hcl) hlk hrk
  have hmass : giniMass K f n (l ++ r) = giniMass K f n cs := by
    unfold giniMass
    rw [hperm.length_eq, gini_perm f n hperm]
  have hlr : (l.length + r.length : K) = cs.length := by
    rw [← hperm.length_eq, List.length_append]
    push_cast
    rfl
  rw [hmass, hlr] at hpart
  unfold giniMass at hpart
  have hpos : 0 < (cs.length : K) := by
    have := List.length_pos_iff.2 hne
    exact_mod_cast this
  have hgain : 1 / (cs.length : K) ^ 3 ≤
      f.gini K n cs - (l.length * f.gini K n l + r.length * f.gini K n r) / cs.length := by
    have e : f.gini K n cs - (l.length * f.gini K n l + r.length * f.gini K n r) / cs.length =
        (cs.length * f.gini K n cs - l.length * f.gini K n l - r.length * f.gini K n r) / cs.length := by
      field_simp
      ring
    have e' : 1 / (cs.length : K) ^ 3 = 1 / (cs.length : K) ^ 2 / cs.length := by
      field_simp
    rw [e, e']
    exact div_le_div_of_nonneg_right hpart hpos.le
  refine ⟨fun d => decide (F.value d ≤ F.value c), ⟨F.value c, fun _ => rfl⟩, hroom, ?_, ?_⟩
  · unfold Feature.knownGain
    rw [hL, hR, knowns_all hk]
    exact hgain
  · unfold Feature.gain3
    rw [hL, hR, missings_none hk]
    simpa using hgain

/-- A mixed leaf whose classes the feature tells apart is not the best it can be. -/
theorem gini_offers {f : CatFeature} {n : Nat} {F : NumFeature K} {cs : List Nat} (hf : f.InRange n cs)
    (hk : ∀ c ∈ cs, (Feature.num F).isMissing c = some false)
    (htell : ∀ c ∈ cs, ∀ d ∈ cs, F.value c = F.value d → f.catData[c]? = f.catData[d]?)
    (hv : ¬ F.AlmostConstant cs) (hlen : cs.length ≤ 215) (hmix : ∃ c ∈ cs, ∃ d ∈ cs, f.catData[c]? ≠ f.catData[d]?) :
    ∃ p, (Feature.num F).Offers (f.gini K n) 1 p cs ∧ 1 / 10000000 < (Feature.num F).gain3 (f.gini K n) p cs := by
  obtain ⟨p, h1, h2, h3, h4⟩ := gini_offers_cube (K := K) hf hk htell hv hmix
  have hpos : 0 < (cs.length : K) := by
    obtain ⟨c, hc, -⟩ := hmix
    have := List.length_pos_of_mem hc
    exact_mod_cast this
  have hN : (cs.length : K) ≤ 215 := by exact_mod_cast hlen
  have h : (1 : K) / 10000000 < 1 / (cs.length : K) ^ 3 := by
    rw [div_lt_div_iff₀ (by norm_num) (by positivity)]
    have : (cs.length : K) ^ 3 ≤ 215 ^ 3 := pow_le_pow_left₀ hpos.le hN 3
    norm_num at this ⊢
    linarith
  exact ⟨p, ⟨h1, h2, h.trans_le h3⟩, h.trans_le h4⟩

/-- A leaf whose targets vary is not the best it can be. -/
theorem sse_offers {f F : NumFeature K} {cs : List Nat} (hk : ∀ c ∈ cs, (Feature.num F).isMissing c = some false)
    (hne : cs ≠ []) (hv : ¬ F.AlmostConstant cs) (hmix : (cs.length : K) / 10000000 < f.sse cs) :
    ∃ p, (Feature.num F).Offers f.sse 1 p cs ∧ 1 / 10000000 < (Feature.num F).gain3 f.sse p cs := by
  obtain ⟨c, hc, hm, hroom⟩ := least_room hk hne hv
  obtain ⟨l, hl⟩ : ∃ l, l = cs.filter fun d => decide (F.value d ≤ F.value c) := ⟨_, rfl⟩
  obtain ⟨r, hr⟩ : ∃ r, r = cs.filter fun d => !decide (F.value d ≤ F.value c) := ⟨_, rfl⟩
  have hL : (Feature.num F).toLeft (fun d => decide (F.value d ≤ F.value c)) cs = l := by
    unfold Feature.toLeft
    rw [knowns_all hk, hl]
  have hR : (Feature.num F).toRight (fun d => decide (F.value d ≤ F.value c)) cs = r := by
    unfold Feature.toRight
    rw [knowns_all hk, hr]
  have hperm : (l ++ r).Perm cs := by
    rw [hl, hr]
    exact List.filter_append_perm _ _
  have hroom' := hroom
  obtain ⟨h1, h2⟩ := hroom'
  have h2 : 1 < ((Feature.num F).toRight (fun d => decide (F.value d ≤ F.value c)) cs).length := h2
  rw [hL] at h1
  rw [hR] at h2
  have hlr : (l.length + r.length : K) = cs.length := by
    rw [← hperm.length_eq, List.length_append]
    push_cast
    rfl
  have hl1 : (1 : K) ≤ l.length := by exact_mod_cast h1
  have hr1 : (1 : K) ≤ r.length := by exact_mod_cast h2.le
  have hsup := sse_superadd f l r
  rw [sse_perm f hperm] at hsup
  have hl0 := sse_nonneg f l
  have hr0 := sse_nonneg f r
  have hgain : 1 / 10000000 < f.sse cs - (l.length * f.sse l + r.length * f.sse r) / cs.length := by
    rw [← hlr] at hmix ⊢
    obtain ⟨x, hx⟩ : ∃ x : K, x = l.length := ⟨_, rfl⟩
    obtain ⟨y, hy⟩ : ∃ y : K, y = r.length := ⟨_, rfl⟩
    rw [← hx] at hl1 hmix ⊢
    rw [← hy] at hr1 hmix ⊢
    have hpos : 0 < x + y := by linarith
    have e : f.sse cs - (x * f.sse l + y * f.sse r) / (x + y) =
        ((x + y) * f.sse cs - x * f.sse l - y * f.sse r) / (x + y) := by
      field_simp
      ring
    rw [e, lt_div_iff₀ hpos]
    have a1 : x * f.sse l ≤ (x + y - 1) * f.sse l := mul_le_mul_of_nonneg_right (by linarith) hl0
    have a2 : y * f.sse r ≤ (x + y - 1) * f.sse r := mul_le_mul_of_nonneg_right (by linarith) hr0
    have a3 : (x + y - 1) * (f.sse l + f.sse r) ≤ (x + y - 1) * f.sse cs :=
      mul_le_mul_of_nonneg_left hsup (by linarith)
    have : (x + y - 1) * (f.sse l + f.sse r) = (x + y - 1) * f.sse l + (x + y - 1) * f.sse r := by ring
    have a4 : (x + y) * f.sse cs = (x + y - 1) * f.sse cs + f.sse cs := by ring
    have a5 : 1 / 10000000 * (x + y) = (x + y) / 10000000 := by ring
    rw [a5]
    linarith
  refine ⟨fun d => decide (F.value d ≤ F.value c), ⟨⟨F.value c, fun _ => rfl⟩, hroom, ?_⟩, ?_⟩
  · unfold Feature.knownGain
    rw [hL, hR, knowns_all hk]
    exact hgain
  · unfold Feature.gain3
    rw [hL, hR, missings_none hk]
    simpa using hgain

/-! ## C130 -/

theorem pure_predicted {f : CatFeature} (hf : f.Consistent) {S cs : List Nat} {c : Nat} (hp : S.Perm cs) (hc : c ∈ cs)
    (hknown : ∀ d ∈ cs, f.missing[d]? = some false) (hpure : ∀ d ∈ cs, f.catData[d]? = f.catData[c]?) :
    f.getStr c = f.findPredicted S := by
  have hk : knownOf f.missing S = S := by
    unfold knownOf
    rw [List.filter_eq_self]
    intro d hd
    rw [hknown d (hp.mem_iff.1 hd)]
    rfl
  have hlt : ∀ d ∈ S, d < f.missing.length := fun d hd =>
    (List.getElem?_eq_some_iff.1 (hknown d (hp.mem_iff.1 hd))).1
  have hcS : c ∈ S := hp.mem_iff.2 hc
  obtain ⟨s, m, h1, h2, h3⟩ := c38_cat f hf S hlt (by rw [hk]; exact List.ne_nil_of_mem hcS)
  rw [hk] at h3
  have hcl : c < f.catData.length := by rw [hf.lengths]; exact hlt c hcS
  have hck : f.catData[c]? = some f.catData[c] := List.getElem?_eq_getElem hcl
  have hcount : f.catCount S f.catData[c] = S.length := by
    unfold CatFeature.catCount
    rw [List.countP_eq_length]
    intro d hd
    rw [hpure d (hp.mem_iff.1 hd), hck]
    simp
  have hm : m = f.catData[c] := by
    have h4 := h3 f.catData[c]
    rw [hcount] at h4
    have h5 : f.catCount S m = S.length := le_antisymm List.countP_le_length h4
    unfold CatFeature.catCount at h5
    rw [List.countP_eq_length] at h5
    have := h5 c hcS
    rw [hck] at this
    simpa using (Eq.symm (by simpa using this))
  rw [CatFeature.getStr_known (hknown c hc), hck, h1, ← h2, hm]
  rfl

/-- The pieces of `c130_fits_partial` and `c131_fits_partial`: the tree is grown, its leaves offer nothing, and their
predictions are of the training cases in them. -/
theorem grown_leaves {fm : FeatureMatrix K} {T : Target K} {C : Contrast K τ} {good : τ → Prop} {o : SplitOpts}
    {all cases : List Nat} (hM : MatrixOk fm all) (hc : ∀ c ∈ cases, c ∈ all) {L : TargetLaws T all} {st : SplitState K}
    (hS : SplitSetting L fm C good o st.cans st.oob) (hok : L.Ok st.allocs) {imp : List Nat → K} (hw : L.Weighted imp)
    (hvet : o.vet = false) (hoob : o.evaloob = false) (hrand : o.extraRandom = false) (hall : o.mTry = st.cans.length)
    (hsome : ∀ i ∈ st.cans, ∀ F, fm.data[i]? = some F → F.Exhaustive ∧ F.NoNearTies (F.knowns all))
    (findPredicted : List Nat → String) (maxDepth : Int) (hmd : maxDepth ≤ 0) (splitmissing : Bool) :
    ∃ root st', (∀ fuel, cases.length < fuel →
        grow (treeGrower fm T C o findPredicted maxDepth splitmissing) fm fuel .fresh st cases 0 0 = some (root, st')) ∧
      (∀ c ∈ cases, ∀ pred, (landing fm root c).map (·.2) = some pred →
        (∃ S, S.Perm (leafMates fm root cases c) ∧ pred = findPredicted S) ∧
        ∀ i ∈ st.cans, ∀ F, fm.data[i]? = some F → ∀ p, F.Offers imp o.leafSize p (leafMates fm root cases c) →
          F.gain3 imp p (leafMates fm root cases c) ≤ 1 / 10000000) ∧
      ((∀ i ∈ st.cans, ∀ F, fm.data[i]? = some F → ∀ c ∈ cases, F.isMissing c = some false) →
        ∀ c ∈ cases, landing fm root c ≠ none) := by
  obtain ⟨root, st', h, hg⟩ := c121_greedy_partial hM hc hS hok hw hvet hoob hrand hall hsome findPredicted maxDepth
    splitmissing
  have hP : StateOk L fm st.cans st.oob st := ⟨hok, List.Perm.refl _, List.Perm.refl _⟩
  obtain ⟨h1, -, -⟩ := treeGrower_searchOk (fp := findPredicted) (md := maxDepth) (sm := splitmissing) hS
  have hplain : root.Plain := ((grow_grown (hM.mono hc) (h1.mono hc) (cases.length + 1) 0 "" st cases 0 0 root st' hP
    (Nat.zero_le _) (fun _ h => h) (h _ (Nat.lt_succ_self _))).2 false).plain
  have h8 := (c08_grow hM hc hS hok findPredicted maxDepth splitmissing (h _ (Nat.lt_succ_self _))).1
  refine ⟨root, st', h, fun c hcc pred hpred => ?_, fun hk c hcc => greedy_lands root hplain cases 0 hg hk c hcc⟩
  obtain ⟨⟨path, pred'⟩, hl, hpp⟩ := Option.map_eq_some_iff.1 hpred
  cases hpp
  have hmates : leafMates fm root cases c = cases.filter fun e => (landing fm root e).map (·.1) == some path := by
    unfold leafMates
    rw [hl]
    rfl
  rw [hmates]
  refine ⟨?_, greedy_landing hmd root hplain cases 0 hg c hcc path _ hl⟩
  rcases h8 (path, _) (landing_mem root c _ hl) with h | ⟨-, -, -, h⟩
  · exact h
  · exact absurd (by rw [hl]; rfl) (h c hcc)

/-- **C130.** `Tree.Grow` without limits (leaf size 1, no depth limit) for classes, trying every candidate, one of which is
a number that is known for all training cases and tells their classes apart: every training case that ends in a leaf gets
its own class there, unless that number is the same for all training cases in the leaf but one, or there are more than 215
of them. Missing from the full property: that exception (`c130_last_case`), and classes that only several features
together tell apart (`c130_xor`). -/
theorem c130_fits_partial {fm : FeatureMatrix K} {f : CatFeature} {n : Nat} {C : Contrast K τ} {good : τ → Prop}
    {o : SplitOpts} {all cases : List Nat} (hM : MatrixOk fm all) (hc : ∀ c ∈ cases, c ∈ all) (hf : f.InRange n all)
    {st : SplitState K} (hS : SplitSetting (giniLaws (K := K) f n all hf) fm C good o st.cans st.oob)
    (hok : (giniLaws (K := K) f n all hf).Ok st.allocs)
    (hvet : o.vet = false) (hoob : o.evaloob = false) (hrand : o.extraRandom = false) (hall : o.mTry = st.cans.length)
    (hsome : ∀ i ∈ st.cans, ∀ F, fm.data[i]? = some F → F.Exhaustive ∧ F.NoNearTies (F.knowns all))
    (hleaf : o.leafSize = 1) (splitmissing : Bool)
    (hcons : f.Consistent) (hknown : ∀ c ∈ cases, f.missing[c]? = some false)
    {i : Nat} {F : NumFeature K} (hi : i ∈ st.cans) (hF : fm.data[i]? = some (.num F))
    (hFk : ∀ c ∈ cases, (Feature.num F).isMissing c = some false)
    (htell : ∀ c ∈ cases, ∀ d ∈ cases, F.value c = F.value d → f.catData[c]? = f.catData[d]?) :
    ∃ root st', (∀ fuel, cases.length < fuel →
        grow (treeGrower fm (giniTarget f) C o (fun S => (f.findPredicted S).getD "") 0 splitmissing) fm fuel .fresh st
          cases 0 0 = some (root, st')) ∧
      ((∀ i ∈ st.cans, ∀ F, fm.data[i]? = some F → ∀ c ∈ cases, F.isMissing c = some false) →
        ∀ c ∈ cases, landing fm root c ≠ none) ∧
      ∀ c ∈ cases, ∀ pred, (landing fm root c).map (·.2) = some pred → (leafMates fm root cases c).length ≤ 215 →
        f.getStr c = some pred ∨ F.AlmostConstant (leafMates fm root cases c) := by
  obtain ⟨root, st', h, h1, h2⟩ := grown_leaves hM hc hS hok (giniLaws_weighted f n all hf) hvet hoob hrand hall hsome
    (fun S => (f.findPredicted S).getD "") 0 le_rfl splitmissing
  refine ⟨root, st', h, h2, fun c hcc pred hpred hlen => ?_⟩
  obtain ⟨⟨S, hperm, hS⟩, hoff⟩ := h1 c hcc pred hpred
  have hsub : ∀ d ∈ leafMates fm root cases c, d ∈ cases := fun d hd => (List.mem_filter.1 hd).1
  have hcm : c ∈ leafMates fm root cases c := List.mem_filter.2 ⟨hcc, by simp⟩
  by_cases hv : F.AlmostConstant (leafMates fm root cases c)
  · exact .inr hv
  left
  by_cases hpure : ∀ d ∈ leafMates fm root cases c, f.catData[d]? = f.catData[c]?
  · have hp := pure_predicted hcons hperm hcm (fun d hd => hknown d (hsub d hd)) hpure
    have hcl : c < f.catData.length := by
      rw [hcons.lengths]
      exact (List.getElem?_eq_some_iff.1 (hknown c hcc)).1
    have hk := hcons.valid c _ (hknown c hcc) (List.getElem?_eq_getElem hcl)
    have hg : f.getStr c = some f.cm.back[f.catData[c]] := by
      rw [CatFeature.getStr_known (hknown c hcc), List.getElem?_eq_getElem hcl]
      exact List.getElem?_eq_getElem hk
    rw [hS, ← hp, hg]
    rfl
  · exfalso
    push Not at hpure
    obtain ⟨d, hd, hdc⟩ := hpure
    obtain ⟨p, ho, hgain⟩ := gini_offers (K := K) (n := n) (fun e he => hf e (hc e (hsub e he)))
      (fun e he => hFk e (hsub e he)) (fun a ha b hb => htell a (hsub a ha) b (hsub b hb)) hv hlen ⟨d, hd, c, hcm, hdc⟩
    rw [hleaf] at hoff
    exact absurd (hoff i hi _ hF p ho) (not_le.2 hgain)

/-- **C130 for distinct values:** of up to 215 different training cases, which no two have the same value of some candidate,
each gets its own class, except for leaves with exactly two training cases. -/
theorem c130_distinct_partial {fm : FeatureMatrix K} {f : CatFeature} {n : Nat} {C : Contrast K τ} {good : τ → Prop}
    {o : SplitOpts} {all cases : List Nat} (hM : MatrixOk fm all) (hc : ∀ c ∈ cases, c ∈ all) (hf : f.InRange n all)
    {st : SplitState K} (hS : SplitSetting (giniLaws (K := K) f n all hf) fm C good o st.cans st.oob)
    (hok : (giniLaws (K := K) f n all hf).Ok st.allocs)
    (hvet : o.vet = false) (hoob : o.evaloob = false) (hrand : o.extraRandom = false) (hall : o.mTry = st.cans.length)
    (hsome : ∀ i ∈ st.cans, ∀ F, fm.data[i]? = some F → F.Exhaustive ∧ F.NoNearTies (F.knowns all))
    (hleaf : o.leafSize = 1) (splitmissing : Bool)
    (hcons : f.Consistent) (hknown : ∀ c ∈ cases, f.missing[c]? = some false)
    {i : Nat} {F : NumFeature K} (hi : i ∈ st.cans) (hF : fm.data[i]? = some (.num F))
    (hFk : ∀ c ∈ cases, (Feature.num F).isMissing c = some false) (hnd : cases.Nodup) (hlen : cases.length ≤ 215)
    (hinj : ∀ c ∈ cases, ∀ d ∈ cases, F.value c = F.value d → c = d) :
    ∃ root st', (∀ fuel, cases.length < fuel →
        grow (treeGrower fm (giniTarget f) C o (fun S => (f.findPredicted S).getD "") 0 splitmissing) fm fuel .fresh st
          cases 0 0 = some (root, st')) ∧
      ((∀ i ∈ st.cans, ∀ F, fm.data[i]? = some F → ∀ c ∈ cases, F.isMissing c = some false) →
        ∀ c ∈ cases, landing fm root c ≠ none) ∧
      ∀ c ∈ cases, ∀ pred, (landing fm root c).map (·.2) = some pred →
        f.getStr c = some pred ∨ (leafMates fm root cases c).length ≤ 2 := by
  obtain ⟨root, st', h1, h2, h3⟩ := c130_fits_partial hM hc hf hS hok hvet hoob hrand hall hsome hleaf splitmissing hcons
    hknown hi hF hFk (fun c hc d hd e => by rw [hinj c hc d hd e])
  refine ⟨root, st', h1, h2, fun c hcc pred hpred => ?_⟩
  have hsub : ∀ d ∈ leafMates fm root cases c, d ∈ cases := fun d hd => (List.mem_filter.1 hd).1
  have hle : (leafMates fm root cases c).length ≤ 215 := (List.length_filter_le _ _).trans hlen
  rcases h3 c hcc pred hpred hle with h | ⟨e, he, heq⟩
  · exact .inl h
  · right
    have hnd' : (leafMates fm root cases c).Nodup := hnd.filter _
    have hcard : ((leafMates fm root cases c).erase e).length ≤ 1 := by
      have hn := hnd'.erase e
      have hsub' : ∀ d ∈ (leafMates fm root cases c).erase e, d ∈ cases := fun d hd => hsub d (List.mem_of_mem_erase hd)
      match hl : (leafMates fm root cases c).erase e with
      | [] => simp
      | [_] => simp
      | a :: b :: t =>
        rw [hl] at hn heq hsub'
        exact absurd (hinj a (hsub' a (by simp)) b (hsub' b (by simp)) (heq a (by simp) b (by simp)))
          (fun h => by subst h; simp at hn)
    rw [List.length_erase_of_mem he] at hcard
    omega

/-- **C131.** `Tree.Grow` without limits for numbers, trying every candidate, one of which is a number that is known for
all training cases: in every leaf the squared deviation of the targets from their mean is at most `1e-7` on average, unless
that candidate has the same value for all training cases in the leaf but one. Missing from the full property: that exception
(`c131_last_case`), and targets that differ by less (`c131_small`). -/
theorem c131_fits_partial {fm : FeatureMatrix K} {f : NumFeature K} {C : Contrast K τ} {good : τ → Prop}
    {o : SplitOpts} {all cases : List Nat} (hM : MatrixOk fm all) (hc : ∀ c ∈ cases, c ∈ all) (hf : f.Finite all)
    {st : SplitState K} (hS : SplitSetting (sseLaws f all hf) fm C good o st.cans st.oob)
    (hvet : o.vet = false) (hoob : o.evaloob = false) (hrand : o.extraRandom = false) (hall : o.mTry = st.cans.length)
    (hsome : ∀ i ∈ st.cans, ∀ F, fm.data[i]? = some F → F.Exhaustive ∧ F.NoNearTies (F.knowns all))
    (hleaf : o.leafSize = 1) (splitmissing : Bool) (findPredicted : List Nat → String)
    {i : Nat} {F : NumFeature K} (hi : i ∈ st.cans) (hF : fm.data[i]? = some (.num F))
    (hFk : ∀ c ∈ cases, (Feature.num F).isMissing c = some false) :
    ∃ root st', (∀ fuel, cases.length < fuel →
        grow (treeGrower fm (sseTarget f) C o findPredicted 0 splitmissing) fm fuel .fresh st cases 0 0 =
          some (root, st')) ∧
      ((∀ i ∈ st.cans, ∀ F, fm.data[i]? = some F → ∀ c ∈ cases, F.isMissing c = some false) →
        ∀ c ∈ cases, landing fm root c ≠ none) ∧
      ∀ c ∈ cases, ∀ pred, (landing fm root c).map (·.2) = some pred →
        (∃ S, S.Perm (leafMates fm root cases c) ∧ pred = findPredicted S) ∧
        (((leafMates fm root cases c).map fun d => (f.value d - f.meanOf (leafMates fm root cases c)) ^ 2).sum ≤
            (leafMates fm root cases c).length / 10000000 ∨
          F.AlmostConstant (leafMates fm root cases c)) := by
  obtain ⟨root, st', h, h1, h2⟩ := grown_leaves hM hc hS trivial (sseLaws_weighted f all hf) hvet hoob hrand hall hsome
    findPredicted 0 le_rfl splitmissing
  refine ⟨root, st', h, h2, fun c hcc pred hpred => ?_⟩
  obtain ⟨hp, hoff⟩ := h1 c hcc pred hpred
  refine ⟨hp, ?_⟩
  have hsub : ∀ d ∈ leafMates fm root cases c, d ∈ cases := fun d hd => (List.mem_filter.1 hd).1
  have hcm : c ∈ leafMates fm root cases c := List.mem_filter.2 ⟨hcc, by simp⟩
  by_cases hv : F.AlmostConstant (leafMates fm root cases c)
  · exact .inr hv
  left
  by_contra hgt
  obtain ⟨p, ho, hgain⟩ := sse_offers (f := f) (fun e he => hFk e (hsub e he)) (List.ne_nil_of_mem hcm) hv (not_le.1 hgt)
  rw [hleaf] at hoff
  exact absurd (hoff i hi _ hF p ho) (not_le.2 hgain)

/-! ## Examples -/

/-- Classes for the cases of the example matrix of C121, which its first feature tells apart. -/
def exFitT : CatFeature := ["b", "a", "a", "b", "b", "a"].foldl (fun f v => f.append v) (.new "C:t")

theorem exFitT_consistent : exFitT.Consistent :=
  (cat_appends_reads _ (.new "C:t") [] (consistent_new _)
    ⟨rfl, fun i => by simp [CatFeature.new, CatFeature.getStr]⟩).1

theorem exFitT_inRange : exFitT.InRange 2 [0, 1, 2, 3, 4, 5] := by
  intro c hc
  have h : ∀ c ∈ [0, 1, 2, 3, 4, 5], ∃ k ∈ [0, 1], exFitT.catData[c]? = some k := by decide +kernel
  obtain ⟨k, hk, e⟩ := h c hc
  exact ⟨k, e, by fin_cases hk <;> decide⟩

theorem exFitSetting : SplitSetting (giniLaws (K := ℚ) exFitT 2 _ exFitT_inRange) exFM3
    (catContrast exFitT) (fun g => g.InRange 2 [0, 1, 2, 3, 4, 5] ∧
      g.missing.length = g.catData.length ∧ g.catData.length = exFitT.catData.length)
    ⟨3, 1, true, false, false, false⟩ exState.cans exState.oob where
  feats := exFM3_feats
  total3 _ := countLaws_total3 _ _ _ _ _
  contrast _ := catContrast_ok _ _ _ _ (by decide +kernel) _
  start := ⟨exFitT_inRange, by decide +kernel, rfl⟩
  leafSize := by decide
  exist := by decide
  mTry := by decide
  oobs := by decide

/-- The hypotheses of `c130_fits_partial` are met: a bag of five cases, one of them twice. -/
example : ∃ root st', (∀ fuel, 6 < fuel → grow (treeGrower exFM3 (giniTarget exFitT) (catContrast exFitT)
      ⟨3, 1, true, false, false, false⟩ (fun S => (exFitT.findPredicted S).getD "") 0 true) exFM3 fuel .fresh exState
        [5, 2, 4, 5, 0, 3] 0 0 = some (root, st')) ∧
    ∀ c ∈ [5, 2, 4, 5, 0, 3], ∀ pred, (landing exFM3 root c).map (·.2) = some pred →
      exFitT.getStr c = some pred ∨ exSplit.AlmostConstant (leafMates exFM3 root [5, 2, 4, 5, 0, 3] c) := by
  obtain ⟨root, st', h1, -, h2⟩ := c130_fits_partial exFM3_ok (cases := [5, 2, 4, 5, 0, 3]) (by decide) exFitT_inRange
    exFitSetting ⟨rfl, rfl, rfl⟩ rfl rfl rfl rfl exFM3_plain rfl true exFitT_consistent (by decide +kernel)
    (i := 0) (F := exSplit) (by decide) rfl (by decide +kernel) (by decide +kernel)
  refine ⟨root, st', h1, fun c hc pred hp => h2 c hc pred hp ?_⟩
  exact (List.length_filter_le _ _).trans (by decide)

/-- The hypotheses of `c130_distinct_partial` are met: five cases with five values. -/
example : ∃ root st', (∀ fuel, 5 < fuel → grow (treeGrower exFM3 (giniTarget exFitT) (catContrast exFitT)
      ⟨3, 1, true, false, false, false⟩ (fun S => (exFitT.findPredicted S).getD "") 0 true) exFM3 fuel .fresh exState
        [0, 1, 2, 3, 4] 0 0 = some (root, st')) ∧
    ∀ c ∈ [0, 1, 2, 3, 4], ∀ pred, (landing exFM3 root c).map (·.2) = some pred →
      exFitT.getStr c = some pred ∨ (leafMates exFM3 root [0, 1, 2, 3, 4] c).length ≤ 2 := by
  obtain ⟨root, st', h1, -, h2⟩ := c130_distinct_partial exFM3_ok (cases := [0, 1, 2, 3, 4]) (by decide) exFitT_inRange
    exFitSetting ⟨rfl, rfl, rfl⟩ rfl rfl rfl rfl exFM3_plain rfl true exFitT_consistent (by decide +kernel)
    (i := 0) (F := exSplit) (by decide) rfl (by decide +kernel) (by decide) (by decide) (by decide +kernel)
  exact ⟨root, st', h1, h2⟩

/-- Every case of that bag gets its class. -/
example : ((grow (treeGrower exFM3 (giniTarget exFitT) (catContrast exFitT) ⟨3, 1, true, false, false, false⟩
      (fun S => (exFitT.findPredicted S).getD "") 0 true) exFM3 7 .fresh exState [5, 2, 4, 5, 0, 3] 0 0).map fun r =>
        [5, 2, 4, 5, 0, 3].map fun c => (landing exFM3 r.1 c).map (·.2)) =
    some [some "a", some "a", some "b", some "a", some "b", some "b"] := by
  decide +kernel

/-- Two cases with different values and classes. -/
def exFitTwo : CatFeature := ["b", "a"].foldl (fun f v => f.append v) (.new "C:t")

/-- **C130 is false of the code.** Two cases with different values of the only feature stay in one leaf, and the second is
predicted to be of the class of the first: the search tries no threshold with a single case on the right
(densenumfeature.go:322-329). -/
theorem c130_last_case :
    exGreedyTwo.value 0 ≠ exGreedyTwo.value 1 ∧ exFitTwo.getStr 0 = some "b" ∧ exFitTwo.getStr 1 = some "a" ∧
    ((grow (treeGrower ⟨[.num exGreedyTwo], fun _ => some 0, []⟩ (giniTarget exFitTwo) (catContrast exFitTwo)
        ⟨1, 1, false, false, false, false⟩ (fun S => (exFitTwo.findPredicted S).getD "") 0 false)
        ⟨[.num exGreedyTwo], fun _ => some 0, []⟩ 3 .fresh ⟨exWork.allocs, fun _ => 0, [0], []⟩ [0, 1] 0 0).map fun r =>
          [0, 1].map fun c => (landing ⟨[.num exGreedyTwo], fun _ => some 0, []⟩ r.1 c).map (·.2)) =
      some [some "b", some "b"] := by
  decide +kernel

/-- Two features of four cases. -/
def exXorFM : FeatureMatrix ℚ :=
  ⟨[.num ⟨[.fin 0, .fin 0, .fin 1, .fin 1], List.replicate 4 false, "N:x", false⟩,
    .num ⟨[.fin 0, .fin 1, .fin 0, .fin 1], List.replicate 4 false, "N:y", false⟩],
    fun s => if s = "N:x" then some 0 else if s = "N:y" then some 1 else none, []⟩

/-- Their classes: whether the two differ. -/
def exXor : CatFeature := ["no", "yes", "yes", "no"].foldl (fun f v => f.append v) (.new "C:t")

/-- **C130 is false of the code** where only both features together tell the classes apart: no single division lowers the
impurity, the tree is one leaf and half of the training cases get the wrong class. -/
theorem c130_xor :
    (∀ c ∈ [0, 1, 2, 3], ∀ d ∈ [0, 1, 2, 3], c ≠ d → ∃ F ∈ exXorFM.data, match F with
      | .num f => f.value c ≠ f.value d
      | .cat _ => False) ∧
    [0, 1, 2, 3].map (fun c => exXor.getStr c) = [some "no", some "yes", some "yes", some "no"] ∧
    ((grow (treeGrower exXorFM (giniTarget exXor) (catContrast exXor) ⟨2, 1, false, false, false, false⟩
        (fun S => (exXor.findPredicted S).getD "") 0 false) exXorFM 5 .fresh ⟨exWork.allocs, fun _ => 0, [0, 1], []⟩
        [0, 1, 2, 3] 0 0).map fun r => [0, 1, 2, 3].map fun c => (landing exXorFM r.1 c).map (·.2)) =
      some [some "no", some "no", some "no", some "no"] := by
  refine ⟨?_, by decide +kernel, by decide +kernel⟩
  intro c hc d hd hne
  fin_cases hc <;> fin_cases hd <;> first
    | exact absurd rfl hne
    | exact ⟨_, List.mem_cons_self, by show _ ≠ _; decide +kernel⟩
    | exact ⟨_, List.mem_cons_of_mem _ List.mem_cons_self, by show _ ≠ _; decide +kernel⟩

/-- Three targets. -/
def exFitNum (a b c : ℚ) : NumFeature ℚ := ⟨[.fin a, .fin b, .fin c], List.replicate 3 false, "N:t", false⟩

/-- Three values. -/
def exFitFM : FeatureMatrix ℚ :=
  ⟨[.num ⟨[.fin 0, .fin 1, .fin 2], List.replicate 3 false, "N:x", false⟩], fun s => if s = "N:x" then some 0 else none, []⟩

/-- The leaf in which each case ends when a tree is grown without limits for a numerical target. -/
def exFitPaths (f : NumFeature ℚ) (cases : List Nat) : Option (List (Option (List Dir))) :=
  (grow (treeGrower exFitFM (sseTarget f) (numContrast f) ⟨1, 1, false, false, false, false⟩ (fun _ => "") 0 false) exFitFM 4
    .fresh ⟨exWork.allocs, fun _ => 0, [0], []⟩ cases 0 0).map fun r => cases.map fun c => (landing exFitFM r.1 c).map (·.1)

/-- **C131 is false of the code.** Two cases with targets 0 and 100 and different values stay in one leaf. -/
theorem c131_last_case : exFitPaths (exFitNum 0 100 0) [0, 1] = some [some [], some []] := by decide +kernel

/-- **C131 is false of the code.** Targets that differ by a ten-thousandth are never told apart, whatever their unit. -/
theorem c131_small : exFitPaths (exFitNum 0 0 (1 / 10000)) [0, 1, 2] = some [some [], some [], some []] ∧
    exFitPaths (exFitNum 0 0 1) [0, 1, 2] = some [some [.L], some [.R], some [.R]] := by decide +kernel

theorem exFitFM_feats : ∀ f ∈ exFitFM.data, FeatOk f [0, 1, 2] := by
  intro f hf
  simp only [exFitFM, List.mem_cons, List.not_mem_nil, or_false] at hf
  subst hf
  refine ⟨fun c hc => ?_, fun c hc => ?_, fun c hc => ?_⟩
  · fin_cases hc <;> exact ⟨by decide, by decide⟩
  · simp only [Feature.isMissing, List.getElem?_replicate] at hc
    split at hc <;> cases hc
  · have hc := List.mem_of_mem_filter hc
    fin_cases hc <;> exact ⟨_, rfl⟩

theorem exFitFM_ok : MatrixOk exFitFM [0, 1, 2] := by
  refine ⟨fun f hf => (exFitFM_feats f hf).valid, fun f hf => (exFitFM_feats f hf).sound, ?_, ?_⟩
  · intro f hf
    simp only [exFitFM, List.mem_cons, List.not_mem_nil, or_false] at hf
    subst hf
    trivial
  · intro i f hf
    match i, hf with
    | 0, hf => cases hf; rfl
    | n + 1, hf => cases hf

theorem exFitNum_finite (a b c : ℚ) : (exFitNum a b c).Finite [0, 1, 2] := by
  intro i hi
  fin_cases hi <;> exact ⟨_, rfl⟩

/-- The hypotheses of `c131_fits_partial` are met. -/
example : ∃ root st', (∀ fuel, 3 < fuel → grow (treeGrower exFitFM (sseTarget (exFitNum 0 0 1)) (numContrast (exFitNum 0 0 1))
      ⟨1, 1, false, false, false, false⟩ (fun _ => "") 0 false) exFitFM fuel .fresh ⟨exWork.allocs, fun _ => 0, [0], []⟩
        [0, 1, 2] 0 0 = some (root, st')) := by
  obtain ⟨root, st', h, -⟩ := c131_fits_partial exFitFM_ok (cases := [0, 1, 2]) (by decide) (exFitNum_finite 0 0 1)
    (C := numContrast (exFitNum 0 0 1)) (good := fun _ => True) (o := ⟨1, 1, false, false, false, false⟩)
    (st := ⟨exWork.allocs, fun _ => 0, [0], []⟩)
    ⟨exFitFM_feats, (fun h => by cases h), (fun h => by cases h), trivial, by decide, by decide, by decide, by decide⟩
    rfl rfl rfl rfl (by
      intro i hi F hF
      simp only [List.mem_cons, List.not_mem_nil, or_false] at hi
      subst hi
      cases hF
      refine ⟨trivial, ?_⟩
      show ∀ c ∈ _, ∀ d ∈ _, _ → _
      intro c hc d hd
      have hc := List.mem_of_mem_filter hc
      have hd := List.mem_of_mem_filter hd
      fin_cases hc <;> fin_cases hd <;> simp [NumFeature.value] <;> norm_num) rfl false (fun _ => "")
    (i := 0) (by decide) rfl (by decide +kernel)
  exact ⟨root, st', h⟩

end CloudForest
