import Verif.Props.Splitter

/-!
# Properties C64 and C65: what a feature is judged by, and when it counts as constant
-/

set_option linter.unusedSectionVars false

namespace CloudForest
variable {K : Type} [Field K] [LinearOrder K] [IsStrictOrderedRing K] {τ : Type}

/-! ## C64 -/

/-- **C64**, neither option: a feature is judged by what its search reports. -/
theorem c64_plain (fm : FeatureMatrix K) (T : Target K) (C : Contrast K τ) (o : SplitOpts) (ho : o.evaloob = false)
    (hv : o.vet = false) (p best : XF K) (s : Searching K τ) (i : Nat) (F : Feature K) (hF : fm.data[i]? = some F)
    (r : Found K) (w : Work K) (hr : F.bestSplit T p o.leafSize o.extraRandom s.work = some (r, w)) :
    evalFeature fm T C o p s best i = some (r, { s with work := w }) := by
  unfold evalFeature oobStep vetStep
  simp [hF, hr, ho, hv]

/-- **C64**, out-of-bag evaluation against a class target. If the split found on the sample beats the best so far,
the feature is judged by the Gini decrease of that split on the out-of-bag cases: the parent's impurity minus the
size-weighted mean of the impurities of the left, right and missing out-of-bag cases (the first two not empty). -/
theorem c64_oob_gini (fm : FeatureMatrix K) (t : CatFeature) (nt : Nat) (C : Contrast K τ) (o : SplitOpts)
    (ho : o.evaloob = true) (hv : o.vet = false) (p best : XF K) (s : Searching K τ) (i : Nat) (F : Feature K)
    (hF : fm.data[i]? = some F) (r : Found K) (w : Work K)
    (hr : F.bestSplit (giniTarget t) p o.leafSize o.extraRandom s.work = some (r, w)) (hb : best < r.imp)
    (ha : w.allocs.counter.length = nt ∧ w.allocs.lcounter.length = nt ∧ w.allocs.rcounter.length = nt)
    (code : Coded K) (hc : r.code = some code) (hfit : F.CodeFits code) (hval : ∀ c ∈ s.oob, F.ValidCase c)
    (ht : t.InRange nt s.oob) :
    ∃ sp, ThreeWay F.missTest (F.codedLeft code) s.oob sp ∧ (sp.left ≠ [] → sp.right ≠ [] →
      ∃ s', evalFeature fm (giniTarget t) C o p s best i =
        some (⟨some code, .fin (t.gini K nt s.oob - ((sp.left.length : K) * t.gini K nt sp.left +
          sp.right.length * t.gini K nt sp.right + sp.missing.length * t.gini K nt sp.missing) / s.oob.length),
          r.constant⟩, s')) := by
  obtain ⟨sp, -, -, -, e, h3, -⟩ := c01_coded_split F code hfit s.oob hval
  refine ⟨sp, h3, fun hl hrr => ?_⟩
  have hperm : s.oob.Perm (sp.left ++ sp.right ++ missBlock (some sp.missing)) := by
    refine h3.perm.symm.trans ?_
    rw [h3.order, List.append_assoc, List.append_assoc]
    exact List.perm_append_comm.append_left _
  have hcs : t.InRange nt sp.cases := fun c hc => ht c (h3.perm.mem_iff.1 hc)
  have hne : sp.cases ≠ [] := by
    rw [h3.order]
    simp [hl]
  obtain ⟨⟨a1, e1⟩, -⟩ := c14_gini t nt w.allocs ha.1 sp.cases hcs hne
  have ha1 : a1.counter.length = nt ∧ a1.lcounter.length = nt ∧ a1.rcounter.length = nt := by
    have hh : (giniTarget t).impurity w.allocs sp.cases = some (.fin (t.gini K nt sp.cases), a1) := e1
    have : countImpurity t giniFromCounts w.allocs sp.cases = some (.fin (t.gini K nt sp.cases), a1) := hh
    unfold countImpurity at this
    rw [countPerCat_eq t sp.cases w.allocs.counter (by rw [ha.1]; exact hcs), ha.1] at this
    simp only [Option.bind_eq_bind, Option.bind_some, Option.some.injEq, Prod.mk.injEq] at this
    rw [← this.2]
    exact ⟨counts_length _ _ _, ha.2.1, ha.2.2⟩
  obtain ⟨x, a2, e2, hx, -⟩ := c14_split t nt a1 ha1 sp.left sp.right (some sp.missing) s.oob ht hperm hl hrr
  refine ⟨⟨⟨w.cases, a2, w.rng⟩, sp.cases, s.contrast⟩, ?_⟩
  unfold evalFeature
  rw [hF]
  simp only [Option.bind_eq_bind, Option.bind_some]
  rw [hr]
  simp only [Option.bind_some]
  unfold oobStep
  rw [if_pos ⟨ho, hb⟩]
  simp only [Option.bind_eq_bind]
  rw [hc]
  simp only [Option.bind_some]
  rw [e]
  simp only [Option.bind_some]
  rw [e1]
  simp only [Option.bind_some]
  rw [e2]
  simp only [Option.bind_some]
  unfold vetStep
  rw [if_neg (fun h => by rw [hv] at h; exact absurd h.1 (by decide))]
  simp only [Option.bind_some]
  have hsub : (.fin (t.gini K nt sp.cases) - .fin x : XF K) = .fin (t.gini K nt s.oob -
      ((sp.left.length : K) * t.gini K nt sp.left + sp.right.length * t.gini K nt sp.right +
        sp.missing.length * t.gini K nt sp.missing) / s.oob.length) := by
    show XF.fin (_ + -x) = _
    rw [gini_perm t nt h3.perm, hx, sub_eq_add_neg]
    rfl
  rw [hsub]

/-- The out-of-bag cases 0, 3, 1 and 2 and the number feature of the example matrix. -/
example : (evalFeature exFM3 (giniTarget exSplitT) (catContrast exSplitT) ⟨2, 1, false, false, true, false⟩ (.fin (1 / 2))
    ⟨exWork, [0, 3, 1, 2], exSplitT⟩ minImp 0).map (·.1) = some ⟨some (.num (.fin (5 / 2))), .fin (1 / 2), false⟩ := by
  decide +kernel

example : ∃ sp, ThreeWay (Feature.num exSplit).missTest ((Feature.num exSplit).codedLeft (.num (.fin (5 / 2)))) [0, 3, 1, 2] sp ∧
    (sp.left ≠ [] → sp.right ≠ [] → ∃ s', evalFeature exFM3 (giniTarget exSplitT) (catContrast exSplitT)
      ⟨2, 1, false, false, true, false⟩ (.fin (1 / 2)) ⟨exWork, [0, 3, 1, 2], exSplitT⟩ minImp 0 =
      some (⟨some (.num (.fin (5 / 2))), .fin (exSplitT.gini ℚ 2 [0, 3, 1, 2] - ((sp.left.length : ℚ) * exSplitT.gini ℚ 2 sp.left +
          sp.right.length * exSplitT.gini ℚ 2 sp.right + sp.missing.length * exSplitT.gini ℚ 2 sp.missing) /
          ([0, 3, 1, 2] : List Nat).length), false⟩, s')) := by
  have hr : ∃ w, (Feature.num exSplit).bestSplit (giniTarget exSplitT) (.fin (1 / 2)) 1 false exWork =
      some (⟨some (.num (.fin (5 / 2))), .fin (1 / 2), false⟩, w) ∧
      w.allocs.counter.length = 2 ∧ w.allocs.lcounter.length = 2 ∧ w.allocs.rcounter.length = 2 := by
    have h1 : ((Feature.num exSplit).bestSplit (giniTarget exSplitT) (.fin (1 / 2)) 1 false exWork).map
        (fun x => (x.1, x.2.allocs.counter.length, x.2.allocs.lcounter.length, x.2.allocs.rcounter.length)) =
        some (⟨some (.num (.fin (5 / 2))), .fin (1 / 2), false⟩, 2, 2, 2) := by decide +kernel
    rw [Option.map_eq_some_iff] at h1
    obtain ⟨⟨r, w⟩, h2, h3⟩ := h1
    simp only [Prod.mk.injEq] at h3
    exact ⟨w, by rw [h2, ← h3.1], h3.2.1, h3.2.2.1, h3.2.2.2⟩
  obtain ⟨w, hw, ha⟩ := hr
  exact c64_oob_gini exFM3 exSplitT 2 (catContrast exSplitT) ⟨2, 1, false, false, true, false⟩ rfl rfl (.fin (1 / 2))
    minImp ⟨exWork, [0, 3, 1, 2], exSplitT⟩ 0 (.num exSplit) rfl _ w hw (by decide +kernel) ha _ rfl trivial
    (by intro c hc; simp at hc; rcases hc with rfl | rfl | rfl | rfl <;> exact ⟨by decide, by decide⟩)
    (by intro c hc; exact exSplitT_inRange c (by simp at hc ⊢; omega))

/-- **C64**, vetting: if the split found beats the best so far, the values of the contrast target are shuffled
among the cases, the feature is searched again against it, and the decrease found there is subtracted. -/
theorem c64_vet (fm : FeatureMatrix K) (T : Target K) (C : Contrast K τ) (o : SplitOpts) (ho : o.evaloob = false)
    (hv : o.vet = true) (p best : XF K) (s : Searching K τ) (i : Nat) (F : Feature K) (hF : fm.data[i]? = some F)
    (r : Found K) (w : Work K) (hr : F.bestSplit T p o.leafSize o.extraRandom s.work = some (r, w))
    (hb : best < r.imp) (found : Found K) (s' : Searching K τ)
    (he : evalFeature fm T C o p s best i = some (found, s')) :
    ∃ c rng v w', C.shuffle s.contrast w.cases w.rng = some (c, rng) ∧
      F.bestSplit (C.target c) p o.leafSize o.extraRandom ⟨w.cases, w.allocs, rng⟩ = some (v, w') ∧
      found = ⟨r.code, r.imp - v.imp, r.constant⟩ := by
  unfold evalFeature oobStep vetStep at he
  simp only [hF, hr, ho, hv, hb, Option.bind_eq_bind, Option.bind_some, Bool.false_eq_true, false_and, if_false,
    true_and, if_true] at he
  rw [Option.bind_eq_some_iff] at he
  obtain ⟨⟨x, s1⟩, h1, h2⟩ := he
  rw [Option.bind_eq_some_iff] at h1
  obtain ⟨⟨c, rng⟩, h3, h4⟩ := h1
  rw [Option.bind_eq_some_iff] at h4
  obtain ⟨⟨v, w'⟩, h5, h6⟩ := h4
  simp only [Option.some.injEq, Prod.mk.injEq] at h2 h6
  exact ⟨c, rng, v, w', h3, h5, by rw [← h2.1, ← h6.1]⟩

/-- On the example the vetted score is the reported decrease minus the decrease for the shuffled classes. -/
example : (evalFeature exFM3 (giniTarget exSplitT) (catContrast exSplitT) ⟨2, 1, false, true, false, false⟩ (.fin (1 / 2))
      ⟨exWork, [], exSplitT⟩ minImp 0).map (·.1.imp) = some (.fin (1 / 2 - 1 / 4)) ∧
    ((Feature.num exSplit).bestSplit (giniTarget exSplitT) (.fin (1 / 2)) 1 false exWork).map (·.1.imp) =
      some (.fin (1 / 2)) := by
  decide +kernel

/-- **C64 is false of the code** if all out-of-bag cases go to one side: the impurity of the empty side is NaN, and
so is the score. -/
theorem c64_one_sided :
    (evalFeature exFM3 (giniTarget exSplitT) (catContrast exSplitT) ⟨2, 1, false, false, true, false⟩ (.fin (1 / 2))
      ⟨exWork, [0, 3], exSplitT⟩ minImp 0).map (·.1) = some ⟨some (.num (.fin (5 / 2))), .nan, false⟩ ∧
    (Feature.num exSplit).lefts (.num (.fin (5 / 2))) [0, 3] = [] := by
  decide +kernel

/-- Six sampled cases and four others. -/
def exOob : FeatureMatrix ℚ :=
  ⟨[.num ⟨[.fin 3, .fin 1, .fin 2, .fin 5, .fin 4, .fin 2, .fin 1, .fin 2, .fin 5, .fin 6], List.replicate 10 false, "x", false⟩],
    fun s => if s = "x" then some 0 else none, []⟩

/-- Their classes. -/
def exOobT : CatFeature := ⟨.empty, [1, 0, 0, 1, 1, 0, 0, 0, 1, 0], List.replicate 10 false, "t", false, false⟩

/-- **C64 is false of the code** with both options: the search against the shuffled target runs on the out-of-bag
cases but starts from the impurity of the sampled ones, here 1/2, not from the 3/8 of the out-of-bag cases. The
out-of-bag score is 1/8. The decrease subtracted is 1/2, more than the whole impurity of the out-of-bag cases. -/
theorem c64_parent_impurity :
    exOobT.gini ℚ 2 [6, 7, 8, 9] = 3 / 8 ∧
    (evalFeature exOob (giniTarget exOobT) (catContrast exOobT) ⟨1, 1, false, false, true, false⟩ (.fin (1 / 2))
      ⟨exWork, [6, 7, 8, 9], exOobT⟩ minImp 0).map (·.1.imp) = some (.fin (1 / 8)) ∧
    (evalFeature exOob (giniTarget exOobT) (catContrast exOobT) ⟨1, 1, false, true, true, false⟩ (.fin (1 / 2))
      ⟨exWork, [6, 7, 8, 9], exOobT⟩ minImp 0).map (·.1.imp) = some (.fin (1 / 8 - 1 / 2)) := by
  decide +kernel

/-! ## C65 -/

/-- **C65.** A numerical feature is reported constant exactly when there are enough cases to split and any two
values differ by at most the cutoff. -/
theorem c65_constant_iff (f : NumFeature K) (T : Target K) (p : XF K) (leafSize : Nat) (randomSplit : Bool)
    (w : Work K) (hfin : f.Finite w.cases) (hne : w.cases ≠ []) (r : Found K) (w' : Work K)
    (h : f.bestNumSplit T p leafSize randomSplit w = some (r, w')) :
    r.constant = true ↔ 2 * leafSize ≤ w.cases.length ∧
      ∀ c ∈ w.cases, ∀ d ∈ w.cases, f.value d ≤ f.value c + cutoff := by
  unfold NumFeature.bestNumSplit at h
  by_cases hs : 2 * leafSize ≤ w.cases.length
  swap
  · rw [if_neg hs] at h
    cases h
    simp [hs]
  rw [if_pos hs, load_eq f w.cases hfin] at h
  obtain ⟨cs, vs, hsort, hperm, hvs, hpw⟩ := sorted_ok f w.cases
  simp only [Option.bind_eq_bind, Option.bind_some, hsort] at h
  have hlen : cs.length = w.cases.length := hperm.length_eq
  have hpos : 0 < w.cases.length := List.length_pos_of_ne_nil hne
  have h0 : 0 < cs.length := by omega
  have h1 : w.cases.length - 1 < cs.length := by omega
  have e0 : vs[0]? = some (.fin (f.value cs[0])) := by
    rw [hvs, List.getElem?_map, List.getElem?_eq_getElem h0]; rfl
  have e1 : vs[w.cases.length - 1]? = some (.fin (f.value cs[w.cases.length - 1])) := by
    rw [hvs, List.getElem?_map, List.getElem?_eq_getElem h1]; rfl
  rw [e0, e1] at h
  simp only [Option.bind_some, XF.fin_add, XF.fin_le] at h
  have hmono : ∀ i j (hi : i < cs.length) (hj : j < cs.length), i ≤ j → f.value cs[i] ≤ f.value cs[j] := by
    intro i j hi hj hij
    rcases hij.eq_or_lt with rfl | hlt
    · exact le_refl _
    · exact List.pairwise_iff_getElem.1 hpw i j hi hj hlt
  have hiff : f.value cs[w.cases.length - 1] ≤ f.value cs[0] + cutoff ↔
      ∀ c ∈ w.cases, ∀ d ∈ w.cases, f.value d ≤ f.value c + cutoff := by
    constructor
    · intro hle c hc d hd
      obtain ⟨i, hi, rfl⟩ := List.mem_iff_getElem.1 (hperm.mem_iff.2 hc)
      obtain ⟨j, hj, rfl⟩ := List.mem_iff_getElem.1 (hperm.mem_iff.2 hd)
      have := hmono 0 i h0 hi (Nat.zero_le _)
      have := hmono j (w.cases.length - 1) hj h1 (by omega)
      linarith
    · intro hall
      exact hall _ (hperm.mem_iff.1 (List.getElem_mem h0)) _ (hperm.mem_iff.1 (List.getElem_mem h1))
  by_cases hc : f.value cs[w.cases.length - 1] ≤ f.value cs[0] + cutoff
  · rw [if_pos hc] at h
    cases h
    exact iff_of_true rfl ⟨hs, hiff.1 hc⟩
  · rw [if_neg hc] at h
    rw [Option.bind_eq_some_iff] at h
    obtain ⟨⟨first, stop, rng⟩, -, h⟩ := h
    simp only at h
    split at h
    · cases h
    · rw [Option.bind_eq_some_iff] at h
      obtain ⟨⟨best, splitf, a⟩, -, h⟩ := h
      cases h
      exact iff_of_false (by simp) fun hh => hc (hiff.2 hh.2)

/-- The constant feature of the example matrix is recognised, the other numbers are not taken for constant. -/
example : (exConst.bestNumSplit (giniTarget exSplitT) (.fin (1 / 2)) 1 false exWork).map (·.1.constant) = some true ∧
    (exSplit.bestNumSplit (giniTarget exSplitT) (.fin (1 / 2)) 1 false exWork).map (·.1.constant) = some false := by
  decide +kernel

end CloudForest
