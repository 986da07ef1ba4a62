import Verif.Lemmas.AdaRun
import Verif.Props.Apply

/-!
# C133: adaptive boosting and the training error
-/

set_option linter.unusedSectionVars false

namespace CloudForest

theorem newAdaWeights_eq (f : CatFeature) {n : Nat} (hm : f.missing.length = n) (hn : n ≠ 0) :
    (newAdaWeights f : List (XF ℝ)) = finList n fun _ => 1 / (n : ℝ) := by
  have hn0 : (n : ℝ) ≠ 0 := by exact_mod_cast hn
  unfold newAdaWeights finList
  rw [hm, List.map_const', List.length_range]
  congr 1
  show XF.div (.fin 1) (.fin _) = _
  unfold XF.div
  simp only
  rw [if_neg hn0]

theorem ada_rounds {f : CatFeature} (hf : f.Consistent) {fm : FeatureMatrix ℝ} {n : Nat} (hn : n ≠ 0)
    (hm : f.missing = List.replicate n false) (hc : fm.allCases = some (List.range n)) (trees : List (Tree ℝ))
    (hu : ∀ t ∈ trees, Usable fm (List.range n) t.root) (hall : ∀ t ∈ trees, t.FromAll f fm n)
    (hmiss : ∀ t ∈ trees, ∃ i < n, t.opinion fm i ≠ f.className i) (w : Nat → ℝ) (hw : ∀ i < n, 0 < w i)
    (hs : ((List.range n).map w).sum = 1) :
    ∃ α : List ℝ, α.length = trees.length ∧ (∀ a ∈ α, 0 ≤ a) ∧
      adaRun realExpLog f fm (finList n w) trees =
        some (List.zipWith (fun t a => { t with weight := .fin a }) trees α) ∧
      ((List.range n).map fun i => w i * Real.exp ((List.zipWith (fun t a => adaSign f (leafPick f fm n t) i * a) trees α).sum) *
        (α.map Real.cosh).prod).sum = 1 := by
  induction trees generalizing w with
  | nil => exact ⟨[], rfl, nofun, rfl, by simpa using hs⟩
  | cons t ts ih =>
    obtain ⟨groups, preds, h1, h2, h3, h4, h5⟩ := fromAll_partition hf hm hc (hu t (by simp)) (hall t (by simp))
    obtain ⟨i, hi, hne⟩ := hmiss t (by simp)
    obtain ⟨a, ha, e, hpos, hsum⟩ := ada_round hn hm hw hs h3 h2 h4 ⟨i, hi, fun h => hne (by
      rw [(h5 i hi).1]
      unfold CatFeature.className
      rw [h]
      rfl)⟩
    obtain ⟨α, hlen, hα, er, hfin⟩ := ih (fun t ht => hu t (by simp [ht])) (fun t ht => hall t (by simp [ht]))
      (fun t ht => hmiss t (by simp [ht])) _ hpos hsum
    refine ⟨a :: α, by simp [hlen], ?_, ?_, ?_⟩
    · intro x hx
      rcases List.mem_cons.1 hx with rfl | hx
      · exact ha
      · exact hα x hx
    · rw [adaRun, h1]
      simp only [Option.bind_eq_bind, Option.bind_some]
      rw [e]
      simp only [Option.bind_some]
      rw [er]
      rfl
    · rw [← hfin]
      congr 1
      apply List.map_congr_left
      intro j _
      rw [List.zipWith_cons_cons, List.sum_cons, Real.exp_add, List.map_cons, List.prod_cons]
      ring

theorem ada_votes (fm : FeatureMatrix ℝ) (i : Nat) (name : String) (trees : List (Tree ℝ)) (α : List ℝ)
    (hlen : α.length = trees.length) (hα : ∀ a ∈ α, 0 ≤ a) (s : Tree ℝ → ℝ)
    (hs : ∀ t ∈ trees, s t = if t.opinion fm i = some name then -1 else 1) :
    (List.zipWith (fun t a => s t * a) trees α).sum = α.sum -
      2 * weightOf fm (List.zipWith (fun t a => ({ t with weight := .fin a } : Tree ℝ)) trees α) i name ∧
    ∀ p, p ≠ name → weightOf fm (List.zipWith (fun t a => ({ t with weight := .fin a } : Tree ℝ)) trees α) i p +
      weightOf fm (List.zipWith (fun t a => ({ t with weight := .fin a } : Tree ℝ)) trees α) i name ≤ α.sum := by
  have hw : ∀ (t : Tree ℝ) (ts : List (Tree ℝ)) p, weightOf fm (t :: ts) i p =
      (if t.opinion fm i = some p then t.say else 0) + weightOf fm ts i p := by
    intro t ts p
    unfold weightOf
    rw [List.filter_cons]
    by_cases h : t.opinion fm i = some p <;> simp [h]
  induction trees generalizing α with
  | nil =>
    cases α with
    | nil => exact ⟨by simp [weightOf], fun p _ => by simp [weightOf]⟩
    | cons a α => simp at hlen
  | cons t ts ih =>
    cases α with
    | nil => simp at hlen
    | cons a α =>
      obtain ⟨h1, h2⟩ := ih α (by simpa using hlen) (fun x hx => hα x (by simp [hx])) (fun t ht => hs t (by simp [ht]))
      have ha := hα a (by simp)
      have hop : ∀ p, ((({ t with weight := .fin a } : Tree ℝ).opinion fm i) = some p) = (t.opinion fm i = some p) := fun _ => rfl
      have hsay : ({ t with weight := .fin a } : Tree ℝ).say = a := by
        unfold Tree.say
        simp only
        rw [if_pos ha]
      simp only [List.zipWith_cons_cons, List.sum_cons, hw, hop, hsay]
      rw [h1, hs t (by simp)]
      refine ⟨?_, fun p hp => ?_⟩
      · by_cases h : t.opinion fm i = some name <;> simp only [h, if_true, if_false] <;> ring
      · have := h2 p hp
        by_cases h : t.opinion fm i = some name
        · have hnp : ¬ t.opinion fm i = some p := by rw [h]; intro h'; exact hp (by cases h'; rfl)
          simp only [h, if_true]
          rw [if_neg (by intro h'; exact hp (by cases h'; rfl))]
          linarith
        · simp only [h, if_false]
          split <;> linarith

/-- **C133.** Trees that predict from all cases, none of them perfect: if `AdaBoostTarget.Boost` weighs them one after the
other, the forest `applyforest -mode` applies to the training data makes at most `n / ∏ cosh α` mistakes, whatever the order
in which votes are compared, where `α` are the weights of its trees (the bound of Freund and Schapire: `1 / cosh α` is
`2 √(ε (1 - ε))` for a tree of weighted error `ε` below one half, and one for a tree of weight zero). What is missing from
C133: trees grown from samples, and perfect trees, for both of which it is false. -/
theorem c133_bound_partial (nt : NumText ℝ) (tanh : XF ℝ → XF ℝ) (o : ApplyOptions) (hsum : o.sum = false) (hmode : o.cat = true)
    (target : String) {f : CatFeature} (hf : f.Consistent) {fm : FeatureMatrix ℝ} {n : Nat} (hn : n ≠ 0)
    (hm : f.missing = List.replicate n false) (hc : fm.allCases = some (List.range n)) (trees : List (Tree ℝ))
    (hu : ∀ t ∈ trees, Usable fm (List.range n) t.root) (hall : ∀ t ∈ trees, t.FromAll f fm n)
    (hmiss : ∀ t ∈ trees, ∃ i < n, t.opinion fm i ≠ f.className i) :
    ∃ α : List ℝ, α.length = trees.length ∧ (∀ a ∈ α, 0 ≤ a) ∧
      adaRun realExpLog f fm (newAdaWeights f) trees =
        some (List.zipWith (fun t a => { t with weight := .fin a }) trees α) ∧
      ∃ bb, applyForest nt o ⟨target, List.zipWith (fun t a => { t with weight := .fin a }) trees α, .fin 0⟩ fm = some bb ∧
        ∀ res : Nat → Option String, (∀ i < n, bb.Predicts nt tanh o (.fin 0) i (res i)) →
          (mistakes f n res : ℝ) * (α.map Real.cosh).prod ≤ n := by
  have hn0 : (n : ℝ) ≠ 0 := by exact_mod_cast hn
  have hnp : (0 : ℝ) < n := lt_of_le_of_ne (Nat.cast_nonneg _) (Ne.symm hn0)
  have hstart := newAdaWeights_eq f (n := n) (by rw [hm, List.length_replicate]) hn
  obtain ⟨α, hlen, hα, e, hsum1⟩ := ada_rounds hf hn hm hc trees hu hall hmiss (fun _ => 1 / (n : ℝ))
    (fun _ _ => one_div_pos.2 hnp) (by
      rw [List.map_const', List.sum_replicate, List.length_range, nsmul_eq_mul]
      field_simp)
  refine ⟨α, hlen, hα, by rw [hstart, e], ?_⟩
  obtain ⟨ts, hts⟩ : ∃ ts, ts = List.zipWith (fun (t : Tree ℝ) a => ({ t with weight := .fin a } : Tree ℝ)) trees α := ⟨_, rfl⟩
  rw [← hts]
  have hmem : ∀ x ∈ ts, ∃ t ∈ trees, ∃ a ∈ α, x = { t with weight := .fin a } := by
    intro x hx
    rw [hts] at hx
    obtain ⟨i, hi, rfl⟩ := List.getElem_of_mem hx
    simp only [List.length_zipWith] at hi
    exact ⟨trees[i], List.getElem_mem _, α[i], List.getElem_mem _, by simp⟩
  obtain ⟨bb, hb, hres⟩ := c97_classes nt tanh o ⟨target, ts, .fin 0⟩ fm n hc (by
    intro x hx
    obtain ⟨t, ht, a, -, rfl⟩ := hmem x hx
    refine ⟨⟨a, rfl⟩, fun cs hcs => ?_⟩
    rw [hc] at hcs
    cases hcs
    exact hu t ht) rfl hsum (.inl hmode)
  refine ⟨bb, hb, fun res hpred => ?_⟩
  have hcosh : 0 < (α.map Real.cosh).prod := by
    apply List.prod_pos
    intro x hx
    obtain ⟨a, -, rfl⟩ := List.mem_map.1 hx
    exact Real.cosh_pos a
  -- a mistake has an exponent that is not negative
  have hbad : ∀ i < n, res i ≠ f.className i →
      0 ≤ (List.zipWith (fun t a => adaSign f (leafPick f fm n t) i * a) trees α).sum := by
    intro i hi hne
    obtain ⟨p, hp, hcase⟩ := (hres i hi).2 _ (hpred i hi)
    obtain ⟨k, hk, hlt⟩ : ∃ k, f.catData[i]? = some k ∧ k < f.cm.nCats :=
      hf.inRange [i] i (mem_knownOf.2 ⟨by simp, by rw [hm, List.getElem?_replicate, if_pos hi]⟩)
    have hname : f.className i = some (f.cm.back[k]'hlt) := by
      unfold CatFeature.className
      rw [hk]
      exact List.getElem?_eq_getElem hlt
    have hsign : ∀ t ∈ trees, adaSign f (leafPick f fm n t) i = if t.opinion fm i = some (f.cm.back[k]'hlt) then -1 else 1 := by
      intro t ht
      obtain ⟨-, -, -, -, -, -, h5⟩ := fromAll_partition hf hm hc (hu t ht) (hall t ht)
      rw [(h5 i hi).1]
      unfold adaSign
      rw [hk]
      by_cases h : k = leafPick f fm n t i
      · rw [if_neg (by simpa using h), if_pos (by rw [← h]; exact List.getElem?_eq_getElem hlt)]
      · rw [if_pos (by simpa using h), if_neg]
        intro h'
        apply h
        exact (hf.map.inj h' (List.getElem?_eq_getElem hlt)).symm
    obtain ⟨h1, h2⟩ := ada_votes fm i (f.cm.back[k]'hlt) trees α hlen hα
      (fun t => adaSign f (leafPick f fm n t) i) hsign
    rw [← hts] at h1 h2
    rw [h1]
    rcases hcase with ⟨-, hq⟩ | ⟨-, hq⟩
    · have := hq (f.cm.back[k]'hlt)
      have hs : 0 ≤ α.sum := List.sum_nonneg hα
      simp only at this
      linarith
    · have hpn : p ≠ f.cm.back[k]'hlt := by
        rintro rfl
        exact hne (by rw [hp, hname])
      have h3 := hq (f.cm.back[k]'hlt)
      have h4 := h2 p hpn
      simp only at h3
      linarith
  have hterm : ∀ i < n, (if res i ≠ f.className i then (1 : ℝ) else 0) * ((α.map Real.cosh).prod / n) ≤
      1 / (n : ℝ) * Real.exp ((List.zipWith (fun t a => adaSign f (leafPick f fm n t) i * a) trees α).sum) *
        (α.map Real.cosh).prod := by
    intro i hi
    have hpe := Real.exp_pos (List.zipWith (fun t a => adaSign f (leafPick f fm n t) i * a) trees α).sum
    split
    · next h =>
      have := Real.one_le_exp (hbad i hi h)
      rw [one_mul, div_mul_eq_mul_div, one_mul, div_mul_eq_mul_div]
      refine div_le_div_of_nonneg_right ?_ hnp.le
      nlinarith
    · rw [zero_mul]
      positivity
  have hcount : (mistakes f n res : ℝ) * ((α.map Real.cosh).prod / n) =
      ((List.range n).map fun i => (if res i ≠ f.className i then (1 : ℝ) else 0) * ((α.map Real.cosh).prod / n)).sum := by
    unfold mistakes
    induction List.range n with
    | nil => simp
    | cons a l ih =>
      rw [List.map_cons, List.sum_cons, ← ih, List.countP_cons]
      by_cases h : res a = f.className a <;> simp [h]
      ring
  have hle : (mistakes f n res : ℝ) * ((α.map Real.cosh).prod / n) ≤ 1 := by
    rw [hcount]
    refine le_trans (List.sum_le_sum ?_) hsum1.le
    intro i hi
    exact hterm i (List.mem_range.1 hi)
  rw [mul_div_assoc', div_le_iff₀ hnp, one_mul] at hle
  exact hle

/-! ## An example, and where it is false -/

/-- The classes a, a, b, b, a. -/
def exAdaClass : CatFeature := ["a", "a", "b", "b", "a"].foldl CatFeature.append (.new "C:y")

/-- One feature, that tells the cases 0 and 1 from the others. -/
def exAdaFM : FeatureMatrix ℝ :=
  ⟨[.cat (["u", "u", "v", "v", "v"].foldl CatFeature.append (.new "C:x"))], fun s => if s = "C:x" then some 0 else none, []⟩

/-- A leaf. -/
def exAdaLeaf (p : String) : Node ℝ := .mk none 0 .nil .nil .nil p none

/-- A tree of one division, and a tree of one leaf. -/
def exAdaTrees : List (Tree ℝ) :=
  [⟨.mk none 0 (exAdaLeaf "a") (exAdaLeaf "b") .nil "" (some ⟨"C:x", false, .nan, ["u"]⟩), "C:y", .fin (-1)⟩,
    ⟨exAdaLeaf "a", "C:y", .fin (-1)⟩]

theorem consistent_appends {f : CatFeature} (hf : f.Consistent) (l : List String) : (l.foldl CatFeature.append f).Consistent := by
  induction l generalizing f with
  | nil => exact hf
  | cons s l ih => exact ih (hf.append s)

/-- The hypotheses of `c133_bound_partial` are met. -/
example (nt : NumText ℝ) (tanh : XF ℝ → XF ℝ) : ∃ α : List ℝ, α.length = 2 ∧
    adaRun realExpLog exAdaClass exAdaFM (newAdaWeights exAdaClass) exAdaTrees =
      some (List.zipWith (fun t a => { t with weight := .fin a }) exAdaTrees α) := by
  have hu : ∀ t ∈ exAdaTrees, Usable exAdaFM (List.range 5) t.root := by
    intro t ht
    simp only [exAdaTrees, List.mem_cons, List.not_mem_nil, or_false] at ht
    rcases ht with rfl | rfl
    · refine ⟨⟨_, rfl, ?_, ?_⟩, ⟨rfl, rfl⟩, ⟨rfl, rfl⟩, .inl rfl⟩
      · exact fun c h => (consistent_appends (consistent_new "C:x") _).missing c h
      · intro c hc
        refine ⟨?_, ?_, (consistent_appends (consistent_new "C:x") _).valid c⟩ <;> fin_cases hc <;> decide
    · exact ⟨rfl, rfl⟩
  have hall : ∀ t ∈ exAdaTrees, t.FromAll exAdaClass exAdaFM 5 := by
    intro t ht i hi
    simp only [exAdaTrees, List.mem_cons, List.not_mem_nil, or_false] at ht
    rcases ht with rfl | rfl <;> interval_cases i <;> exact ⟨_, _, rfl, by decide +kernel⟩
  obtain ⟨α, h1, -, h2, -⟩ := c133_bound_partial nt tanh ⟨false, false, false, true⟩ rfl rfl "C:y"
    (consistent_appends (consistent_new "C:y") _ : exAdaClass.Consistent) (fm := exAdaFM) (n := 5) (by decide) rfl rfl exAdaTrees hu hall (by
      intro t ht
      simp only [exAdaTrees, List.mem_cons, List.not_mem_nil, or_false] at ht
      rcases ht with rfl | rfl
      · exact ⟨4, by decide, by decide +kernel⟩
      · exact ⟨2, by decide, by decide +kernel⟩)
  exact ⟨α, h1, h2⟩

/-- Nine cases of class a and one of class b. -/
def exAdaTen : CatFeature := ["a", "a", "a", "a", "a", "a", "a", "a", "a", "b"].foldl CatFeature.append (.new "C:y")

/-- **C133 is false of the code** for a tree that is grown from a sample: a sample of ten cases with six times the last gives a
leaf that predicts "b", and is wrong for nine of the ten cases. `Boost` takes it to be wrong for one, and gives it the weight
`log 3`: the bound allows six mistakes. -/
theorem c133_bag (nt : NumText ℝ) (tanh : XF ℝ → XF ℝ) :
    exAdaTen.findPredicted [9, 9, 0, 9, 9, 4, 9, 2, 9, 7] = some "b" ∧
    adaRun realExpLog exAdaTen ⟨[.cat exAdaTen], fun _ => some 0, []⟩ (newAdaWeights exAdaTen) [⟨exAdaLeaf "b", "C:y", .fin (-1)⟩] =
      some [⟨exAdaLeaf "b", "C:y", .fin (Real.log 3)⟩] ∧
    ∃ bb, applyForest nt ⟨false, false, false, true⟩ ⟨"C:y", [⟨exAdaLeaf "b", "C:y", .fin (Real.log 3)⟩], .fin 0⟩
        ⟨[.cat exAdaTen], fun _ => some 0, []⟩ = some bb ∧
      ∀ res : Nat → Option String, (∀ i < 10, bb.Predicts nt tanh ⟨false, false, false, true⟩ (.fin 0) i (res i)) →
        (10 : ℝ) < mistakes exAdaTen 10 res * Real.cosh (Real.log 3) := by
  have hlog : 0 < Real.log 3 := Real.log_pos (by norm_num)
  refine ⟨by decide +kernel, ?_, ?_⟩
  · have hstart : (newAdaWeights exAdaTen : List (XF ℝ)) = finList 10 fun _ => 1 / (10 : ℝ) := by
      rw [newAdaWeights_eq exAdaTen (n := 10) rfl (by decide)]
      push_cast
      rfl
    have hpart : (⟨exAdaLeaf "b", "C:y", .fin (-1)⟩ : Tree ℝ).partition ⟨[.cat exAdaTen], fun _ => some 0, []⟩ =
        some ([[0, 1, 2, 3, 4, 5, 6, 7, 8, 9]], ["b"]) := rfl
    have hl : exAdaTen.Leaves 10 [[0, 1, 2, 3, 4, 5, 6, 7, 8, 9]] := by
      refine ⟨by decide, ?_, by decide⟩
      intro leaf hlf c hcl
      have hlt : c < 10 := by
        simp only [List.mem_cons, List.not_mem_nil, or_false] at hlf
        subst hlf
        simp at hcl
        omega
      have hmc : exAdaTen.missing[c]? = some false := by interval_cases c <;> rfl
      exact (consistent_appends (consistent_new "C:y") _ : exAdaTen.Consistent).inRange [c] c (mem_knownOf.2 ⟨by simp, hmc⟩)
    have herr : weightedError exAdaTen (adaPick exAdaTen) (fun _ => 1 / (10 : ℝ)) [[0, 1, 2, 3, 4, 5, 6, 7, 8, 9]] = 1 / 10 := by
      unfold weightedError
      have : ([0, 1, 2, 3, 4, 5, 6, 7, 8, 9].filter fun c =>
          decide (exAdaTen.catData[c]? ≠ some (adaPick exAdaTen [0, 1, 2, 3, 4, 5, 6, 7, 8, 9]))) = [9] := by decide +kernel
      rw [List.map_singleton, List.sum_singleton, this]
      simp
    have key := adaBoost_eq realExpLog realExpLog_lawful exAdaTen 10 (by decide) rfl (fun _ => 1 / (10 : ℝ))
      (fun _ _ => by norm_num) _ hl (by rw [herr]; norm_num)
    rw [herr, if_neg (by norm_num)] at key
    have hα : (1 : ℝ) / 2 * Real.log ((1 - 1 / 10) / (1 / 10)) = Real.log 3 := by
      rw [show ((1 : ℝ) - 1 / 10) / (1 / 10) = 3 ^ 2 by norm_num, Real.log_pow]
      push_cast
      ring
    simp only [hα] at key
    rw [adaRun, hpart]
    simp only [Option.bind_eq_bind, Option.bind_some]
    rw [hstart, key]
    rfl
  · obtain ⟨bb, hb, hres⟩ := c97_classes nt tanh ⟨false, false, false, true⟩
      ⟨"C:y", [⟨exAdaLeaf "b", "C:y", .fin (Real.log 3)⟩], .fin 0⟩ ⟨[.cat exAdaTen], fun _ => some 0, []⟩ 10 rfl (by
        intro t ht
        simp only [List.mem_cons, List.not_mem_nil, or_false] at ht
        subst ht
        exact ⟨⟨_, rfl⟩, fun _ _ => ⟨rfl, rfl⟩⟩) rfl rfl (.inl rfl)
    refine ⟨bb, hb, fun res hpred => ?_⟩
    have hw : ∀ i p, weightOf ⟨[.cat exAdaTen], fun _ => some 0, []⟩ [(⟨exAdaLeaf "b", "C:y", .fin (Real.log 3)⟩ : Tree ℝ)] i p =
        if "b" = p then Real.log 3 else 0 := by
      intro i p
      have hop : (⟨exAdaLeaf "b", "C:y", .fin (Real.log 3)⟩ : Tree ℝ).opinion ⟨[.cat exAdaTen], fun _ => some 0, []⟩ i = some "b" := rfl
      have hsay : (⟨exAdaLeaf "b", "C:y", .fin (Real.log 3)⟩ : Tree ℝ).say = Real.log 3 := by
        unfold Tree.say
        simp only
        rw [if_pos hlog.le]
      unfold weightOf
      rw [List.filter_cons, hop]
      by_cases h : "b" = p
      · subst h; simp [hsay]
      · simp [h]
    have hb' : ∀ i < 10, res i = some "b" := by
      intro i hi
      obtain ⟨p, hp, hcase⟩ := (hres i hi).2 _ (hpred i hi)
      simp only [hw] at hcase
      rcases hcase with ⟨-, hq⟩ | ⟨hq, -⟩
      · have := hq "b"
        rw [if_pos rfl] at this
        linarith
      · by_cases h : "b" = p
        · rw [hp, h]
        · rw [if_neg h] at hq
          exact absurd hq (lt_irrefl _)
    have hmis : mistakes exAdaTen 10 res = 9 := by
      have : mistakes exAdaTen 10 res = mistakes exAdaTen 10 fun _ => some "b" := by
        unfold mistakes
        apply List.countP_congr
        intro i hi
        rw [hb' i (List.mem_range.1 hi)]
      rw [this]
      decide +kernel
    rw [hmis, Real.cosh_eq, Real.exp_neg, Real.exp_log (by norm_num)]
    norm_num

end CloudForest
