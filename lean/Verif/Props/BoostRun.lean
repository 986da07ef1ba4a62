import Verif.Spec.BoostRun
import Verif.Lemmas.BoostRun
import Verif.Props.Run
import Verif.Props.Greedy
import Mathlib.Tactic.IntervalCases

/-!
# C132: gradient boosting and the training error
-/

set_option linter.unusedSectionVars false

namespace CloudForest
variable {K : Type} [Field K] [LinearOrder K] [IsStrictOrderedRing K] {τ : Type}

theorem boost_trees {b : BoostSetup K τ} {nt : NumText K} (hnt : ∀ x, nt.parse (nt.fmt x) = some x) {fm : FeatureMatrix K}
    {n : Nat} {f : NumFeature K} (hti : fm.data[b.ti]? = some (.num f)) (hf : (Feature.num f).length = n)
    (hc : fm.allCases = some (List.range n)) (hM : MatrixOk fm (List.range n))
    (hfeat : ∀ F ∈ fm.data, FeatOk F (List.range n)) (hvet : b.o.vet = false) (hoob : b.o.evaloob = false)
    (hleaf : 1 ≤ b.o.leafSize) (lr : K) (mean : XF K) (bags : List (List Nat))
    (hbags : ∀ bag ∈ bags, bag.Perm (List.range n)) :
    ∀ (st : SplitState K), (∀ i ∈ st.cans, i < fm.data.length) → b.ti ∉ st.cans → b.o.mTry ≤ st.cans.length →
      (∀ c ∈ st.oob, c < n) → ∀ v : Nat → K,
    ∃ ts : List (Tree K), b.trees nt true .fresh ⟨{ fm with data := fm.data.set b.ti (.num (withValues f n v)) },
          ⟨withValues f n v, .fin lr, mean⟩, st⟩ bags = some (ts.map fun t => ({ t with weight := .fin lr } : Tree K)) ∧
      ts.length = bags.length ∧
      (∀ t ∈ ts, Usable fm (List.range n) t.root ∧ t.FiniteFor (fun p => nt.parse p.toList) fm n) ∧
      ∀ k (hk : k < ts.length),
        ((List.range n).map fun i => (v i - lr * ((ts.take k).map fun t => treeValue (fun p => nt.parse p.toList) fm t i).sum) *
            treeValue (fun p => nt.parse p.toList) fm ts[k] i).sum =
          ((List.range n).map fun i => treeValue (fun p => nt.parse p.toList) fm ts[k] i ^ 2).sum := by
  induction bags with
  | nil => intro st _ _ _ _ v; exact ⟨[], rfl, rfl, nofun, fun k hk => absurd hk (Nat.not_lt_zero _)⟩
  | cons bag bags ih =>
    intro st h1 h2 h3 h4 v
    obtain ⟨t, st', e, hu, hfor, hsum, hcans, hoobs⟩ := boost_tree hnt hti hf hc hM hfeat hvet hoob hleaf h1 h2 h3 h4 lr mean v
      (hbags bag (by simp))
    obtain ⟨ts, e', hlen, hall, hk⟩ := ih (fun x hx => hbags x (by simp [hx])) st' (fun i hi => h1 i (hcans.mem_iff.1 hi))
      (fun h => h2 (hcans.mem_iff.1 h)) (by rw [hcans.length_eq]; exact h3) (fun c hcc => h4 c (hoobs.mem_iff.1 hcc))
      (fun i => v i - lr * treeValue (fun p => nt.parse p.toList) fm t i)
    refine ⟨t :: ts, ?_, by simp [hlen], ?_, ?_⟩
    · rw [BoostSetup.trees, e]
      simp only [Option.bind_eq_bind, Option.bind_some, if_true]
      rw [e']
      rfl
    · intro x hx
      rcases List.mem_cons.1 hx with rfl | hx
      · exact ⟨hu, hfor⟩
      · exact hall x hx
    · intro k hk'
      cases k with
      | zero => simpa using hsum
      | succ k =>
        rw [List.getElem_cons_succ, ← hk k (by simpa using hk')]
        congr 1
        apply List.map_congr_left
        intro i _
        rw [List.take_succ_cons, List.map_cons, List.sum_cons]
        ring

/-- **C132.** With new trees grown from all cases and a learning rate of at most two, no tree of gradient boosting increases
the squared error of the model on its training cases: `P k i` is what the model's first `k` trees predict for case `i`
(`applyforest -sum`). The decrease is exactly `(2 - lr) / lr` times the squared change of the predictions. What is missing
from C132: bagging, and the tree object that growforest grows again, for both of which it is false. -/
theorem c132_error_partial {b : BoostSetup K τ} {nt : NumText K} (hnt : ∀ x, nt.parse (nt.fmt x) = some x)
    {fm : FeatureMatrix K} {n : Nat} (hn : n ≠ 0) {f : NumFeature K} {y : Nat → K}
    (hti : fm.data[b.ti]? = some (.num f)) (hc : fm.allCases = some (List.range n))
    (hm : f.missing.length = n) (hl : f.numData.length = n) (hy : ∀ i < n, f.numData[i]? = some (.fin (y i)))
    (hM : MatrixOk fm (List.range n)) (hfeat : ∀ F ∈ fm.data, FeatOk F (List.range n))
    (hvet : b.o.vet = false) (hoob : b.o.evaloob = false) (hleaf : 1 ≤ b.o.leafSize) {st : SplitState K}
    (hexist : ∀ i ∈ st.cans, i < fm.data.length) (havoid : b.ti ∉ st.cans) (hmTry : b.o.mTry ≤ st.cans.length)
    (hst : ∀ c ∈ st.oob, c < n) {lr : K} (hlr : 0 ≤ lr) (hlr2 : lr ≤ 2) {bags : List (List Nat)}
    (hbags : ∀ bag ∈ bags, bag.Perm (List.range n)) :
    ∃ ic trees, b.run nt true fm (.fin lr) st bags = some (ic, trees) ∧ trees.length = bags.length ∧
      ∃ P : Nat → Nat → K,
        (∀ k, applySum (fun p => nt.parse p.toList) ic (trees.take k) fm =
          some ((List.range n).map fun i => .fin (P k i))) ∧
        ∀ k < bags.length,
          lr * (squaredError n y (P k) - squaredError n y (P (k + 1))) =
            (2 - lr) * ((List.range n).map fun i => (P (k + 1) i - P k i) ^ 2).sum ∧
          squaredError n y (P (k + 1)) ≤ squaredError n y (P k) := by
  have hf : (Feature.num f).length = n := hm
  have e0 := newGradBoost_values f (.fin lr) n y hm (finList_eq hl hy) hn
  obtain ⟨prior, hprior⟩ : ∃ p, p = ((List.range n).map y).sum / (n : K) := ⟨_, rfl⟩
  rw [← hprior] at e0
  obtain ⟨ts, e1, hlen, hall, hk⟩ := boost_trees hnt hti hf hc hM hfeat hvet hoob hleaf lr (.fin prior) bags hbags st hexist
    havoid hmTry hst (fun i => y i - prior)
  refine ⟨.fin prior, ts.map fun t => { t with weight := .fin lr }, ?_, by simp [hlen],
    fun k i => prior + lr * ((ts.take k).map fun t => treeValue (fun p => nt.parse p.toList) fm t i).sum, ?_, ?_⟩
  · unfold BoostSetup.run
    rw [hti]
    simp only [Option.bind_eq_bind, Option.bind_some]
    rw [e0]
    simp only [Option.bind_some]
    rw [e1]
    rfl
  · intro k
    rw [← List.map_take]
    exact applySum_eq (fun p => nt.parse p.toList) fm n lr prior (ts.take k) hc hlr fun t ht => hall t (List.mem_of_mem_take ht)
  · intro k hkb
    have hkt : k < ts.length := by omega
    have horth := hk k hkt
    obtain ⟨u, hu⟩ : ∃ u : Nat → K, u = fun i => treeValue (fun p => nt.parse p.toList) fm ts[k] i := ⟨_, rfl⟩
    obtain ⟨w, hw⟩ : ∃ w : Nat → K, w = fun i => y i - (prior + lr *
      ((ts.take k).map fun t => treeValue (fun p => nt.parse p.toList) fm t i).sum) := ⟨_, rfl⟩
    have horth' : ((List.range n).map fun i => w i * u i).sum = ((List.range n).map fun i => u i ^ 2).sum := by
      rw [hu, hw, ← horth]
      congr 1
      apply List.map_congr_left
      intro i _
      ring
    have hnext : ∀ i, prior + lr * ((ts.take (k + 1)).map fun t => treeValue (fun p => nt.parse p.toList) fm t i).sum =
        prior + lr * ((ts.take k).map fun t => treeValue (fun p => nt.parse p.toList) fm t i).sum + lr * u i := by
      intro i
      rw [List.take_succ_eq_append_getElem hkt, List.map_append, List.sum_append, hu]
      simp only [List.map_cons, List.map_nil, List.sum_cons, List.sum_nil, add_zero]
      ring
    have hE0 : squaredError n y (fun i => prior + lr *
        ((ts.take k).map fun t => treeValue (fun p => nt.parse p.toList) fm t i).sum) =
        ((List.range n).map fun i => w i ^ 2).sum := by
      rw [hw]; rfl
    have hE1 : squaredError n y (fun i => prior + lr *
        ((ts.take (k + 1)).map fun t => treeValue (fun p => nt.parse p.toList) fm t i).sum) =
        ((List.range n).map fun i => (w i - lr * u i) ^ 2).sum := by
      unfold squaredError
      congr 1
      apply List.map_congr_left
      intro i _
      simp only [hnext i, hw]
      ring
    have hexp : ((List.range n).map fun i => (w i - lr * u i) ^ 2).sum = ((List.range n).map fun i => w i ^ 2).sum -
        2 * lr * ((List.range n).map fun i => w i * u i).sum + lr ^ 2 * ((List.range n).map fun i => u i ^ 2).sum := by
      induction List.range n with
      | nil => simp
      | cons a l ih =>
        simp only [List.map_cons, List.sum_cons, ih]
        ring
    have hdiff : ((List.range n).map fun i => (prior + lr * ((ts.take (k + 1)).map fun t =>
          treeValue (fun p => nt.parse p.toList) fm t i).sum -
        (prior + lr * ((ts.take k).map fun t => treeValue (fun p => nt.parse p.toList) fm t i).sum)) ^ 2).sum =
        lr ^ 2 * ((List.range n).map fun i => u i ^ 2).sum := by
      rw [← List.sum_map_mul_left]
      congr 1
      apply List.map_congr_left
      intro i _
      rw [hnext i]
      ring
    have hpos : 0 ≤ ((List.range n).map fun i => u i ^ 2).sum := by
      apply List.sum_nonneg
      intro x hx
      obtain ⟨i, -, rfl⟩ := List.mem_map.1 hx
      positivity
    rw [horth'] at hexp
    refine ⟨?_, ?_⟩
    · simp only
      rw [hdiff, hE0, hE1, hexp]
      ring
    · rw [hE0, hE1, hexp]
      have := mul_nonneg (mul_nonneg hlr (sub_nonneg.2 hlr2)) hpos
      nlinarith [this]

/-! ## Where it is false, and an example -/

/-- The number that decimal digits stand for. -/
def exDigits (l : List Char) : Nat := l.foldl (fun a c => 10 * a + (c.toNat - 48)) 0

/-- Numbers written as decimal fractions. -/
def exFrac : NumText ℚ where
  fmt x := match x with
    | .nan => ['N']
    | .pinf => ['P']
    | .ninf => ['M']
    | .fin q => (if q.num < 0 then ['-'] else []) ++ Nat.toDigits 10 q.num.natAbs ++ '/' :: Nat.toDigits 10 q.den
  parse s := match s with
    | [] => none
    | ['N'] => some .nan
    | ['P'] => some .pinf
    | ['M'] => some .ninf
    | '-' :: s => some (.fin (-(exDigits (s.takeWhile (· ≠ '/')) : ℚ) / exDigits ((s.dropWhile (· ≠ '/')).drop 1)))
    | s => some (.fin ((exDigits (s.takeWhile (· ≠ '/')) : ℚ) / exDigits ((s.dropWhile (· ≠ '/')).drop 1)))

/-- A matrix of a target and two features. -/
def exBoostRunFM (y a b : List ℚ) : FeatureMatrix ℚ :=
  ⟨[.num ⟨y.map .fin, y.map fun _ => false, "N:y", false⟩, .num ⟨a.map .fin, a.map fun _ => false, "N:a", false⟩,
      .num ⟨b.map .fin, b.map fun _ => false, "N:b", false⟩],
    fun s => if s = "N:y" then some 0 else if s = "N:a" then some 1 else if s = "N:b" then some 2 else none, []⟩

/-- Boosting of its first feature, with `mTry` candidates at each node. -/
def exBoostSetup (mTry leafSize : Nat) : BoostSetup ℚ (NumFeature ℚ) :=
  ⟨0, numContrast, ⟨mTry, leafSize, false, false, false, false⟩, 0, false, "N:y"⟩

/-- Grow trees, write them to a file, read the file, and take the error of its first `k` trees, for every `k`. -/
def exBoostErrors (fresh : Bool) (mTry leafSize : Nat) (lr : ℚ) (y a b : List ℚ) (bags : List (List Nat)) (rng : Rng) :
    Option (List ℚ) := do
  let fm := exBoostRunFM y a b
  let (ic, trees) ← (exBoostSetup mTry leafSize).run exFrac fresh fm (.fin lr) ⟨exWork.allocs, rng, [1, 2], []⟩ bags
  let text ← growforestFile exFrac (fun s => s.left) false "N:y" (some ic) trees
  let r ← readForest exFrac text
  let f ← r.forest
  (List.range (trees.length + 1)).mapM fun k => do
    let p ← applySum (fun p => exFrac.parse p.toList) f.intercept (f.trees.take k) fm
    some (squaredError y.length (fun i => y[i]?.getD 0) fun i => match p[i]? with | some (.fin x) => x | _ => 0)

/-- **C132 is false of the code** when trees are grown from samples with replacement, as the library always does: with a tree
grown from the cases 0, 0 and 1 the error is 1, and without it 2/3. -/
theorem c132_bag : exBoostErrors true 2 2 1 [0, 1, 1] [0, 1, 2] [0, 1, 2] [[0, 0, 1]] (fun k => k) = some [2 / 3, 1] := by
  decide +kernel

/-- **C132 is false of the code** when growforest grows one tree object again and again (`-nobag` and no `-test`), at a learning
rate of a half: below what is now a leaf are nodes of the tree before, so that its cases are left out when the residuals
are updated, although the leaf is in the file. The fourth tree makes the error six times what it was. With new trees it
decreases. -/
theorem c132_reused :
    exBoostErrors false 1 1 (1 / 2) [0, 0, 0, 8, 8] [0, 1, 2, 3, 4] [1, 3, 0, 2, 2] (List.replicate 5 [0, 1, 2, 3, 4])
      (fun k => (3 / 2 ^ (k % 4)) % 2) = some [384 / 5, 96 / 5, 24 / 5, 12 / 25, 3, 651 / 100] ∧
    exBoostErrors true 1 1 (1 / 2) [0, 0, 0, 8, 8] [0, 1, 2, 3, 4] [1, 3, 0, 2, 2] (List.replicate 5 [0, 1, 2, 3, 4])
      (fun k => (3 / 2 ^ (k % 4)) % 2) = some [384 / 5, 96 / 5, 24 / 5, 6 / 5, 3 / 10, 3 / 40] := by
  decide +kernel

/-- The hypotheses of `c132_error_partial` are met, with two trees grown from the cases in different orders. -/
example : ∃ ic trees, (exBoostSetup 1 1).run exExact true (exBoostRunFM [0, 0, 0, 8, 8] [0, 1, 2, 3, 4] [1, 3, 0, 2, 2])
      (.fin (1 / 2)) ⟨exWork.allocs, fun k => k, [1, 2], []⟩ [[0, 1, 2, 3, 4], [4, 2, 0, 1, 3]] = some (ic, trees) ∧
    trees.length = 2 := by
  have hfeat : ∀ F ∈ (exBoostRunFM [0, 0, 0, 8, 8] [0, 1, 2, 3, 4] [1, 3, 0, 2, 2]).data, FeatOk F (List.range 5) := by
    intro F hF
    simp only [exBoostRunFM, List.mem_cons, List.not_mem_nil, or_false] at hF
    rcases hF with rfl | rfl | rfl
    all_goals
      refine ⟨fun c hc => ?_, fun c hc => ?_, fun c hc => ?_⟩
      · fin_cases hc <;> exact ⟨by decide, by decide⟩
      · exfalso
        match c, hc with
        | 0, hc | 1, hc | 2, hc | 3, hc | 4, hc => cases hc
        | c + 5, hc => cases hc
      · have hc := List.mem_of_mem_filter hc
        fin_cases hc <;> exact ⟨_, rfl⟩
  obtain ⟨ic, trees, h, hl, -⟩ := c132_error_partial (b := exBoostSetup 1 1) (nt := exExact)
    (fun x => (exExact_faithful x).2) (fm := exBoostRunFM [0, 0, 0, 8, 8] [0, 1, 2, 3, 4] [1, 3, 0, 2, 2]) (n := 5) (by decide)
    (f := ⟨[0, 0, 0, 8, 8].map XF.fin, List.replicate 5 false, "N:y", false⟩) (y := fun i => if i < 3 then 0 else 8)
    rfl rfl rfl rfl (by intro i hi; interval_cases i <;> rfl)
    ⟨fun f hf => (hfeat f hf).valid, fun f hf => (hfeat f hf).sound, by
      intro f hf
      simp only [exBoostRunFM, List.mem_cons, List.not_mem_nil, or_false] at hf
      rcases hf with rfl | rfl | rfl <;> trivial, by
      intro i f hf
      match i, hf with
      | 0, hf | 1, hf | 2, hf => cases hf; rfl
      | n + 3, hf => cases hf⟩ hfeat rfl rfl (by decide) (st := ⟨exWork.allocs, fun k => k, [1, 2], []⟩)
    (by decide) (by decide) (by decide) nofun (lr := 1 / 2) (by norm_num) (by norm_num)
    (bags := [[0, 1, 2, 3, 4], [4, 2, 0, 1, 3]]) (by decide)
  exact ⟨ic, trees, h, hl⟩

end CloudForest
