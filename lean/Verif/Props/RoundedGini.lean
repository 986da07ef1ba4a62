import Verif.Spec.RoundedGini
import Verif.Lemmas.RoundedGini2
import Verif.Props.Rounding

/-!
# C134: the Gini impurity and the search in floating point
-/

set_option linter.unusedSectionVars false

namespace CloudForest

theorem k_ulp (k : Nat) : 4 * (k : ℚ) * ulp64 = k / 2 ^ 51 := by
  unfold ulp64
  rw [show (2 : ℚ) ^ 53 = 4 * 2 ^ 51 by norm_num]
  field_simp

/-- **C134.** In double precision the Gini impurity of up to 2²⁶ cases of up to 2²⁴ classes is within 2⁻⁵¹ per class of
the exact one. It is never negative, and it is zero just for the cases of a single class. -/
theorem c134_gini (f : CatFeature) {k : Nat} {cases : List Nat} (hne : cases ≠ []) (hn : cases.length ≤ 2 ^ 26)
    (hk : k ≤ 2 ^ 24) (hr : f.InRange k cases) {a : Allocs ℚ} (ha : CountersFor k a) :
    ∃ e a', (giniTargetR F64.round f).impurity a cases = some (.fin e, a') ∧
      |e - f.gini ℚ k cases| ≤ k / 2 ^ 51 ∧ 0 ≤ e ∧
      (e = 0 ↔ ∀ c ∈ cases, ∀ d ∈ cases, f.catData[c]? = f.catData[d]?) := by
  have hk' : k ≤ 2 ^ 50 := hk.trans (by norm_num)
  obtain ⟨e, h1, h2⟩ := giniR_err f hne hn hk' hr
  obtain ⟨a', h3, -⟩ := (giniLawsR F64.round f k cases hr).impurity a cases ha fun _ h => h
  rw [k_ulp] at h2
  refine ⟨e, a', by rw [h3]; exact congrArg (fun x => some (x, a')) h1, h2, ?_⟩
  by_cases hp : f.OneCat cases
  · have := giniR_pure f hne hn hk' hr hp
    rw [h1] at this
    cases this
    exact ⟨le_rfl, fun _ => hp, fun _ => rfl⟩
  · have hm := gini_mixed f hne hr hp
    have hN : (0 : ℚ) < cases.length := length_pos' hne
    have hlt : (k : ℚ) / 2 ^ 51 < 1 / cases.length := by
      rw [div_lt_div_iff₀ (by positivity) hN, one_mul]
      have e1 : (k : ℚ) ≤ 2 ^ 24 := by exact_mod_cast hk
      have e2 : (cases.length : ℚ) ≤ 2 ^ 26 := by exact_mod_cast hn
      calc (k : ℚ) * cases.length ≤ 2 ^ 24 * 2 ^ 26 := mul_le_mul e1 e2 hN.le (by positivity)
        _ < 2 ^ 51 := by norm_num
    have := (abs_le.1 h2).1
    refine ⟨by linarith, fun h => absurd h (ne_of_gt (by linarith)), fun h => absurd h hp⟩

/-- Seven cases of the classes a, b, a, b, c, b, c, and a feature that counts them. -/
def exTieT : CatFeature := ⟨.empty, [0, 1, 0, 1, 2, 1, 2], List.replicate 7 false, "t", false, false⟩

@[inherit_doc exTieT]
def exTieF : NumFeature ℚ :=
  ⟨[.fin 1, .fin 2, .fin 3, .fin 4, .fin 5, .fin 6, .fin 7], List.replicate 7 false, "x", false⟩

@[inherit_doc exTieT]
def exTieW : Work ℚ :=
  ⟨[0, 1, 2, 3, 4, 5, 6], ⟨[0, 0, 0], [0, 0, 0], [0, 0, 0], .fin 0, .fin 0, .fin 0, .fin 0, .fin 0, .fin 0⟩, fun _ => 0⟩

theorem exTieT_inRange : exTieT.InRange 3 [0, 1, 2, 3, 4, 5, 6] := by
  intro c hc; fin_cases hc <;> simp [exTieT]

/-- Their impurity, 32/49, rounded. -/
example : (∃ e a', (giniTargetR F64.round exTieT).impurity exTieW.allocs exTieW.cases = some (.fin e, a') ∧
      |e - exTieT.gini ℚ 3 exTieW.cases| ≤ 3 / 2 ^ 51) ∧
    exTieT.gini ℚ 3 exTieW.cases = 32 / 49 ∧
    ((giniTargetR F64.round exTieT).impurity exTieW.allocs exTieW.cases).map Prod.fst =
      some (.fin (2941126287262365 / 2 ^ 52)) := by
  refine ⟨?_, by decide +kernel, by decide +kernel⟩
  obtain ⟨e, a', h1, h2, -⟩ := c134_gini exTieT (cases := exTieW.cases) (by decide) (by decide) (by decide : 3 ≤ 2 ^ 24)
    exTieT_inRange (a := exTieW.allocs) ⟨rfl, rfl, rfl⟩
  exact ⟨e, a', h1, by exact_mod_cast h2⟩

/-! ## The search -/

/-- With rounding that changes nothing, the rounded search is the search. -/
theorem searchR_exact {K : Type} [Field K] [LinearOrder K] [IsStrictOrderedRing K] (F : Feature K) (T : Target K)
    (p : XF K) (leafSize : Nat) (rs : Bool) (w : Work K) :
    F.searchR .fin (.fin cutoff) T p leafSize rs w = F.search T p leafSize rs w := by
  have hid : ∀ v : XF K, XF.rounded .fin v = v := fun v => by cases v <;> rfl
  have hnum : ∀ (f : NumFeature K) (T : Target K) (p : XF K),
      f.bestNumSplitR .fin (.fin cutoff) T p leafSize rs w = f.bestNumSplit T p leafSize rs w := by
    intro f T p
    have hloop : ∀ sorted (vals : List (XF K)) stop i lasti lastsplit a best splitf,
        numLoopR .fin (.fin cutoff) T p sorted vals stop i lasti lastsplit a best splitf =
          numLoop T p sorted vals stop i lasti lastsplit a best splitf := by
      intro sorted vals stop i lasti lastsplit a best splitf
      refine numLoopR_eq .fin (.fin cutoff) T p sorted ?_ ?_ stop _ i lasti lastsplit a best splitf rfl
      · intro u _ v _
        rw [XF.plusCut, hid]
      · intro u _ v _
        rw [XF.midpoint, hid, hid]
    unfold NumFeature.bestNumSplitR NumFeature.bestNumSplit
    simp only [XF.plusCut, hid, hloop]
  unfold Feature.searchR
  by_cases hp : p < .fin 0
  · rw [if_pos hp]
    cases F with
    | num f => exact hnum f T p
    | cat f => rfl
  · rw [if_neg hp, ← search_judged F T hp]
    cases F with
    | num f => exact hnum f _ _
    | cat f => rfl

/-- What a rounded decrease is. -/
theorem judged_err (f : CatFeature) {k : Nat} {cases l g : List Nat} (hn : cases.length ≤ 2 ^ 26) (hk : k ≤ 2 ^ 24)
    (hr : f.InRange k cases) (hp : (l ++ g).Perm cases) (hl : l ≠ []) (hg : g ≠ []) :
    ∃ y, ((giniLawsR F64.round f k cases hr).judged F64.round
        (giniFromCountsR F64.round cases.length (f.counts k cases))).S l g = .fin y ∧
      |y - f.giniDecrease k l g| ≤ (k + 3) / 2 ^ 50 := by
  have hu := ulp64_pos
  have ht := tiny64_pos
  have htu := tiny_le
  have hlen := hp.length_eq
  rw [List.length_append] at hlen
  have hk' : k ≤ 2 ^ 50 := hk.trans (by norm_num)
  have hne : cases ≠ [] := by
    intro h
    rw [h] at hp
    exact hl (List.append_eq_nil_iff.1 hp.eq_nil).1
  have hrl : f.InRange k l := fun c hc => hr c (hp.mem_iff.1 (List.mem_append_left _ hc))
  have hrg : f.InRange k g := fun c hc => hr c (hp.mem_iff.1 (List.mem_append_right _ hc))
  obtain ⟨P, hP, eP⟩ := giniR_err f hne hn hk' hr
  obtain ⟨x, hx, ex⟩ := giniR_err f hl (by omega) hk' hrl
  obtain ⟨y, hy, ey⟩ := giniR_err f hg (by omega) hk' hrg
  have hku : 4 * (k : ℚ) * ulp64 ≤ 1 / 2 := by
    rw [k_ulp, div_le_div_iff₀ (by positivity) (by norm_num)]
    have : (k : ℚ) ≤ 2 ^ 24 := by exact_mod_cast hk
    linarith [show (2 : ℚ) ^ 24 * 2 ≤ 1 * 2 ^ 51 by norm_num]
  obtain ⟨z, hz, ez⟩ := wavgR_err (nl := l.length) (ng := g.length) (by simpa using hl) (by simpa using hg) (by omega)
    (by linarith) (gini_nonneg f k l hrl hl) (gini_lt_one f k l hrl hl).le (gini_nonneg f k g hrg hg)
    (gini_lt_one f k g hrg hg).le ex ey
  have hgini : f.gini ℚ k (l ++ g) = f.gini ℚ k cases := gini_perm f k hp
  obtain ⟨W, hW⟩ : ∃ W : ℚ, W = (l.length * f.gini ℚ k l + g.length * f.gini ℚ k g) / (l.length + g.length) := ⟨_, rfl⟩
  obtain ⟨G, hG⟩ : ∃ G : ℚ, G = f.gini ℚ k cases := ⟨_, rfl⟩
  have hG0 : 0 ≤ G := hG ▸ gini_nonneg f k cases hr hne
  have hG1 : G ≤ 1 := hG ▸ (gini_lt_one f k cases hr hne).le
  rw [← hG] at eP
  rw [← hW] at ez
  have hLp : (0 : ℚ) < l.length := length_pos' hl
  have hGp : (0 : ℚ) < g.length := length_pos' hg
  have hW0 : 0 ≤ W := by
    rw [hW]
    have h1 := gini_nonneg (K := ℚ) f k l hrl hl
    have h2 := gini_nonneg (K := ℚ) f k g hrg hg
    positivity
  have hW1 : W ≤ 1 := by
    rw [hW, div_le_one (by linarith)]
    have h1 := mul_le_mul_of_nonneg_left (gini_lt_one (K := ℚ) f k l hrl hl).le hLp.le
    have h2 := mul_le_mul_of_nonneg_left (gini_lt_one (K := ℚ) f k g hrg hg).le hGp.le
    linarith
  have hu1 : ulp64 ≤ 1 / 64 := by unfold ulp64; norm_num
  obtain ⟨p1, p2⟩ := abs_le.1 eP
  obtain ⟨p3, p4⟩ := abs_le.1 ez
  have hPz : |P - z| ≤ 3 := abs_le.2 ⟨by linarith, by linarith⟩
  obtain ⟨d, hd, ed⟩ := round_small (x := P - z) (hPz.trans (by norm_num))
  refine ⟨d, ?_, ?_⟩
  · show XF.rounded F64.round (giniFromCountsR F64.round cases.length (f.counts k cases) -
      wavgR F64.round l.length g.length (giniFromCountsR F64.round l.length (f.counts k l))
        (giniFromCountsR F64.round g.length (f.counts k g))) = _
    rw [hP, hx, hy, hz, XF.fin_sub]
    exact hd
  · have e0 : ulp64 * |P - z| ≤ ulp64 * 3 := mul_le_mul_of_nonneg_left hPz hu.le
    obtain ⟨p5, p6⟩ := abs_le.1 ed
    have hgd : f.giniDecrease k l g = G - W := by
      unfold CatFeature.giniDecrease
      rw [hgini, hG, hW]
    have he : ((k : ℚ) + 3) / 2 ^ 50 = 8 * (k + 3) * ulp64 := by
      unfold ulp64
      rw [show (2 : ℚ) ^ 53 = 8 * 2 ^ 50 by norm_num]
      field_simp
    rw [hgd, he]
    exact abs_le.2 ⟨by linarith, by linarith⟩

theorem minImp_lt {x : ℚ} : (minImp : XF ℚ) < .fin x ↔ 1 / 10000000 < x := Iff.rfl

/-- **C134.** The search of a numerical feature for the best division of up to 2²⁶ cases of up to 2²⁴ classes, in double
precision. Either it reports nothing, and then no division into smaller and larger values, of admissible sizes, decreases
the exact Gini impurity by more than 10⁻⁷ plus the error ε = (k + 3)·2⁻⁵⁰, where k is the number of classes; or it has
divided the cases into smaller and larger values, the decrease it reports is within ε of the exact decrease, and no
other such division decreases the exact impurity by 2ε more. -/
theorem c134_num (t : CatFeature) {k : Nat} (f : NumFeature ℚ) (w : Work ℚ) {leafSize : Nat} (hls : 1 ≤ leafSize)
    (hne : w.cases ≠ []) (hn : w.cases.length ≤ 2 ^ 26) (hk : k ≤ 2 ^ 24) (hr : t.InRange k w.cases) (hfin : f.Finite w.cases)
    (hrep : ∀ c ∈ w.cases, Rep64 (f.value c) ∧ Rep64 (2 * f.value c))
    (hties : f.NoRoundedTies F64.round F64.cutoff w.cases) (hok : CountersFor k w.allocs) {a a' : Allocs ℚ}
    (ha : CountersFor k a) {p : XF ℚ} (hp : (giniTargetR F64.round t).impurity a w.cases = some (p, a')) :
    ∃ res w', (Feature.num f).searchR F64.round F64.cutoff (giniTargetR F64.round t) p leafSize false w = some (res, w') ∧
      w'.cases.Perm w.cases ∧
      ((res.imp = minImp ∧ ∀ lefts rights, f.Parts leafSize w.cases lefts rights →
          t.giniDecrease k lefts rights ≤ 1 / 10000000 + (k + 3) / 2 ^ 50) ∨
        ∃ τ lefts rights x, res.code = some (.num (.fin τ)) ∧ f.Parts leafSize w.cases lefts rights ∧
          (∀ c ∈ lefts, f.value c ≤ τ) ∧ (∀ c ∈ rights, τ ≤ f.value c) ∧
          res.imp = .fin x ∧ |x - t.giniDecrease k lefts rights| ≤ (k + 3) / 2 ^ 50 ∧
          ∀ lefts' rights', f.Parts leafSize w.cases lefts' rights' →
            t.giniDecrease k lefts' rights' ≤ t.giniDecrease k lefts rights + 2 * ((k + 3) / 2 ^ 50)) := by
  obtain ⟨c, hc, hc0, -⟩ := f64_cutoff
  rw [hc] at hties ⊢
  obtain ⟨a1, e1, -⟩ := (giniLawsR F64.round t k w.cases hr).impurity a w.cases ha fun _ h => h
  rw [e1] at hp
  simp only [Option.some.injEq, Prod.mk.injEq] at hp
  obtain ⟨rfl, -⟩ := hp
  have hsearch : ∀ q, (¬ q < XF.fin (0 : ℚ)) → (Feature.num f).searchR F64.round (.fin c) (giniTargetR F64.round t) q
      leafSize false w = f.bestNumSplitR F64.round (.fin c) ((giniTargetR F64.round t).judged F64.round q) (.fin (-1))
        leafSize false w := by
    intro q hq
    unfold Feature.searchR
    rw [if_neg hq]
  have hneg : ¬ (giniLawsR F64.round t k w.cases hr).I w.cases < .fin 0 := by
    obtain ⟨e, a2, h1, -, h2, -⟩ := c134_gini t hne hn hk hr ha
    rw [e1] at h1
    simp only [Option.some.injEq, Prod.mk.injEq] at h1
    rw [h1.1]
    exact fun h => absurd h (not_lt.2 h2)
  rw [hsearch _ hneg]
  obtain ⟨res, w', e, h⟩ := bestNumSplitR_ok F64.rounds hc0 f ((giniLawsR F64.round t k w.cases hr).judged F64.round
    ((giniLawsR F64.round t k w.cases hr).I w.cases)) (.fin (-1)) hls false (fun _ h => h) hfin hrep hties hok
  refine ⟨res, w', e, h.perm, ?_⟩
  have hgain : ∀ s : XF ℚ, gain (.fin (-1)) s = s := fun s => if_pos (by rw [XF.fin_lt]; norm_num)
  have hval : ∀ l g, f.Parts leafSize w.cases l g → ∃ y, gain (.fin (-1)) (((giniLawsR F64.round t k w.cases hr).judged
      F64.round ((giniLawsR F64.round t k w.cases hr).I w.cases)).S l g) = .fin y ∧
      |y - t.giniDecrease k l g| ≤ (k + 3) / 2 ^ 50 ∧ ¬ res.imp < .fin y := by
    intro l g hlg
    obtain ⟨y, h1, h2⟩ := judged_err t hn hk hr hlg.all (by rintro rfl; have := hlg.left; rw [List.length_nil] at this; omega)
      (by rintro rfl; exact absurd hlg.right (by simp))
    have h3 := h.opt rfl l g hlg.all hlg.left hlg.right hlg.below
    rw [hgain] at h3 ⊢
    refine ⟨y, h1, h2, ?_⟩
    rw [← h1]
    exact h3
  rcases h.found with h1 | ⟨h1, τ, l, g, h2, h3, h4, h5, h6, h7, h8, h9, -⟩
  · left
    refine ⟨h1, fun l g hlg => ?_⟩
    obtain ⟨y, -, h2, h3⟩ := hval l g hlg
    rw [h1, minImp_lt] at h3
    have := (abs_le.1 h2).1
    linarith
  · right
    have hlg : f.Parts leafSize w.cases l g := ⟨h3, h4, h5, h9⟩
    obtain ⟨x, e2, e3, -⟩ := hval l g hlg
    rw [e2] at h6
    refine ⟨τ, l, g, x, h2, hlg, h7, h8, h6, e3, fun l' g' hlg' => ?_⟩
    obtain ⟨y, -, e4, e5⟩ := hval l' g' hlg'
    rw [h6, XF.fin_lt] at e5
    have := (abs_le.1 e4).1
    have := (abs_le.1 e3).2
    linarith

theorem exTieF_rep : ∀ c ∈ exTieW.cases, Rep64 (exTieF.value c) ∧ Rep64 (2 * exTieF.value c) := by
  intro c hc
  have h : ∀ n : ℤ, |n| ≤ 7 → Rep64 (n : ℚ) ∧ Rep64 (2 * (n : ℚ)) := by
    intro n hn
    refine ⟨rep64_int (by omega), ?_⟩
    have := rep64_int (m := 2 * n) (by rw [abs_mul, abs_two]; omega)
    exact_mod_cast this
  have : ∃ n : ℤ, |n| ≤ 7 ∧ exTieF.value c = n := by
    fin_cases hc
    · exact ⟨1, by decide, rfl⟩
    · exact ⟨2, by decide, rfl⟩
    · exact ⟨3, by decide, rfl⟩
    · exact ⟨4, by decide, rfl⟩
    · exact ⟨5, by decide, rfl⟩
    · exact ⟨6, by decide, rfl⟩
    · exact ⟨7, by decide, rfl⟩
  obtain ⟨n, hn, e⟩ := this
  rw [e]
  exact h n hn

theorem exTieF_finite : exTieF.Finite exTieW.cases := by
  intro c hc; fin_cases hc <;> exact ⟨_, rfl⟩

theorem exTieF_ties : exTieF.NoRoundedTies F64.round F64.cutoff exTieW.cases :=
  show ∀ c ∈ [0, 1, 2, 3, 4, 5, 6], ∀ d ∈ [0, 1, 2, 3, 4, 5, 6], exTieF.value c < exTieF.value d →
    ¬ XF.fin (exTieF.value d) ≤ XF.plusCut F64.round (.fin (exTieF.value c)) F64.cutoff by decide +kernel

/-- The search of the seven cases meets the hypotheses. -/
example : ∃ res w', (Feature.num exTieF).searchR F64.round F64.cutoff (giniTargetR F64.round exTieT)
    (.fin (2941126287262365 / 2 ^ 52)) 1 false exTieW = some (res, w') ∧ w'.cases.Perm exTieW.cases := by
  obtain ⟨res, w', h1, h2, -⟩ := c134_num exTieT (k := 3) exTieF exTieW (le_refl 1) (by decide) (by decide) (by decide)
    exTieT_inRange exTieF_finite exTieF_rep exTieF_ties ⟨rfl, rfl, rfl⟩ (a := exTieW.allocs) ⟨rfl, rfl, rfl⟩
    (p := .fin (2941126287262365 / 2 ^ 52)) (a' := { exTieW.allocs with counter := [2, 3, 2] }) (by decide +kernel)
  exact ⟨res, w', h1, h2⟩

/-- **C134.** Ties are broken by the rounding. Of the seven cases, dividing off the first three and dividing off the
first four is worth the same; the search in exact numbers takes the division it sees first, the one in double precision
takes the other. -/
theorem c134_tie : exTieT.giniDecrease 3 [0, 1, 2] [3, 4, 5, 6] = 26 / 147 ∧
    exTieT.giniDecrease 3 [0, 1, 2, 3] [4, 5, 6] = 26 / 147 ∧
    ((Feature.num exTieF).search (giniTarget exTieT) (.fin (32 / 49)) 1 false exTieW).map Prod.fst =
      some ⟨some (.num (.fin (7 / 2))), .fin (26 / 147), false⟩ ∧
    ((Feature.num exTieF).searchR F64.round F64.cutoff (giniTargetR F64.round exTieT)
        (.fin (2941126287262365 / 2 ^ 52)) 1 false exTieW).map (fun r => r.1.code) =
      some (some (.num (.fin (9 / 2)))) := by
  decide +kernel

/-- **C134.** The same for a categorical feature of at most five categories, or of at most ten with random search: no
division of the categories into two groups of at least `leafSize` cases is worth 2ε more than the one found; or none is
worth more than 10⁻⁷ + ε, if the search reports no more than 10⁻⁷. -/
theorem c134_cat (t : CatFeature) {k : Nat} (f : CatFeature) (w : Work ℚ) {leafSize : Nat} (hls : 1 ≤ leafSize)
    (hne : w.cases ≠ []) (hn : w.cases.length ≤ 2 ^ 26) (hk : k ≤ 2 ^ 24) (hr : t.InRange k w.cases)
    (hf : f.InRange f.cm.nCats w.cases) (hsize : f.cm.nCats ≤ 5 ∨ f.randomSearch = true ∧ f.cm.nCats ≤ 10)
    (hok : CountersFor k w.allocs) {a a' : Allocs ℚ} (ha : CountersFor k a) {p : XF ℚ}
    (hp : (giniTargetR F64.round t).impurity a w.cases = some (p, a')) :
    ∃ res w' b, (Feature.cat f).searchR F64.round F64.cutoff (giniTargetR F64.round t) p leafSize false w =
        some (res, w') ∧ w'.cases.Perm w.cases ∧ res.code = some (.int b) ∧
      (minImp < res.imp →
        leafSize ≤ ((Feature.cat (K := ℚ) f).lefts (.int b) w.cases).length ∧
        leafSize ≤ ((Feature.cat (K := ℚ) f).rights (.int b) w.cases).length ∧
        ∃ x, res.imp = .fin x ∧ |x - t.giniDecrease k ((Feature.cat (K := ℚ) f).lefts (.int b) w.cases)
            ((Feature.cat (K := ℚ) f).rights (.int b) w.cases)| ≤ (k + 3) / 2 ^ 50 ∧
          ∀ group : Nat → Bool, leafSize ≤ (w.cases.filter fun c => group (f.cat c)).length →
            leafSize ≤ (w.cases.filter fun c => !group (f.cat c)).length →
            t.giniDecrease k (w.cases.filter fun c => group (f.cat c)) (w.cases.filter fun c => !group (f.cat c)) ≤
              t.giniDecrease k ((Feature.cat (K := ℚ) f).lefts (.int b) w.cases)
                ((Feature.cat (K := ℚ) f).rights (.int b) w.cases) + 2 * ((k + 3) / 2 ^ 50)) ∧
      (¬ minImp < res.imp → ∀ group : Nat → Bool, leafSize ≤ (w.cases.filter fun c => group (f.cat c)).length →
        leafSize ≤ (w.cases.filter fun c => !group (f.cat c)).length →
        t.giniDecrease k (w.cases.filter fun c => group (f.cat c)) (w.cases.filter fun c => !group (f.cat c)) ≤
          1 / 10000000 + (k + 3) / 2 ^ 50) := by
  obtain ⟨a1, e1, -⟩ := (giniLawsR F64.round t k w.cases hr).impurity a w.cases ha fun _ h => h
  rw [e1] at hp
  simp only [Option.some.injEq, Prod.mk.injEq] at hp
  obtain ⟨rfl, -⟩ := hp
  have hneg : ¬ (giniLawsR F64.round t k w.cases hr).I w.cases < .fin 0 := by
    obtain ⟨e, a2, h1, -, h2, -⟩ := c134_gini t hne hn hk hr ha
    rw [e1] at h1
    simp only [Option.some.injEq, Prod.mk.injEq] at h1
    rw [h1.1]
    exact fun h => absurd h (not_lt.2 h2)
  have hsearch : ∀ q, (¬ q < XF.fin (0 : ℚ)) → (Feature.cat f).searchR F64.round F64.cutoff (giniTargetR F64.round t) q
      leafSize false w = (Feature.cat f).search ((giniTargetR F64.round t).judged F64.round q) (.fin (-1))
        leafSize false w := by
    intro q hq
    unfold Feature.searchR
    rw [if_neg hq]
  rw [hsearch _ hneg]
  obtain ⟨res, w', b, e, h1, h2, h3, h4⟩ := c11_exhaustive f ((giniLawsR F64.round t k w.cases hr).judged F64.round
    ((giniLawsR F64.round t k w.cases hr).I w.cases)) hf hsize (.fin (-1)) hls false w (fun _ h => h) hok
  have hdec : ∀ s : XF ℚ, decrease (.fin (-1)) s = s := fun s => if_pos (by rw [XF.fin_lt]; norm_num)
  simp only [hdec] at h3 h4
  have hv : f.HasVals w.cases := fun c hc => (hf c hc).imp fun k hk => hk.1
  have hpos : ∀ l : List Nat, leafSize ≤ l.length → l ≠ [] := by
    rintro l h rfl
    rw [List.length_nil] at h
    omega
  have hval : ∀ q : Nat → Bool, leafSize ≤ (w.cases.filter q).length → leafSize ≤ (w.cases.filter fun c => !q c).length →
      ∃ y, ((giniLawsR F64.round t k w.cases hr).judged F64.round ((giniLawsR F64.round t k w.cases hr).I w.cases)).S
          (w.cases.filter q) (w.cases.filter fun c => !q c) = .fin y ∧
        |y - t.giniDecrease k (w.cases.filter q) (w.cases.filter fun c => !q c)| ≤ (k + 3) / 2 ^ 50 :=
    fun q h5 h6 => judged_err t hn hk hr (List.filter_append_perm _ _) (hpos _ h5) (hpos _ h6)
  refine ⟨res, w', b, e, h1, h2, fun hlt => ?_, fun hlt group h5 h6 => ?_⟩
  · obtain ⟨h5, h6, h7⟩ := h3 hlt
    rw [lefts_cat hv] at h5 h7 ⊢
    rw [rights_cat hv] at h6 h7 ⊢
    obtain ⟨x, h8, h9⟩ := hval _ h5 h6
    rw [h8] at h7
    refine ⟨h5, h6, x, h7, h9, fun group h10 h11 => ?_⟩
    obtain ⟨y, h12, h13⟩ := hval _ h10 h11
    have h14 := h4 group h10 h11
    rw [h12, h7, XF.fin_lt] at h14
    have := (abs_le.1 h13).1
    have := (abs_le.1 h9).2
    linarith
  · obtain ⟨y, h12, h13⟩ := hval _ h5 h6
    have h14 := h4 group h5 h6
    rw [h12] at h14
    have hy : ¬ (minImp : XF ℚ) < .fin y := by
      intro h
      have hnn : res.imp ≠ .nan := search_not_nan _ _ f hf hsize false w (fun _ h => h) hok (fun q h5 h6 => by
        obtain ⟨y, h7, -⟩ := hval q h5 h6
        unfold gain
        rw [if_pos (by rw [XF.fin_lt]; norm_num), h7]
        nofun) e
      exact h14 (XF.lt_of_le_of_lt' (XF.le_of_not_lt' (by unfold minImp; nofun) hnn hlt) h)
    rw [minImp_lt] at hy
    have := (abs_le.1 h13).1
    linarith

/-- Three categories, two classes, six cases. -/
example : ∃ res w' b, (Feature.cat exCat3).searchR F64.round F64.cutoff (giniTargetR F64.round exSplitT)
    (.fin (1 / 2)) 1 false exWork = some (res, w') ∧ w'.cases.Perm exWork.cases ∧ res.code = some (.int b) := by
  obtain ⟨res, w', b, h1, h2, h3, -⟩ := c134_cat exSplitT (k := 2) exCat3 exWork (le_refl 1) (by decide) (by decide)
    (by decide) exSplitT_inRange exCat3_inRange (.inl (by decide)) ⟨rfl, rfl, rfl⟩ (a := exWork.allocs) ⟨rfl, rfl, rfl⟩
    (p := .fin (1 / 2)) (a' := { exWork.allocs with counter := [3, 3] }) (by decide +kernel)
  exact ⟨res, w', b, h1, h2, h3⟩

end CloudForest
