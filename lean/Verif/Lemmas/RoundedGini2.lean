import Verif.Lemmas.RoundedGini
import Verif.Lemmas.CatSearch

/-! # The target that returns decreases -/

set_option linter.unusedSectionVars false

namespace CloudForest
variable {K : Type} [Field K] [LinearOrder K] [IsStrictOrderedRing K]

theorem gain_judged {p : XF K} (hp : ¬ p < .fin 0) (s : XF K) :
    gain (.fin (-1)) (XF.rounded .fin (p - s)) = gain p s := by
  unfold gain
  rw [if_pos (by rw [XF.fin_lt]; linarith), if_neg hp]
  cases p - s <;> rfl

theorem numLoop_judged (T : Target K) {p : XF K} (hp : ¬ p < .fin 0) (sorted : List Nat) (vals : List (XF K))
    (stop : Nat) : ∀ d i lasti lastsplit a best splitf, stop - i = d →
      numLoop (T.judged .fin p) (.fin (-1)) sorted vals stop i lasti lastsplit a best splitf =
        numLoop T p sorted vals stop i lasti lastsplit a best splitf := by
  intro d
  induction d with
  | zero =>
    intro i lasti lastsplit a best splitf hd
    rw [numLoop, if_neg (by omega), numLoop, if_neg (by omega)]
  | succ d ih =>
    intro i lasti lastsplit a best splitf hd
    conv_rhs => rw [numLoop, if_pos (show i < stop by omega)]
    conv_lhs => rw [numLoop, if_pos (show i < stop by omega)]
    have hcut : cutImpurity (T.judged .fin p) a sorted lastsplit i =
        (cutImpurity T a sorted lastsplit i).map fun s => (XF.rounded .fin (p - s.1), s.2) := by
      unfold cutImpurity
      split_ifs <;> rfl
    simp only [hcut, ih _ _ _ _ _ _ (show stop - (i + 1) = d by omega)]
    cases vals[i]? with
    | none => rfl
    | some vi =>
      cases vals[lasti]? with
      | none => rfl
      | some vl =>
        simp only [Option.bind_eq_bind, Option.bind_some]
        split_ifs
        · rfl
        · cases cutImpurity T a sorted lastsplit i with
          | none => rfl
          | some s => simp only [Option.map_some, Option.bind_some, gain_judged hp]

theorem iterStep_judged (f : CatFeature) (T : Target K) {p : XF K} (hp : ¬ p < .fin 0) (leafSize : Nat)
    (cases : List Nat) (best : Nat) : iterStep f (T.judged .fin p) (.fin (-1)) leafSize cases best =
      iterStep f T p leafSize cases best := by
  funext st i
  unfold iterStep Target.judged
  simp only [Option.bind_eq_bind, Option.bind_map, Function.comp_def, gain_judged hp]

theorem iterStepBig_judged (f : CatFeature) (T : Target K) {p : XF K} (hp : ¬ p < .fin 0) (leafSize : Nat)
    (cases : List Nat) (best : Nat) : iterStepBig f (T.judged .fin p) (.fin (-1)) leafSize cases best =
      iterStepBig f T p leafSize cases best := by
  funext st i
  unfold iterStepBig Target.judged
  simp only [Option.bind_eq_bind, Option.bind_map, Function.comp_def, gain_judged hp]

theorem catStep_judged (T : Target K) {p : XF K} (hp : ¬ p < .fin 0) (leafSize : Nat) (ex : Bool) :
    catStep (T.judged .fin p) (.fin (-1)) leafSize ex = catStep T p leafSize ex := by
  funext st i
  unfold catStep Target.judged
  simp only [Option.bind_eq_bind, Option.bind_map, Function.comp_def, gain_judged hp]

theorem bigStep_judged (f : CatFeature) (T : Target K) {p : XF K} (hp : ¬ p < .fin 0) (leafSize : Nat) (ex : Bool)
    (cases : List Nat) : bigStep f (T.judged .fin p) (.fin (-1)) leafSize ex cases = bigStep f T p leafSize ex cases := by
  funext st i
  unfold bigStep Target.judged
  simp only [Option.bind_eq_bind, Option.bind_map, Function.comp_def, gain_judged hp]

theorem search_judged (F : Feature K) (T : Target K) {p : XF K} (hp : ¬ p < .fin 0) (leafSize : Nat) (rs : Bool)
    (w : Work K) : F.search (T.judged .fin p) (.fin (-1)) leafSize rs w = F.search T p leafSize rs w := by
  cases F with
  | num f =>
    unfold Feature.search NumFeature.bestNumSplit
    simp only [numLoop_judged T hp _ _ _ _ _ _ _ _ _ _ rfl]
  | cat f =>
    have h1 : ∀ cases n b i a, iterRounds f (T.judged .fin p) (.fin (-1)) leafSize cases n b i a =
        iterRounds f T p leafSize cases n b i a := by
      intro cases n
      induction n with
      | zero => intro b i a; rfl
      | succ n ih =>
        intro b i a
        simp only [iterRounds, iterStep_judged f T hp, ih]
    have h2 : ∀ cases n b i a, iterRoundsBig f (T.judged .fin p) (.fin (-1)) leafSize cases n b i a =
        iterRoundsBig f T p leafSize cases n b i a := by
      intro cases n
      induction n with
      | zero => intro b i a; rfl
      | succ n ih =>
        intro b i a
        simp only [iterRoundsBig, iterStepBig_judged f T hp, ih]
    have h3 : f.bestBinSplit (T.judged .fin p) (.fin (-1)) leafSize w = f.bestBinSplit T p leafSize w := by
      unfold CatFeature.bestBinSplit Target.judged
      simp only [Option.bind_eq_bind, Option.bind_map, Function.comp_def, gain_judged hp]
    unfold Feature.search CatFeature.bestCatSplitIterBig CatFeature.bestCatSplitIter CatFeature.bestCatSplitBig
      CatFeature.bestCatSplit
    simp only [h1, h2, h3, catStep_judged T hp, bigStep_judged f T hp]

/-! ## Never NaN -/

theorem bestBinSplit_constant {f : CatFeature} {T : Target K} {p : XF K} {leafSize : Nat} {w w' : Work K} {r : Found K}
    (h : f.bestBinSplit T p leafSize w = some (r, w')) (hc : r.constant = true) : r.imp = .fin 0 := by
  unfold CatFeature.bestBinSplit at h
  obtain ⟨x, -, h⟩ := Option.bind_eq_some_iff.1 h
  simp only at h
  split_ifs at h
  · cases h; rfl
  · obtain ⟨y, -, h⟩ := Option.bind_eq_some_iff.1 h
    cases h
    cases hc

theorem catStep_not_nan {T : Target K} {p : XF K} {leafSize : Nat} {ex : Bool} {st st' : CatState K} {i : Nat}
    (h : catStep T p leafSize ex st i = some st') (hn : st.imp ≠ .nan) : st'.imp ≠ .nan := by
  unfold catStep at h
  simp only [Option.bind_eq_bind] at h
  generalize (if ex = true then (i, st.rng) else st.rng.int63) = br at h
  obtain ⟨x, -, h⟩ := Option.bind_eq_some_iff.1 h
  split_ifs at h
  · cases h; exact hn
  · obtain ⟨y, -, h⟩ := Option.bind_eq_some_iff.1 h
    split_ifs at h with hlt
    · cases h
      intro he
      simp only at he
      rw [he] at hlt
      revert hlt
      cases st.imp <;> exact fun h => h
    · cases h; exact hn

theorem catFold_not_nan {T : Target K} {p : XF K} {leafSize : Nat} {ex : Bool} : ∀ (l : List Nat) {st st' : CatState K},
    l.foldlM (catStep T p leafSize ex) st = some st' → st.imp ≠ .nan → st'.imp ≠ .nan := by
  intro l
  induction l with
  | nil => intro st st' h hn; cases h; exact hn
  | cons i l ih =>
    intro st st' h hn
    rw [List.foldlM_cons] at h
    obtain ⟨st1, h1, h⟩ := Option.bind_eq_some_iff.1 h
    exact ih h (catStep_not_nan h1 hn)

theorem bestCatSplit_not_nan {f : CatFeature} {T : Target K} {p : XF K} {maxEx leafSize : Nat} {w w' : Work K}
    {r : Found K} (h : f.bestCatSplit T p maxEx leafSize w = some (r, w')) : r.imp ≠ .nan := by
  unfold CatFeature.bestCatSplit at h
  obtain ⟨x, -, h⟩ := Option.bind_eq_some_iff.1 h
  obtain ⟨st, h1, h⟩ := Option.bind_eq_some_iff.1 h
  cases h
  exact catFold_not_nan _ h1 nofun

/-- An exhaustive search reports NaN only if a division it may choose is judged NaN. -/
theorem search_not_nan {T : Target K} {cases : List Nat} (L : TargetLaws T cases) (p : XF K) (f : CatFeature)
    {leafSize : Nat} (hr : f.InRange f.cm.nCats cases)
    (hsize : f.cm.nCats ≤ 5 ∨ f.randomSearch = true ∧ f.cm.nCats ≤ 10) (rs : Bool) (w : Work K)
    (hcs : ∀ c ∈ w.cases, c ∈ cases) (hok : L.Ok w.allocs)
    (hnan : ∀ q : Nat → Bool, leafSize ≤ (w.cases.filter q).length → leafSize ≤ (w.cases.filter fun c => !q c).length →
      gain p (L.S (w.cases.filter q) (w.cases.filter fun c => !q c)) ≠ .nan) {r : Found K} {w' : Work K}
    (h : (Feature.cat f).search T p leafSize rs w = some (r, w')) : r.imp ≠ .nan := by
  have hv : f.HasVals w.cases := fun c hc => (hr c (hcs c hc)).imp fun k hk => hk.1
  have hn : ∀ c ∈ w.cases, f.cat c < f.cm.nCats := by
    intro c hc
    obtain ⟨k, hk, hlt⟩ := hr c (hcs c hc)
    rw [hv.eq hc] at hk; cases hk; exact hlt
  unfold Feature.search at h
  simp only [] at h
  rw [if_neg (by rcases hsize with h | h <;> simp [h] <;> omega),
    if_neg (by rcases hsize with h | h <;> simp [h]), if_neg (by omega)] at h
  by_cases h2 : f.cm.nCats = 2
  · rw [if_pos h2] at h
    obtain ⟨r', w'', e, -, -, h3, h4⟩ := bestBinSplit_ok L p f leafSize w hv (by rw [← h2]; exact hn) hcs hok
    rw [h] at e
    cases e
    by_cases ha : AdmCode (.cat (K := K) f) leafSize w.cases (.int 1)
    · rw [h3 ha]
      unfold AdmCode at ha
      unfold codeGain
      rw [lefts_cat hv, rights_cat hv] at ha ⊢
      exact hnan _ ha.1 ha.2
    · rw [bestBinSplit_constant h (h4.2 ha)]
      nofun
  · rw [if_neg h2] at h
    exact bestCatSplit_not_nan h

end CloudForest
