import Verif.Lemmas.Scratch
import Verif.Model.RoundedGrow

/-! # Targets that agree on few cases grow the same trees from few cases -/

set_option linter.unusedSectionVars false

namespace CloudForest
variable {K : Type} [Field K] [LinearOrder K] [IsStrictOrderedRing K] {τ : Type}

/-- The targets agree on up to `N` cases. -/
structure Target.AgreeUpTo (N : Nat) (T T' : Target K) : Prop where
  impurity : ∀ a cs, cs.length ≤ N → T.impurity a cs = T'.impurity a cs
  split : ∀ a l g, l.length + g.length ≤ N → T.splitImpurity a l g none = T'.splitImpurity a l g none
  update : ∀ a l g mv, l.length + g.length ≤ N → T.updateSImp a l g none mv = T'.updateSImp a l g none mv

section
variable {N : Nat} {T T' : Target K} {r : K → XF K} {cut p : XF K} {leafSize : Nat} {rs : Bool}

theorem Target.AgreeUpTo.judged (h : T.AgreeUpTo N T') (r : K → XF K) (p : XF K) :
    (T.judged r p).AgreeUpTo N (T'.judged r p) where
  impurity := h.impurity
  split a l g hl := by
    show Option.map _ _ = Option.map _ _
    rw [h.split a l g hl]
  update a l g mv hl := by
    show Option.map _ _ = Option.map _ _
    rw [h.update a l g mv hl]

theorem take_drop_length (l : List Nat) {i j : Nat} (h : i ≤ j) : (l.take i).length + (l.drop j).length ≤ l.length := by
  rw [List.length_take, List.length_drop]
  omega

theorem cutImpurity_agree (h : T.AgreeUpTo N T') (a : Allocs K) {sorted : List Nat} (hl : sorted.length ≤ N)
    (lastsplit i : Nat) : cutImpurity T a sorted lastsplit i = cutImpurity T' a sorted lastsplit i := by
  unfold cutImpurity
  have := (take_drop_length sorted (le_refl i)).trans hl
  rw [h.split _ _ _ this, h.update _ _ _ _ this]

theorem numLoopR_agree (h : T.AgreeUpTo N T') {sorted : List Nat} (hl : sorted.length ≤ N) (vals : List (XF K))
    (stop : Nat) : ∀ (m i lasti lastsplit : Nat) (a : Allocs K) (best splitf : XF K), stop - i = m →
      numLoopR r cut T p sorted vals stop i lasti lastsplit a best splitf =
        numLoopR r cut T' p sorted vals stop i lasti lastsplit a best splitf := by
  intro m
  induction m with
  | zero =>
    intro i lasti lastsplit a best splitf hm
    conv_lhs => rw [numLoopR, if_neg (by omega)]
    conv_rhs => rw [numLoopR, if_neg (by omega)]
  | succ m ih =>
    intro i lasti lastsplit a best splitf hm
    conv_lhs => rw [numLoopR, if_pos (by omega)]
    conv_rhs => rw [numLoopR, if_pos (by omega)]
    have hm' : stop - (i + 1) = m := by omega
    simp only [cutImpurity_agree h a hl, ih _ _ _ _ _ _ hm']

theorem bestNumSplitR_agree (h : T.AgreeUpTo N T') (f : NumFeature K) (w : Work K) (hw : w.cases.length ≤ N) :
    f.bestNumSplitR r cut T p leafSize rs w = f.bestNumSplitR r cut T' p leafSize rs w := by
  unfold NumFeature.bestNumSplitR
  split
  · cases hv : f.load w.cases with
    | none => rfl
    | some vals =>
      simp only [Option.bind_eq_bind, Option.bind_some]
      have hl := mapM_option_length hv
      obtain ⟨cs', vs', e, hc, -⟩ := c05_sortBy w.cases vals (by omega)
      rw [e]
      simp only [Option.bind_some]
      have hlen : cs'.length ≤ N := hc.trans_le hw
      simp only [numLoopR_agree h hlen vs' _ _ _ _ _ _ _ _ rfl]
  · rfl

theorem catPart_bounds {bits : Nat} : ∀ (n : Nat) {cs cached : List Nat} {j nl r : Nat} {q}, r - j = n → nl ≤ j → j ≤ r →
    catPart bits cs cached j nl r = some q → q.2.2.1 ≤ q.2.2.2 := by
  intro n
  induction n with
  | zero =>
    intro cs cached j nl r q hn h1 h2 h
    rw [catPart, if_neg (by omega)] at h
    cases h
    exact h1.trans h2
  | succ n ih =>
    intro cs cached j nl r q hn h1 h2 h
    rw [catPart, if_pos (by omega)] at h
    split at h
    · cases h
    · split at h
      · exact ih (by omega) (by omega) (by omega) h
      · split at h
        · exact ih (by omega) (by omega) (by omega) h
        · cases h

theorem binPart_bounds {f : CatFeature} : ∀ (n : Nat) {cs : List Nat} {j nl r : Nat} {q}, r - j = n → nl ≤ j → j ≤ r →
    binPart f cs j nl r = some q → q.2.1 ≤ q.2.2 := by
  intro n
  induction n with
  | zero =>
    intro cs j nl r q hn h1 h2 h
    rw [binPart, if_neg (by omega)] at h
    cases h
    exact h1.trans h2
  | succ n ih =>
    intro cs j nl r q hn h1 h2 h
    rw [binPart, if_pos (by omega)] at h
    split at h
    · cases h
    · split at h
      · cases h
      · split at h
        · exact ih (by omega) (by omega) (by omega) h
        · split at h
          · exact ih (by omega) (by omega) (by omega) h
          · cases h

theorem foldlM_congr_keeps {α β : Type} {f g : β → α → Option β} {P : β → Prop} (hfg : ∀ b a, P b → f b a = g b a)
    (hk : ∀ b a b', P b → g b a = some b' → P b') : ∀ (l : List α) (b : β), P b → l.foldlM f b = l.foldlM g b := by
  intro l
  induction l with
  | nil => intro b _; rfl
  | cons a l ih =>
    intro b hb
    rw [List.foldlM_cons, List.foldlM_cons, hfg b a hb]
    cases hg : g b a with
    | none => rfl
    | some b' => exact ih b' (hk _ _ _ hb hg)

theorem catStep_agree (h : T.AgreeUpTo N T') {ex : Bool} (st : CatState K) (i : Nat) (hl : st.cs.length ≤ N) :
    catStep T p leafSize ex st i = catStep T' p leafSize ex st i := by
  unfold catStep
  simp only [Option.bind_eq_bind]
  cases hc : catPart (if ex = true then (i, st.rng) else st.rng.int63).1 st.cs st.cached 0 0 st.cs.length with
  | none => rfl
  | some q =>
    obtain ⟨cs, cached, l, g⟩ := q
    have h1 := catPart_length _ rfl hc
    have h2 := catPart_bounds _ rfl le_rfl (Nat.zero_le _) hc
    simp only at h1 h2
    simp only [Option.bind_some, h.split _ _ _ ((take_drop_length cs h2).trans (h1.trans_le hl))]

theorem iterStep_agree (h : T.AgreeUpTo N T') (f : CatFeature) (cases : List Nat) (hl : cases.length ≤ N) (best : Nat)
    (st : XF K × Nat × Allocs K) (i : Nat) :
    iterStep f T p leafSize cases best st i = iterStep f T' p leafSize cases best st i := by
  unfold iterStep
  split
  · rfl
  · simp only [Option.bind_eq_bind]
    generalize hs : sift _ cases = x
    cases x with
    | none => rfl
    | some q =>
      obtain ⟨l, g⟩ := q
      have := sift_length hs
      simp only [Option.bind_some, h.split _ l g (this.trans_le hl)]

theorem iterStepBig_agree (h : T.AgreeUpTo N T') (f : CatFeature) (cases : List Nat) (hl : cases.length ≤ N) (best : Nat)
    (st : XF K × Nat × Allocs K) (i : Nat) :
    iterStepBig f T p leafSize cases best st i = iterStepBig f T' p leafSize cases best st i := by
  unfold iterStepBig
  split
  · rfl
  · simp only [Option.bind_eq_bind]
    generalize hs : sift _ cases = x
    cases x with
    | none => rfl
    | some q =>
      obtain ⟨l, g⟩ := q
      have := sift_length hs
      simp only [Option.bind_some, h.split _ l g (this.trans_le hl)]

theorem bigStep_agree (h : T.AgreeUpTo N T') (f : CatFeature) (cases : List Nat) (hl : cases.length ≤ N) {ex : Bool}
    (st : Nat × XF K × Allocs K × Rng) (i : Nat) :
    bigStep f T p leafSize ex cases st i = bigStep f T' p leafSize ex cases st i := by
  unfold bigStep
  simp only [Option.bind_eq_bind]
  generalize hs : sift _ cases = x
  cases x with
  | none => rfl
  | some q =>
    obtain ⟨l, g⟩ := q
    have := sift_length hs
    simp only [Option.bind_some, h.split _ l g (this.trans_le hl)]

theorem iterRounds_agree (h : T.AgreeUpTo N T') (f : CatFeature) (cases : List Nat) (hl : cases.length ≤ N) :
    ∀ (rounds best : Nat) (imp : XF K) (a : Allocs K),
      iterRounds f T p leafSize cases rounds best imp a = iterRounds f T' p leafSize cases rounds best imp a := by
  intro rounds
  induction rounds with
  | zero => intro best imp a; rfl
  | succ rounds ih =>
    intro best imp a
    rw [iterRounds, iterRounds]
    have e : iterStep f T p leafSize cases best = iterStep f T' p leafSize cases best :=
      funext fun st => funext fun i => iterStep_agree h f cases hl best st i
    rw [e]
    simp only [ih]

theorem iterRoundsBig_agree (h : T.AgreeUpTo N T') (f : CatFeature) (cases : List Nat) (hl : cases.length ≤ N) :
    ∀ (rounds best : Nat) (imp : XF K) (a : Allocs K),
      iterRoundsBig f T p leafSize cases rounds best imp a = iterRoundsBig f T' p leafSize cases rounds best imp a := by
  intro rounds
  induction rounds with
  | zero => intro best imp a; rfl
  | succ rounds ih =>
    intro best imp a
    rw [iterRoundsBig, iterRoundsBig]
    have e : iterStepBig f T p leafSize cases best = iterStepBig f T' p leafSize cases best :=
      funext fun st => funext fun i => iterStepBig_agree h f cases hl best st i
    rw [e]
    simp only [ih]

theorem search_agree (h : T.AgreeUpTo N T') (f : CatFeature) (w : Work K) (hw : w.cases.length ≤ N) :
    (Feature.cat f).search T p leafSize rs w = (Feature.cat f).search T' p leafSize rs w := by
  unfold Feature.search
  simp only
  split
  · unfold CatFeature.bestCatSplitIterBig
    rw [iterRoundsBig_agree h f _ hw]
  · split
    · unfold CatFeature.bestCatSplitIter
      rw [iterRounds_agree h f _ hw]
    · split
      · unfold CatFeature.bestCatSplitBig
        have e : ∀ ex, bigStep f T p leafSize ex w.cases = bigStep f T' p leafSize ex w.cases := fun ex =>
          funext fun st => funext fun i => bigStep_agree h f _ hw st i
        rw [e]
      · split
        · unfold CatFeature.bestBinSplit
          simp only [Option.bind_eq_bind]
          cases hb : binPart f w.cases 0 0 w.cases.length with
          | none => rfl
          | some q =>
            obtain ⟨cs, l, g⟩ := q
            have h1 := binPart_length _ rfl hb
            have h2 := binPart_bounds _ rfl le_rfl (Nat.zero_le _) hb
            simp only at h1 h2
            simp only [Option.bind_some, h.split _ _ _ ((take_drop_length cs h2).trans (h1.trans_le hw))]
        · unfold CatFeature.bestCatSplit
          simp only [Option.bind_eq_bind]
          cases hm : w.cases.mapM fun c => f.catData[c]? with
          | none => rfl
          | some cats =>
            simp only [Option.bind_some]
            rw [foldlM_congr_keeps (P := fun st : CatState K => st.cs.length ≤ N)
              (fun st i hs => catStep_agree h st i hs)
              (fun st i st' hs he => (catStep_length he).trans_le hs) _ _ hw]

theorem searchR_agree (h : T.AgreeUpTo N T') (f : Feature K) (w : Work K) (hw : w.cases.length ≤ N) :
    f.searchR r cut T p leafSize rs w = f.searchR r cut T' p leafSize rs w := by
  unfold Feature.searchR
  split_ifs
  · cases f with
    | num f => exact bestNumSplitR_agree h f w hw
    | cat f => exact search_agree h f w hw
  · cases f with
    | num f => exact bestNumSplitR_agree (h.judged r p) f w hw
    | cat f => exact search_agree (h.judged r p) f w hw

theorem bestNumSplitR_length {f : NumFeature K} {w w' : Work K} {x : Found K}
    (h : f.bestNumSplitR r cut T p leafSize rs w = some (x, w')) : w'.cases.length = w.cases.length := by
  rw [NumFeature.bestNumSplitR] at h
  split at h
  · simp only [Option.bind_eq_bind] at h
    obtain ⟨vals, h1, h⟩ := Option.bind_eq_some_iff.1 h
    obtain ⟨s, h2, h⟩ := Option.bind_eq_some_iff.1 h
    have hl := mapM_option_length h1
    obtain ⟨cs', vs', e, hc, -⟩ := c05_sortBy w.cases vals (by omega)
    rw [e] at h2
    cases h2
    obtain ⟨v0, -, h⟩ := Option.bind_eq_some_iff.1 h
    obtain ⟨vn, -, h⟩ := Option.bind_eq_some_iff.1 h
    split at h
    · cases h
      exact hc
    · obtain ⟨⟨first, stop, rng⟩, -, h⟩ := Option.bind_eq_some_iff.1 h
      simp only at h
      split at h
      · cases h
      · obtain ⟨⟨best, sp, a⟩, -, h⟩ := Option.bind_eq_some_iff.1 h
        cases h
        exact hc
  · cases h
    rfl

theorem searchR_length {f : Feature K} {w w' : Work K} {x : Found K}
    (h : f.searchR r cut T p leafSize rs w = some (x, w')) : w'.cases.length = w.cases.length := by
  unfold Feature.searchR at h
  split_ifs at h
  · cases f with
    | num f => exact bestNumSplitR_length h
    | cat f => exact Feature.search_length h
  · cases f with
    | num f => exact bestNumSplitR_length h
    | cat f => exact Feature.search_length h

theorem bestSplitR_agree (h : T.AgreeUpTo N T') (f : Feature K) (w : Work K) (hw : w.cases.length ≤ N) :
    f.bestSplitR r cut T p leafSize rs w = f.bestSplitR r cut T' p leafSize rs w := by
  unfold Feature.bestSplitR
  split
  · cases hs : sift f.isMissing w.cases with
    | none => rfl
    | some mk =>
      obtain ⟨miss, known⟩ := mk
      have := sift_length hs
      simp only [Option.bind_eq_bind, Option.bind_some]
      have e1 : ∀ ki a, f.searchR r cut T ki leafSize rs ⟨known, a, w.rng⟩ =
          f.searchR r cut T' ki leafSize rs ⟨known, a, w.rng⟩ := fun ki a =>
        searchR_agree h f _ (by show known.length ≤ N; omega)
      have e2 : ∀ a, missingImpurity T a miss = missingImpurity T' a miss := by
        intro a
        unfold missingImpurity
        rw [h.impurity a miss (by omega)]
      simp only [e1, e2, h.impurity _ known (show known.length ≤ N by omega)]
  · exact searchR_agree h f w hw

theorem bestSplitR_length {f : Feature K} {w w' : Work K} {x : Found K}
    (h : f.bestSplitR r cut T p leafSize rs w = some (x, w')) : w'.cases.length = w.cases.length := by
  rw [Feature.bestSplitR] at h
  split at h
  · obtain ⟨⟨miss, known⟩, -, h⟩ := Option.bind_eq_some_iff.1 h
    simp only at h
    split at h
    · cases h
      rfl
    · simp only [Option.bind_eq_bind] at h
      obtain ⟨⟨ki, a⟩, -, h⟩ := Option.bind_eq_some_iff.1 h
      obtain ⟨⟨mi, a'⟩, -, h⟩ := Option.bind_eq_some_iff.1 h
      obtain ⟨⟨r', w2⟩, -, h⟩ := Option.bind_eq_some_iff.1 h
      simp only at h
      split at h
      · cases h
        rfl
      · cases h
        rfl
  · exact searchR_length h

variable {fm : FeatureMatrix K} {C : Contrast K τ} {o : SplitOpts}

theorem evalFeatureR_agree (h : T.AgreeUpTo N T') (hv : o.vet = false) (he : o.evaloob = false) (s : Searching K τ)
    (best : XF K) (i : Nat) (hs : s.work.cases.length ≤ N) :
    evalFeatureR r cut fm T C o p s best i = evalFeatureR r cut fm T' C o p s best i := by
  unfold evalFeatureR
  cases fm.data[i]? with
  | none => rfl
  | some f =>
    simp only [Option.bind_eq_bind, Option.bind_some, bestSplitR_agree h f s.work hs, oobStepR, oobStep, vetStepR, hv, he,
      Bool.false_eq_true, false_and, if_false]

theorem evalFeatureR_keeps (hv : o.vet = false) (he : o.evaloob = false) {s s' : Searching K τ}
    {best : XF K} {i : Nat} {x : Found K} (hs : s.work.cases.length ≤ N)
    (h : evalFeatureR r cut fm T C o p s best i = some (x, s')) : s'.work.cases.length ≤ N := by
  unfold evalFeatureR at h
  simp only [Option.bind_eq_bind, oobStepR, oobStep, vetStepR, hv, he, Bool.false_eq_true, false_and, if_false,
    Option.map_some, Option.bind_some] at h
  obtain ⟨f, -, h⟩ := Option.bind_eq_some_iff.1 h
  obtain ⟨⟨r', w⟩, h1, h⟩ := Option.bind_eq_some_iff.1 h
  cases h
  exact (bestSplitR_length h1).trans_le hs

theorem bestSplitterR_agree (h : T.AgreeUpTo N T') (hv : o.vet = false) (he : o.evaloob = false) (st : SplitState K)
    (cs : List Nat) (nc : Nat) (hc : cs.length ≤ N) :
    bestSplitterR r cut fm T C o st cs nc = bestSplitterR r cut fm T' C o st cs nc ∧
    ∀ d, bestSplitterR r cut fm T' C o st cs nc = some d → d.st.work.cases.length ≤ N := by
  unfold bestSplitterR
  rw [h.impurity _ _ hc]
  cases hT : T'.impurity st.allocs cs with
  | none => exact ⟨rfl, fun d h => by cases h⟩
  | some pa =>
    obtain ⟨p, a⟩ := pa
    simp only
    split
    · exact ⟨rfl, fun d h => by cases h; exact hc⟩
    · refine bestLoop_congr (P := fun s : Searching K τ => s.work.cases.length ≤ N)
        (fun s b i hs => evalFeatureR_agree h hv he s b i hs)
        (fun s b i r s' hs h => evalFeatureR_keeps hv he hs h) (fun s n x s' hs h => ?_) _ _ _ hc
      rw [Searching.intn] at h
      obtain ⟨⟨y, rng⟩, -, h⟩ := Option.bind_eq_some_iff.1 h
      cases h
      exact hs

theorem growR_agree (h : T.AgreeUpTo N T') (hv : o.vet = false) (he : o.evaloob = false)
    (fp : List Nat → String) (md : Int) (sm : Bool) (fuel : Nat) (n : Node K) (st : SplitState K) (cs : List Nat)
    (d nc : Nat) (hc : cs.length ≤ N) :
    grow (treeGrowerR r cut fm T C o fp md sm) fm fuel n st cs d nc =
      grow (treeGrowerR r cut fm T' C o fp md sm) fm fuel n st cs d nc := by
  refine (grow_congr (g := treeGrowerR r cut fm T C o fp md sm) (g' := treeGrowerR r cut fm T' C o fp md sm)
    (P := fun _ : SplitState K => True) (size := N) rfl rfl rfl rfl ?_ ?_ fuel n st cs d nc trivial hc).1
  · intro st cs nc _ hc
    show (bestSplitterR r cut fm T C o st cs nc).bind _ = (bestSplitterR r cut fm T' C o st cs nc).bind _
    rw [(bestSplitterR_agree h hv he st cs nc hc).1]
  · intro st cs nc st' res _ hc h'
    obtain ⟨d, h1, h'⟩ := Option.bind_eq_some_iff.1 h'
    have hr := (bestSplitterR_agree h hv he st cs nc hc).2 _ h1
    cases h'
    exact ⟨trivial, hr⟩

end
end CloudForest
