import Verif.Model.Scratch
import Verif.Lemmas.Split
import Verif.Props.SortBy

/-!
# Lemmas on scratch space: no search changes the number of its cases
-/

set_option linter.unusedSectionVars false

namespace CloudForest
variable {K : Type} [Field K] [LinearOrder K] [IsStrictOrderedRing K] {τ σ : Type}

/-! ## Lengths -/

theorem mapM_option_length {α β : Type} {f : α → Option β} : ∀ {l : List α} {l' : List β}, l.mapM f = some l' →
    l'.length = l.length
  | [], l', h => by
    simp at h
    simp [h]
  | a :: l, l', h => by
    rw [List.mapM_cons] at h
    obtain ⟨b, -, h⟩ := Option.bind_eq_some_iff.1 h
    obtain ⟨bs, hb, h⟩ := Option.bind_eq_some_iff.1 h
    cases h
    simp [mapM_option_length hb]

theorem sift_length {test : Nat → Option Bool} : ∀ {cs l r : List Nat}, sift test cs = some (l, r) →
    l.length + r.length = cs.length
  | [], l, r, h => by
    cases h
    rfl
  | c :: cs, l, r, h => by
    rw [sift] at h
    obtain ⟨b, -, h⟩ := Option.bind_eq_some_iff.1 h
    obtain ⟨⟨l', r'⟩, h1, h⟩ := Option.bind_eq_some_iff.1 h
    have := sift_length h1
    cases b
    · cases h
      simp only [List.length_cons]
      omega
    · cases h
      simp only [List.length_cons]
      omega

theorem catPart_length {bits : Nat} : ∀ (n : Nat) {cs cached : List Nat} {j nl r : Nat} {q}, r - j = n →
    catPart bits cs cached j nl r = some q → q.1.length = cs.length := by
  intro n
  induction n with
  | zero =>
    intro cs cached j nl r q hn h
    rw [catPart, if_neg (by omega)] at h
    cases h
    rfl
  | succ n ih =>
    intro cs cached j nl r q hn h
    rw [catPart, if_pos (by omega)] at h
    split at h
    · cases h
    · split at h
      · exact ih (by omega) h
      · split at h
        · next h1 h2 =>
          rw [ih (by omega) h, swp_length h1]
        · cases h

theorem binPart_length {f : CatFeature} : ∀ (n : Nat) {cs : List Nat} {j nl r : Nat} {q}, r - j = n →
    binPart f cs j nl r = some q → q.1.length = cs.length := by
  intro n
  induction n with
  | zero =>
    intro cs j nl r q hn h
    rw [binPart, if_neg (by omega)] at h
    cases h
    rfl
  | succ n ih =>
    intro cs j nl r q hn h
    rw [binPart, if_pos (by omega)] at h
    split at h
    · cases h
    · split at h
      · cases h
      · split at h
        · exact ih (by omega) h
        · split at h
          · next h1 =>
            rw [ih (by omega) h, swp_length h1]
          · cases h

theorem splitLoop_length {miss left : Nat → Option Bool} : ∀ (n : Nat) {cs : List Nat} {i nl lr : Nat} {q},
    (lr - i) + (cs.length - nl) = n → splitLoop miss left cs i nl lr = some q → q.1.length = cs.length := by
  intro n
  induction n using Nat.strong_induction_on with
  | _ n ih =>
    intro cs i nl lr q hn h
    rw [splitLoop] at h
    split at h
    · split at h
      · cases h
      · split at h
        · cases h
        · exact ih _ (by omega) rfl h
        · split at h
          · cases h
          · split at h
            · split at h
              · cases h
              · next hs =>
                have h1 := swp_length hs
                have h2 := swp_lt hs
                rw [ih _ (by omega) rfl h, h1]
            · exact ih _ (by omega) rfl h
          · split at h
            · cases h
            · next hs =>
              have h1 := swp_length hs
              have h2 := swp_lt hs
              rw [ih _ (by omega) rfl h, h1]
    · cases h
      rfl

theorem foldlM_option_keeps {α β : Type} {f : β → α → Option β} {P : β → Prop}
    (hf : ∀ b a b', P b → f b a = some b' → P b') : ∀ (l : List α) (b b' : β), P b → l.foldlM f b = some b' → P b' := by
  intro l
  induction l with
  | nil =>
    intro b b' hb h
    cases h
    exact hb
  | cons a l ih =>
    intro b b' hb h
    rw [List.foldlM_cons] at h
    obtain ⟨c, h1, h2⟩ := Option.bind_eq_some_iff.1 h
    exact ih _ _ (hf _ _ _ hb h1) h2

theorem catStep_length {T : Target K} {p : XF K} {leafSize : Nat} {ex : Bool} {st st' : CatState K} {i : Nat}
    (h : catStep T p leafSize ex st i = some st') : st'.cs.length = st.cs.length := by
  rw [catStep] at h
  simp only [Option.bind_eq_bind] at h
  obtain ⟨⟨cs, cached, l, r⟩, h1, h⟩ := Option.bind_eq_some_iff.1 h
  have h2 := catPart_length _ rfl h1
  simp only at h h2
  split at h
  · cases h
    exact h2
  · obtain ⟨⟨s, a⟩, -, h⟩ := Option.bind_eq_some_iff.1 h
    simp only at h
    split at h
    · cases h
      exact h2
    · cases h
      exact h2

theorem Feature.search_length {f : Feature K} {T : Target K} {p : XF K} {leafSize : Nat} {rs : Bool} {w w' : Work K}
    {r : Found K} (h : f.search T p leafSize rs w = some (r, w')) : w'.cases.length = w.cases.length := by
  cases f with
  | num f =>
    rw [Feature.search, NumFeature.bestNumSplit] at h
    split at h
    · simp only [Option.bind_eq_bind] at h
      obtain ⟨vals, h1, h⟩ := Option.bind_eq_some_iff.1 h
      obtain ⟨s, h2, h⟩ := Option.bind_eq_some_iff.1 h
      have hl := mapM_option_length h1
      obtain ⟨cs', vs', e, hc, -⟩ := c05_sortBy w.cases vals (by omega)
      rw [e] at h2
      cases h2
      obtain ⟨v0, -, h⟩ := Option.bind_eq_some_iff.1 h
      obtain ⟨vn, -, h⟩ := Option.bind_eq_some_iff.1 h
      split at h
      · cases h
        exact hc
      · obtain ⟨⟨first, stop, rng⟩, -, h⟩ := Option.bind_eq_some_iff.1 h
        simp only at h
        split at h
        · cases h
        · obtain ⟨⟨best, sp, a⟩, -, h⟩ := Option.bind_eq_some_iff.1 h
          cases h
          exact hc
    · cases h
      rfl
  | cat f =>
    rw [Feature.search] at h
    split at h
    · obtain ⟨⟨b, imp, a⟩, -, h⟩ := Option.bind_eq_some_iff.1 h
      cases h
      rfl
    · split at h
      · obtain ⟨⟨b, imp, a⟩, -, h⟩ := Option.bind_eq_some_iff.1 h
        cases h
        rfl
      · split at h
        · obtain ⟨⟨b, imp, a, rng⟩, -, h⟩ := Option.bind_eq_some_iff.1 h
          cases h
          rfl
        · split at h
          · rw [CatFeature.bestBinSplit] at h
            obtain ⟨⟨cs, l, r⟩, h1, h⟩ := Option.bind_eq_some_iff.1 h
            have := binPart_length _ rfl h1
            simp only at h
            split at h
            · cases h
              exact this
            · obtain ⟨⟨s, a⟩, -, h⟩ := Option.bind_eq_some_iff.1 h
              cases h
              exact this
          · rw [CatFeature.bestCatSplit] at h
            obtain ⟨cats, h1, h⟩ := Option.bind_eq_some_iff.1 h
            obtain ⟨st, h2, h⟩ := Option.bind_eq_some_iff.1 h
            cases h
            exact foldlM_option_keeps (P := fun st : CatState K => st.cs.length = w.cases.length)
              (fun b a b' hb h => (catStep_length h).trans hb) _ _ _ rfl h2

theorem Feature.bestSplit_length {f : Feature K} {T : Target K} {p : XF K} {leafSize : Nat} {rs : Bool} {w w' : Work K}
    {r : Found K} (h : f.bestSplit T p leafSize rs w = some (r, w')) : w'.cases.length = w.cases.length := by
  rw [Feature.bestSplit] at h
  split at h
  · obtain ⟨⟨miss, known⟩, -, h⟩ := Option.bind_eq_some_iff.1 h
    simp only at h
    split at h
    · cases h
      rfl
    · simp only [Option.bind_eq_bind] at h
      obtain ⟨⟨ki, a⟩, -, h⟩ := Option.bind_eq_some_iff.1 h
      obtain ⟨⟨mi, a'⟩, -, h⟩ := Option.bind_eq_some_iff.1 h
      obtain ⟨⟨r', w2⟩, -, h⟩ := Option.bind_eq_some_iff.1 h
      simp only at h
      split at h
      · cases h
        rfl
      · cases h
        rfl
  · exact Feature.search_length h

/-! ## Enough space changes nothing -/

theorem Feature.scratch_le (f : Feature K) (leafSize n : Nat) : f.scratch leafSize n ≤ n := by
  cases f with
  | num f =>
    rw [Feature.scratch]
    split
    · exact le_rfl
    · omega
  | cat f =>
    rw [Feature.scratch]
    split
    · omega
    · split
      · omega
      · exact le_rfl

theorem Feature.searchIn_eq {size : Nat} (f : Feature K) (T : Target K) (p : XF K) (leafSize : Nat) (rs : Bool)
    (w : Work K) (h : w.cases.length ≤ size) :
    f.searchIn size T p leafSize rs w = f.search T p leafSize rs w := by
  rw [Feature.searchIn, if_pos ((f.scratch_le _ _).trans h)]

theorem Feature.bestSplitIn_eq {size : Nat} (f : Feature K) (T : Target K) (p : XF K) (leafSize : Nat) (rs : Bool)
    (w : Work K) (h : w.cases.length ≤ size) :
    f.bestSplitIn size T p leafSize rs w = f.bestSplit T p leafSize rs w := by
  rw [Feature.bestSplitIn, Feature.bestSplit]
  split
  · cases hs : sift f.isMissing w.cases with
    | none => rfl
    | some mk =>
      obtain ⟨miss, known⟩ := mk
      have := sift_length hs
      simp only [Option.bind_eq_bind, Option.bind_some]
      have e : ∀ ki a, f.searchIn size T ki leafSize rs ⟨known, a, w.rng⟩ =
          f.search T ki leafSize rs ⟨known, a, w.rng⟩ := fun ki a =>
        f.searchIn_eq _ _ _ _ _ (by show known.length ≤ size; omega)
      simp only [e]
  · exact f.searchIn_eq _ _ _ _ _ h

/-- There is room for the cases, and for those out of bag if they are searched. -/
def Searching.Room (size : Nat) (o : SplitOpts) (s : Searching K τ) : Prop :=
  s.work.cases.length ≤ size ∧ (o.vet = true → o.evaloob = true → s.oob.length ≤ size)

theorem oobStep_room {size : Nat} {f : Feature K} {T : Target K} {o : SplitOpts} {best : XF K} {r : Found K}
    {s s' : Searching K τ} {x : XF K} (hs : s.Room size o) (h : oobStep f T o best r s = some (x, s')) :
    s'.Room size o := by
  rw [oobStep] at h
  split at h
  · simp only [Option.bind_eq_bind] at h
    obtain ⟨code, -, h⟩ := Option.bind_eq_some_iff.1 h
    obtain ⟨sp, h1, h⟩ := Option.bind_eq_some_iff.1 h
    obtain ⟨⟨p, a⟩, -, h⟩ := Option.bind_eq_some_iff.1 h
    obtain ⟨⟨q, a'⟩, -, h⟩ := Option.bind_eq_some_iff.1 h
    cases h
    obtain ⟨q, h2, h1⟩ := Option.bind_eq_some_iff.1 h1
    have := splitLoop_length _ rfl h2
    cases h1
    refine ⟨hs.1, fun hv he => ?_⟩
    show (slice3 q).cases.length ≤ size
    have e : (slice3 q).cases = q.1 := rfl
    rw [e, this]
    exact hs.2 hv he
  · cases h
    exact hs

theorem vetStepIn_eq {size : Nat} (f : Feature K) (C : Contrast K τ) (o : SplitOpts) (p best imp : XF K)
    (s : Searching K τ) (hs : s.Room size o) : vetStepIn size f C o p best imp s = vetStep f C o p best imp s := by
  rw [vetStepIn, vetStep]
  by_cases hc : o.vet = true ∧ best < imp
  · rw [if_pos hc, if_pos hc]
    have e : ∀ (c : τ) (rng : Rng), f.bestSplitIn size (C.target c) p o.leafSize o.extraRandom
        ⟨if o.evaloob then s.oob else s.work.cases, s.work.allocs, rng⟩ =
        f.bestSplit (C.target c) p o.leafSize o.extraRandom
        ⟨if o.evaloob then s.oob else s.work.cases, s.work.allocs, rng⟩ := by
      intro c rng
      refine f.bestSplitIn_eq _ _ _ _ _ ?_
      show (if o.evaloob then s.oob else s.work.cases).length ≤ size
      split
      · next he => exact hs.2 hc.1 he
      · exact hs.1
    simp only [e]
  · rw [if_neg hc, if_neg hc]

theorem vetStep_room {size : Nat} {f : Feature K} {C : Contrast K τ} {o : SplitOpts} {p best imp x : XF K}
    {s s' : Searching K τ} (hs : s.Room size o) (h : vetStep f C o p best imp s = some (x, s')) : s'.Room size o := by
  rw [vetStep] at h
  split at h
  · next hc =>
    simp only [Option.bind_eq_bind] at h
    obtain ⟨⟨c, rng⟩, -, h⟩ := Option.bind_eq_some_iff.1 h
    obtain ⟨⟨v, w⟩, h1, h⟩ := Option.bind_eq_some_iff.1 h
    have hl := Feature.bestSplit_length h1
    simp only at hl
    cases h
    by_cases he : o.evaloob = true
    · rw [if_pos he]
      rw [if_pos he] at hl
      refine ⟨hs.1, fun hv _ => ?_⟩
      show w.cases.length ≤ size
      rw [hl]
      exact hs.2 hv he
    · rw [if_neg he]
      rw [if_neg he] at hl
      refine ⟨?_, fun hv he' => absurd he' he⟩
      show w.cases.length ≤ size
      rw [hl]
      exact hs.1
  · cases h
    exact hs

theorem evalFeatureIn_eq {size : Nat} (fm : FeatureMatrix K) (T : Target K) (C : Contrast K τ) (o : SplitOpts)
    (p : XF K) (s : Searching K τ) (best : XF K) (i : Nat) (hs : s.Room size o) :
    evalFeatureIn size fm T C o p s best i = evalFeature fm T C o p s best i := by
  rw [evalFeatureIn, evalFeature]
  cases hf : fm.data[i]? with
  | none => rfl
  | some f =>
    simp only [Option.bind_eq_bind, Option.bind_some]
    rw [f.bestSplitIn_eq _ _ _ _ _ hs.1]
    cases hb : f.bestSplit T p o.leafSize o.extraRandom s.work with
    | none => rfl
    | some rw' =>
      obtain ⟨r, w⟩ := rw'
      have hl := Feature.bestSplit_length hb
      have hs1 : ({ s with work := w } : Searching K τ).Room size o := ⟨by rw [hl]; exact hs.1, hs.2⟩
      simp only [Option.bind_some]
      cases ho : oobStep f T o best r { s with work := w } with
      | none => rfl
      | some xs =>
        obtain ⟨x, s2⟩ := xs
        simp only [Option.bind_some]
        rw [vetStepIn_eq f C o p best x s2 (oobStep_room hs1 ho)]

theorem evalFeature_room {size : Nat} {fm : FeatureMatrix K} {T : Target K} {C : Contrast K τ} {o : SplitOpts}
    {p : XF K} {s s' : Searching K τ} {best : XF K} {i : Nat} {r : Found K} (hs : s.Room size o)
    (h : evalFeature fm T C o p s best i = some (r, s')) : s'.Room size o := by
  rw [evalFeature] at h
  simp only [Option.bind_eq_bind] at h
  obtain ⟨f, -, h⟩ := Option.bind_eq_some_iff.1 h
  obtain ⟨⟨r', w⟩, h1, h⟩ := Option.bind_eq_some_iff.1 h
  obtain ⟨⟨x, s1⟩, h2, h⟩ := Option.bind_eq_some_iff.1 h
  obtain ⟨⟨y, s2⟩, h3, h⟩ := Option.bind_eq_some_iff.1 h
  cases h
  have hl := Feature.bestSplit_length h1
  exact vetStep_room (oobStep_room (s := { s with work := w }) ⟨by rw [hl]; exact hs.1, hs.2⟩ h2) h3

theorem evalAt_congr {eval eval' : σ → XF K → Nat → Option (Found K × σ)} {P : σ → Prop}
    (he : ∀ s b i, P s → eval s b i = eval' s b i)
    (hk : ∀ s b i r s', P s → eval' s b i = some (r, s') → P s') (d : Draw K σ) (hd : P d.st) :
    evalAt eval d = evalAt eval' d ∧ ∀ d', evalAt eval' d = some d' → P d'.st := by
  unfold evalAt
  cases hi : d.cans[d.lastSample]? with
  | none => exact ⟨rfl, fun d' h => by cases h⟩
  | some i =>
    simp only
    rw [he _ _ _ hd]
    refine ⟨rfl, fun d' h => ?_⟩
    split at h
    · cases h
    · next r st hr =>
      have := hk _ _ _ _ _ hd hr
      split at h
      · split at h
        · cases h
        · cases h
          exact this
      · cases h
        exact this

theorem bestLoop_congr {eval eval' : σ → XF K → Nat → Option (Found K × σ)} {intn : σ → Nat → Option (Nat × σ)}
    {mTry : Nat} {force : Bool} {P : σ → Prop} (he : ∀ s b i, P s → eval s b i = eval' s b i)
    (hk : ∀ s b i r s', P s → eval' s b i = some (r, s') → P s')
    (hi : ∀ s n x s', P s → intn s n = some (x, s') → P s') :
    ∀ (fuel j : Nat) (d : Draw K σ), P d.st →
      bestLoop eval intn mTry force fuel j d = bestLoop eval' intn mTry force fuel j d ∧
      ∀ d', bestLoop eval' intn mTry force fuel j d = some d' → P d'.st := by
  intro fuel
  induction fuel with
  | zero => exact fun j d hd => ⟨rfl, fun d' h => by cases h⟩
  | succ fuel ih =>
    intro j d hd
    rw [bestLoop, bestLoop]
    split
    · split
      · exact ⟨rfl, fun d' h => by cases h; exact hd⟩
      · split
        · cases hx : intn d.st (d.cans.length - d.nDrawn - d.lastSample) with
          | none => exact ⟨rfl, fun d' h => by cases h⟩
          | some xs =>
            obtain ⟨x, st⟩ := xs
            have hst := hi _ _ _ _ hd hx
            simp only
            split
            · exact ih _ _ hst
            · cases hsw : swp d.cans (d.lastSample + x) d.lastSample with
              | none => exact ⟨rfl, fun d' h => by cases h⟩
              | some cans =>
                simp only
                obtain ⟨e, k⟩ := evalAt_congr he hk ({ d with cans := cans, st := st } : Draw K σ) hst
                rw [e]
                cases hev : evalAt eval' ({ d with cans := cans, st := st } : Draw K σ) with
                | none => exact ⟨rfl, fun d' h => by cases h⟩
                | some d2 => exact ih _ _ (k _ hev)
        · obtain ⟨e, k⟩ := evalAt_congr he hk d hd
          rw [e]
          cases hev : evalAt eval' d with
          | none => exact ⟨rfl, fun d' h => by cases h⟩
          | some d2 => exact ih _ _ (k _ hev)
    · exact ⟨rfl, fun d' h => by cases h; exact hd⟩

theorem bestSplitterIn_eq {size : Nat} (fm : FeatureMatrix K) (T : Target K) (C : Contrast K τ) (o : SplitOpts)
    (st : SplitState K) (cases : List Nat) (nc : Nat) (hc : cases.length ≤ size)
    (ho : o.vet = true → o.evaloob = true → st.oob.length ≤ size) :
    bestSplitterIn size fm T C o st cases nc = bestSplitter fm T C o st cases nc ∧
    ∀ d, bestSplitter fm T C o st cases nc = some d → d.st.Room size o := by
  unfold bestSplitterIn bestSplitter
  cases hT : T.impurity st.allocs cases with
  | none => exact ⟨rfl, fun d h => by cases h⟩
  | some pa =>
    obtain ⟨p, a⟩ := pa
    simp only
    split
    · exact ⟨rfl, fun d h => by cases h; exact ⟨hc, ho⟩⟩
    · refine bestLoop_congr (P := Searching.Room size o) (fun s b i hs => evalFeatureIn_eq fm T C o p s b i hs)
        (fun s b i r s' hs h => evalFeature_room hs h) (fun s n x s' hs h => ?_) _ _ _ ⟨hc, ho⟩
      rw [Searching.intn] at h
      obtain ⟨⟨y, rng⟩, -, h⟩ := Option.bind_eq_some_iff.1 h
      cases h
      exact hs

/-- Growing with a search that behaves the same on few cases. -/
theorem grow_congr {g g' : Grower K σ} {fm : FeatureMatrix K} {P : σ → Prop} {size : Nat}
    (h1 : g.findPredicted = g'.findPredicted) (h2 : g.leafSize = g'.leafSize) (h3 : g.maxDepth = g'.maxDepth)
    (h4 : g.splitmissing = g'.splitmissing)
    (hb : ∀ st cs nc, P st → cs.length ≤ size → g.best st cs nc = g'.best st cs nc)
    (hk : ∀ st cs nc st' res, P st → cs.length ≤ size → g'.best st cs nc = some (st', res) →
      P st' ∧ res.cases.length ≤ size) :
    ∀ (fuel : Nat) (n : Node K) (st : σ) (cs : List Nat) (d nc : Nat), P st → cs.length ≤ size →
      grow g fm fuel n st cs d nc = grow g' fm fuel n st cs d nc ∧
      ∀ n' st', grow g' fm fuel n st cs d nc = some (n', st') → P st' := by
  intro fuel
  induction fuel with
  | zero => exact fun n st cs d nc _ _ => ⟨rfl, fun n' st' h => by simp [grow] at h⟩
  | succ fuel ih =>
    intro n st cs d nc hP hc
    cases n with
    | nil => exact ⟨by simp [grow], fun n' st' h => by simp [grow] at h⟩
    | mk c0 fi0 l r m p0 s0 =>
      rw [grow, grow, h1, h2, h3, h4]
      by_cases hcond : ((d : Int) < g'.maxDepth ∨ g'.maxDepth ≤ 0) ∧ 2 * g'.leafSize ≤ cs.length
      · rw [if_pos hcond, if_pos hcond, hb _ _ _ hP hc]
        cases hbest : g'.best st cs nc with
        | none => exact ⟨rfl, fun n' st' h => by cases h⟩
        | some x =>
          obtain ⟨st1, res⟩ := x
          obtain ⟨hP1, hc1⟩ := hk _ _ _ _ _ hP hc hbest
          simp only [Option.bind_eq_bind, Option.bind_some]
          cases hsp : res.split with
          | none =>
            refine ⟨rfl, fun n' st' h => ?_⟩
            cases h
            exact hP1
          | some code =>
            simp only
            cases hf : fm.data[res.fi]? with
            | none => exact ⟨rfl, fun n' st' h => by cases h⟩
            | some f =>
              simp only [Option.bind_some]
              cases hd : f.decodeSplit code with
              | none => exact ⟨rfl, fun n' st' h => by cases h⟩
              | some spl =>
                simp only [Option.bind_some]
                cases hpt : f.splitPoints code res.cases with
                | none => exact ⟨rfl, fun n' st' h => by cases h⟩
                | some q =>
                  obtain ⟨cs', li, ri⟩ := q
                  have hlen : cs'.length ≤ size := (splitLoop_length _ rfl hpt).trans_le hc1
                  simp only [Option.bind_some]
                  obtain ⟨e1, k1⟩ := ih (growChildren g'.splitmissing l r m).1 st1 (cs'.take li) (d + 1)
                    res.nconstants hP1 ((List.length_take_le' _ _).trans hlen)
                  rw [e1]
                  cases hg1 : grow g' fm fuel (growChildren g'.splitmissing l r m).1 st1 (cs'.take li) (d + 1)
                      res.nconstants with
                  | none => exact ⟨rfl, fun n' st' h => by cases h⟩
                  | some y =>
                    obtain ⟨nl, st2⟩ := y
                    have hP2 := k1 _ _ hg1
                    simp only [Option.bind_some]
                    obtain ⟨e2, k2⟩ := ih (growChildren g'.splitmissing l r m).2.1 st2 (cs'.drop ri) (d + 1)
                      res.nconstants hP2 (by rw [List.length_drop]; omega)
                    rw [e2]
                    cases hg2 : grow g' fm fuel (growChildren g'.splitmissing l r m).2.1 st2 (cs'.drop ri) (d + 1)
                        res.nconstants with
                    | none => exact ⟨rfl, fun n' st' h => by cases h⟩
                    | some y =>
                      obtain ⟨nr, st3⟩ := y
                      have hP3 := k2 _ _ hg2
                      simp only [Option.bind_some]
                      split
                      · obtain ⟨e3, k3⟩ := ih (growChildren g'.splitmissing l r m).2.2 st3
                          ((cs'.drop li).take (ri - li)) (d + 1) res.nconstants hP3 (by
                            refine (List.length_take_le' _ _).trans ?_
                            rw [List.length_drop]
                            omega)
                        rw [e3]
                        refine ⟨rfl, fun n' st' h => ?_⟩
                        obtain ⟨⟨nm, st4⟩, hg3, h⟩ := Option.bind_eq_some_iff.1 h
                        cases h
                        exact k3 _ _ hg3
                      · refine ⟨rfl, fun n' st' h => ?_⟩
                        cases h
                        exact hP3
      · rw [if_neg hcond, if_neg hcond]
        refine ⟨rfl, fun n' st' h => ?_⟩
        cases h
        exact hP

theorem growIn_eq {size : Nat} (fm : FeatureMatrix K) (T : Target K) (C : Contrast K τ) (o : SplitOpts)
    (fp : List Nat → String) (md : Int) (sm : Bool) (fuel : Nat) (n : Node K) (st : SplitState K) (cs : List Nat)
    (d nc : Nat) (hc : cs.length ≤ size) (ho : o.vet = true → o.evaloob = true → st.oob.length ≤ size) :
    grow (treeGrowerIn size fm T C o fp md sm) fm fuel n st cs d nc =
      grow (treeGrower fm T C o fp md sm) fm fuel n st cs d nc := by
  refine (grow_congr (g := treeGrowerIn size fm T C o fp md sm) (g' := treeGrower fm T C o fp md sm)
    (P := fun st : SplitState K => o.vet = true → o.evaloob = true → st.oob.length ≤ size)
    (size := size) rfl rfl rfl rfl ?_ ?_ fuel n st cs d nc ho hc).1
  · intro st cs nc hP hc
    show (bestSplitterIn size fm T C o st cs nc).bind _ = (bestSplitter fm T C o st cs nc).bind _
    rw [(bestSplitterIn_eq fm T C o st cs nc hc hP).1]
  · intro st cs nc st' res hP hc h
    obtain ⟨d, h1, h⟩ := Option.bind_eq_some_iff.1 h
    have hr := (bestSplitterIn_eq (size := size) fm T C o st cs nc hc hP).2 _ h1
    cases h
    exact ⟨hr.2, hr.1⟩

end CloudForest
