import Verif.Lemmas.Search
import Verif.Props.Impurity
import Batteries.Data.Nat.Lemmas

/-!
# Properties of the searches for a split of one feature
-/

set_option linter.unusedSectionVars false

namespace CloudForest
variable {K : Type} [Field K] [LinearOrder K] [IsStrictOrderedRing K]

/-! ## The two built-in targets meet the laws -/

theorem wavg_fin (nl nr : Nat) (x y : K) (h : nl ≠ 0) :
    wavg nl nr (.fin x) (.fin y) = .fin ((nl * x + nr * y) / (nl + nr)) := by
  unfold wavg XF.ofNat
  have : (nl : K) + (nr : K) + 0 ≠ 0 := by
    have h1 : (0 : K) < nl := by exact_mod_cast Nat.pos_of_ne_zero h
    have h2 : (0 : K) ≤ nr := by exact_mod_cast Nat.zero_le nr
    rw [add_zero]; exact (add_pos_of_pos_of_nonneg h1 h2).ne'
  simp only [XF.fin_mul, XF.fin_add]
  rw [XF.fin_div _ this, add_zero]

/-- Gini impurity of a class target. -/
def giniLaws (f : CatFeature) (n : Nat) (cases : List Nat) (h : f.InRange n cases) :
    TargetLaws (giniTarget f : Target K) cases := countLaws f giniFromCounts n cases h

theorem giniLaws_weighted (f : CatFeature) (n : Nat) (cases : List Nat) (h : f.InRange n cases) :
    (giniLaws (K := K) f n cases h).Weighted (f.gini K n) where
  finite l hl _ := giniFromCounts_eq f n l hl
  nonneg l hl hc := gini_nonneg f n l (fun c hc' => h c (hc c hc')) hl
  mean l r hl hr _ := by
    show wavg _ _ _ _ = _
    rw [giniFromCounts_eq f n l hl, giniFromCounts_eq f n r hr, wavg_fin _ _ _ _ (by simpa using hl)]

theorem sseLaws_weighted (f : NumFeature K) (cases : List Nat) (h : f.Finite cases) :
    (sseLaws f cases h).Weighted f.sse where
  finite l hl _ := sseX_eq f l hl
  nonneg l _ _ := sse_nonneg f l
  mean l r hl hr _ := by
    show wavg _ _ _ _ = _
    rw [sseX_eq f l hl, sseX_eq f r hr, wavg_fin _ _ _ _ (by simpa using hl)]

/-! ## C10 -/

/-- **C10.** On finite values without near ties, `BestNumSplit` succeeds, only reorders the
cases, and either finds nothing (and says so by `minImp`) or returns a threshold leaving
`leafSize` cases on the left and more on the right, with the decrease its partition gives.
Unless a random position was asked for, no threshold does better. -/
theorem c10_num_search (f : NumFeature K) {T : Target K} {cases : List Nat}
    (L : TargetLaws T cases) (hfin : f.Finite cases) (hties : (Feature.num f).NoNearTies cases)
    (parentImp : XF K) {leafSize : Nat} (hls : 1 ≤ leafSize) (randomSplit : Bool) (w : Work K)
    (hcs : ∀ c ∈ w.cases, c ∈ cases) (hok : L.Ok w.allocs) :
    ∃ r w', f.bestNumSplit T parentImp leafSize randomSplit w = some (r, w') ∧
      w'.cases.Perm w.cases ∧
      (r.imp = minImp ∨ minImp < r.imp ∧ ∃ t : K, r.code = some (.num (.fin t)) ∧
        leafSize ≤ ((Feature.num f).lefts (.num (.fin t)) w.cases).length ∧
        leafSize < ((Feature.num f).rights (.num (.fin t)) w.cases).length ∧
        r.imp = decrease parentImp (L.S ((Feature.num f).lefts (.num (.fin t)) w.cases)
          ((Feature.num f).rights (.num (.fin t)) w.cases))) ∧
      (randomSplit = false → ∀ t : K,
        leafSize ≤ ((Feature.num f).lefts (.num (.fin t)) w.cases).length →
        leafSize < ((Feature.num f).rights (.num (.fin t)) w.cases).length →
        ¬ r.imp < decrease parentImp (L.S ((Feature.num f).lefts (.num (.fin t)) w.cases)
          ((Feature.num f).rights (.num (.fin t)) w.cases))) := by
  have hties' : ∀ c ∈ w.cases, ∀ d ∈ w.cases, f.value c < f.value d →
      f.value c + cutoff < f.value d := fun c hc d hd => hties c (hcs c hc) d (hcs d hd)
  have hfin' : f.Finite w.cases := fun c hc => hfin c (hcs c hc)
  obtain ⟨r, w', e, h⟩ := bestNumSplit_ok f L hfin parentImp hls randomSplit w hcs hok
  refine ⟨r, w', e, h.perm, ?_, ?_⟩
  · rcases h.found with h1 | ⟨h1, t, h2, h3, h4, h5⟩
    · exact .inl h1
    · exact .inr ⟨h1, t, h2, h3, h4, h5 hties'⟩
  · intro hr t h1 h2
    refine h.opt hr t h1 h2 ?_
    intro c hc d hd
    rw [lefts_num hfin', List.mem_filter] at hc
    rw [rights_num hfin', List.mem_filter] at hd
    refine hties' c hc.1 d hd.1 (lt_of_le_of_lt (b := t) ?_ ?_)
    · simpa using hc.2
    · simpa using hd.2

/-- Six cases with values 3, 1, 2, 5, 4, 2. -/
def exSplit : NumFeature ℚ :=
  ⟨[.fin 3, .fin 1, .fin 2, .fin 5, .fin 4, .fin 2], List.replicate 6 false, "x", false⟩
/-- Their classes. -/
def exSplitT : CatFeature :=
  ⟨.empty, [1, 0, 0, 1, 1, 0], List.replicate 6 false, "t", false, false⟩
/-- Scratch space for them. -/
def exWork : Work ℚ := ⟨[0, 1, 2, 3, 4, 5],
  ⟨[0, 0], [0, 0], [0, 0], .fin 0, .fin 0, .fin 0, .fin 0, .fin 0, .fin 0⟩, fun k => 7 * k + 3⟩

theorem exSplit_finite : exSplit.Finite [0, 1, 2, 3, 4, 5] := by
  intro c hc; fin_cases hc <;> simp [exSplit]

theorem exSplit_ties : (Feature.num exSplit).NoNearTies [0, 1, 2, 3, 4, 5] := by
  intro c hc d hd
  fin_cases hc <;> fin_cases hd <;> simp [exSplit, NumFeature.value] <;> norm_num

theorem exSplitT_inRange : exSplitT.InRange 2 [0, 1, 2, 3, 4, 5] := by
  intro c hc; fin_cases hc <;> simp [exSplitT]

example : ∃ r w', exSplit.bestNumSplit (giniTarget exSplitT) (.fin (1 / 2)) 1 false exWork =
    some (r, w') ∧ w'.cases.Perm [0, 1, 2, 3, 4, 5] := by
  obtain ⟨r, w', h1, h2, -⟩ := c10_num_search exSplit (giniLaws exSplitT 2 _ exSplitT_inRange)
    exSplit_finite exSplit_ties (.fin (1 / 2)) (le_refl 1) false exWork (fun _ h => h)
    ⟨rfl, rfl, rfl⟩
  exact ⟨r, w', h1, h2⟩

/-- The search on the example finds the perfect threshold 5/2. -/
example : (exSplit.bestNumSplit (giniTarget exSplitT) (.fin (1 / 2)) 1 false exWork).map Prod.fst =
    some ⟨some (.num (.fin (5 / 2))), .fin (1 / 2), false⟩ := by
  decide +kernel

/-- Near ties: 0, 95/10^9, 18/10^8 and 1. -/
def exTies : NumFeature ℚ :=
  ⟨[.fin 0, .fin (95 / 1000000000), .fin (18 / 100000000), .fin 1], List.replicate 4 false, "x", false⟩
/-- Classes 0, 0, 1, 1. -/
def exTiesT : CatFeature := ⟨.empty, [0, 0, 1, 1], List.replicate 4 false, "t", false, false⟩

/-- With near ties the reported decrease need not be that of the partition the threshold makes:
here 1/2 is reported, but the threshold separates only one case and achieves 1/6. -/
theorem c10_near_ties_differ :
    (exTies.bestNumSplit (giniTarget exTiesT) (.fin (1 / 2)) 1 false
      { exWork with cases := [0, 1, 2, 3] }).map Prod.fst =
        some ⟨some (.num (.fin (9 / 100000000))), .fin (1 / 2), false⟩ ∧
    (Feature.num exTies).lefts (.num (.fin (9 / 100000000))) [0, 1, 2, 3] = [0] ∧
    (Feature.num exTies).rights (.num (.fin (9 / 100000000))) [0, 1, 2, 3] = [1, 2, 3] ∧
    ((giniTarget exTiesT : Target ℚ).splitImpurity exWork.allocs [0] [1, 2, 3] none).map
      (fun p => decrease (.fin (1 / 2)) p.1) = some (.fin (1 / 6)) := by
  decide +kernel

/-! ## C11 -/

/-- **C11.** A feature small enough for exhaustive search: the search succeeds, only reorders
the cases, returns an admissible code with the decrease its partition gives (or says by an
impurity not above `minImp` that it found nothing), and no division of the categories into two
groups with `leafSize` cases each does better. -/
theorem c11_exhaustive (f : CatFeature) {T : Target K} {cases : List Nat}
    (L : TargetLaws T cases) (hr : f.InRange f.cm.nCats cases)
    (hsize : f.cm.nCats ≤ 5 ∨ f.randomSearch = true ∧ f.cm.nCats ≤ 10)
    (parentImp : XF K) {leafSize : Nat} (hls : 1 ≤ leafSize) (randomSplit : Bool) (w : Work K)
    (hcs : ∀ c ∈ w.cases, c ∈ cases) (hok : L.Ok w.allocs) :
    ∃ r w' b, (Feature.cat f).search T parentImp leafSize randomSplit w = some (r, w') ∧
      w'.cases.Perm w.cases ∧ r.code = some (.int b) ∧
      (minImp < r.imp →
        leafSize ≤ ((Feature.cat (K := K) f).lefts (.int b) w.cases).length ∧
        leafSize ≤ ((Feature.cat (K := K) f).rights (.int b) w.cases).length ∧
        r.imp = decrease parentImp (L.S ((Feature.cat (K := K) f).lefts (.int b) w.cases)
          ((Feature.cat (K := K) f).rights (.int b) w.cases))) ∧
      (∀ group : Nat → Bool,
        leafSize ≤ (w.cases.filter fun c => group (f.cat c)).length →
        leafSize ≤ (w.cases.filter fun c => !group (f.cat c)).length →
        ¬ r.imp < decrease parentImp (L.S (w.cases.filter fun c => group (f.cat c))
          (w.cases.filter fun c => !group (f.cat c)))) := by
  have hv : f.HasVals w.cases := fun c hc => (hr c (hcs c hc)).imp fun k hk => hk.1
  have hn : ∀ c ∈ w.cases, f.cat c < f.cm.nCats := by
    intro c hc
    obtain ⟨k, hk, hlt⟩ := hr c (hcs c hc)
    rw [hv.eq hc] at hk; cases hk; exact hlt
  have hgroup : ∀ group : Nat → Bool, ∃ b,
      (Feature.cat (K := K) f).lefts (.int b) w.cases = (w.cases.filter fun c => group (f.cat c)) ∧
      (Feature.cat (K := K) f).rights (.int b) w.cases =
        (w.cases.filter fun c => !group (f.cat c)) := by
    intro group
    refine ⟨Nat.ofBits (n := f.cm.nCats) fun i => group i, ?_, ?_⟩
    · rw [lefts_cat hv]
      exact List.filter_congr fun c hc => Nat.testBit_ofBits_lt _ _ (hn c hc)
    · rw [rights_cat hv]
      exact List.filter_congr fun c hc => by rw [Nat.testBit_ofBits_lt _ _ (hn c hc)]
  have hopt : ∀ r : Found K, (∀ b, AdmCode (.cat (K := K) f) leafSize w.cases (.int b) →
      ¬ r.imp < codeGain L parentImp (.cat f) w.cases (.int b)) →
      ∀ group : Nat → Bool,
        leafSize ≤ (w.cases.filter fun c => group (f.cat c)).length →
        leafSize ≤ (w.cases.filter fun c => !group (f.cat c)).length →
        ¬ r.imp < decrease parentImp (L.S (w.cases.filter fun c => group (f.cat c))
          (w.cases.filter fun c => !group (f.cat c))) := by
    intro r h group h1 h2
    obtain ⟨b, e1, e2⟩ := hgroup group
    have := h b (by unfold AdmCode; rw [e1, e2]; exact ⟨h1, h2⟩)
    unfold codeGain at this
    rwa [e1, e2] at this
  unfold Feature.search
  simp only []
  rw [if_neg (by rcases hsize with h | h <;> simp [h] <;> omega),
    if_neg (by rcases hsize with h | h <;> simp [h]), if_neg (by omega)]
  by_cases h2 : f.cm.nCats = 2
  · rw [if_pos h2]
    obtain ⟨r, w', e, h, ⟨b, hb⟩, h3, h4⟩ := bestBinSplit_ok L parentImp f leafSize w hv
      (by rw [← h2]; exact hn) hcs hok
    refine ⟨r, w', b, e, h.perm, hb, ?_, hopt r ?_⟩
    · intro hlt
      obtain ⟨⟨h5, h6⟩, h7⟩ := h.found hlt _ hb
      exact ⟨h5, h6, h7⟩
    · intro b' ha
      obtain ⟨i, hi1, hi2, -, ha', hg⟩ := code_covered L parentImp f leafSize hv hn hls b' ha
      rw [h2] at hi2
      have : i = 1 := by omega
      subst this
      rw [← hg, ← h3 ha']
      exact XF.lt_irrefl' _
  · rw [if_neg h2]
    obtain ⟨r, w', e, h, ⟨b, hb⟩, h3⟩ := bestCatSplit_ok L parentImp f leafSize 10 w hv hcs hok
    refine ⟨r, w', b, e, h.perm, hb, ?_, hopt r ?_⟩
    · intro hlt
      obtain ⟨⟨h5, h6⟩, h7⟩ := h.found hlt _ hb
      exact ⟨h5, h6, h7⟩
    · intro b' ha
      obtain ⟨i, hi1, hi2, h2n, ha', hg⟩ := code_covered L parentImp f leafSize hv hn hls b' ha
      rw [← hg]
      exact (h3 (by omega)).1 i hi1 (by rwa [nPartitions_eq h2n (by omega)]) ha'

/-- Six cases of three categories. -/
def exCat3 : CatFeature :=
  ⟨⟨fun s => ["a", "b", "c"].findIdx? (· == s), ["a", "b", "c"]⟩, [0, 1, 2, 0, 0, 1],
    List.replicate 6 false, "g", false, false⟩

theorem exCat3_inRange : exCat3.InRange 3 [0, 1, 2, 3, 4, 5] := by
  intro c hc; fin_cases hc <;> simp [exCat3]

example : ∃ r w' b, (Feature.cat exCat3).search (giniTarget exSplitT) (.fin (1 / 2)) 1 false exWork =
    some (r, w') ∧ w'.cases.Perm [0, 1, 2, 3, 4, 5] ∧ r.code = some (.int b) := by
  obtain ⟨r, w', b, h1, h2, h3, -⟩ := c11_exhaustive exCat3
    (giniLaws exSplitT 2 _ exSplitT_inRange) exCat3_inRange (.inl (by decide)) (.fin (1 / 2))
    (le_refl 1) false exWork (fun _ h => h) ⟨rfl, rfl, rfl⟩
  exact ⟨r, w', b, h1, h2, h3⟩

example : ((Feature.cat exCat3).search (giniTarget exSplitT) (.fin (1 / 2)) 1 false exWork).map
    Prod.fst = some ⟨some (.int 1), .fin (1 / 2), false⟩ := by
  decide +kernel

/-! ## C12 -/

/-- **C12.** The iterative search succeeds, keeps the cases, and either finds nothing or returns
an admissible code with the decrease its partition gives; splitting off a single category does
no better. -/
theorem c12_iterative (f : CatFeature) {T : Target K} {cases : List Nat}
    (L : TargetLaws T cases) (parentImp : XF K) {leafSize : Nat} (w : Work K)
    (hv : ∀ c ∈ w.cases, ∃ k, f.catData[c]? = some k)
    (hcs : ∀ c ∈ w.cases, c ∈ cases) (hok : L.Ok w.allocs) :
    ∃ r w' b, f.bestCatSplitIter T parentImp leafSize w = some (r, w') ∧
      w'.cases.Perm w.cases ∧ r.code = some (.int b) ∧
      (r.imp = minImp ∨ minImp < r.imp ∧
        leafSize ≤ ((Feature.cat (K := K) f).lefts (.int b) w.cases).length ∧
        leafSize ≤ ((Feature.cat (K := K) f).rights (.int b) w.cases).length ∧
        r.imp = decrease parentImp (L.S ((Feature.cat (K := K) f).lefts (.int b) w.cases)
          ((Feature.cat (K := K) f).rights (.int b) w.cases))) ∧
      (∀ k < f.cm.nCats,
        leafSize ≤ (w.cases.filter fun c => f.cat c == k).length →
        leafSize ≤ (w.cases.filter fun c => !(f.cat c == k)).length →
        ¬ r.imp < decrease parentImp (L.S (w.cases.filter fun c => f.cat c == k)
          (w.cases.filter fun c => !(f.cat c == k)))) := by
  have hv : f.HasVals w.cases := hv
  obtain ⟨r, w', e, h, ⟨b, hb⟩, -, h1, h2⟩ := bestCatSplitIter_ok L parentImp f leafSize w hv hcs hok
  refine ⟨r, w', b, e, h.perm, hb, ?_, ?_⟩
  · rcases h1 with h1 | h1
    · exact .inl h1
    · obtain ⟨⟨h5, h6⟩, h7⟩ := h.found h1 _ hb
      exact .inr ⟨h1, h5, h6, h7⟩
  · intro k hk h3 h4
    have hbit : ∀ c, (1 <<< k).testBit (f.cat c) = (f.cat c == k) := by
      intro c
      rw [Nat.one_shiftLeft, Nat.testBit_two_pow]
      by_cases h : k = f.cat c
      · simp [h]
      · simp [h, Ne.symm h]
    have e1 : (Feature.cat (K := K) f).lefts (.int (1 <<< k)) w.cases =
        (w.cases.filter fun c => f.cat c == k) := by
      rw [lefts_cat hv]; exact List.filter_congr fun c _ => hbit c
    have e2 : (Feature.cat (K := K) f).rights (.int (1 <<< k)) w.cases =
        (w.cases.filter fun c => !(f.cat c == k)) := by
      rw [rights_cat hv]; exact List.filter_congr fun c _ => by rw [hbit c]
    have := h2 k hk (by unfold AdmCode; rw [e1, e2]; exact ⟨h3, h4⟩)
    unfold codeGain at this
    rwa [e1, e2] at this

/-- **C12.** The big-integer version does the same: it fails or succeeds with the plain one,
with the same bits, decrease and final state. -/
theorem c12_big_same (f : CatFeature) (T : Target K) (parentImp : XF K) (leafSize : Nat)
    (w : Work K) :
    (f.bestCatSplitIter T parentImp leafSize w = none ∧
      f.bestCatSplitIterBig T parentImp leafSize w = none) ∨
    ∃ b imp w', f.bestCatSplitIter T parentImp leafSize w = some (⟨some (.int b), imp, false⟩, w') ∧
      f.bestCatSplitIterBig T parentImp leafSize w = some (⟨some (.big b), imp, false⟩, w') := by
  unfold CatFeature.bestCatSplitIterBig CatFeature.bestCatSplitIter
  rw [iterRoundsBig_eq]
  rcases iterRounds f T parentImp leafSize w.cases f.cm.nCats 0 minImp w.allocs with
    _ | ⟨b, imp, a⟩
  · exact .inl ⟨rfl, rfl⟩
  · exact .inr ⟨b, imp, _, rfl, rfl⟩

example : ∃ r w' b, exCat3.bestCatSplitIter (giniTarget exSplitT) (.fin (1 / 2)) 1 exWork =
    some (r, w') ∧ w'.cases.Perm [0, 1, 2, 3, 4, 5] ∧ r.code = some (.int b) := by
  obtain ⟨r, w', b, h1, h2, h3, -⟩ := c12_iterative exCat3 (leafSize := 1)
    (giniLaws exSplitT 2 _ exSplitT_inRange) (.fin (1 / 2)) exWork
    (fun c hc => (exCat3_inRange c hc).imp fun _ h => h.1) (fun _ h => h) ⟨rfl, rfl, rfl⟩
  exact ⟨r, w', b, h1, h2, h3⟩

example : (exCat3.bestCatSplitIter (giniTarget exSplitT) (.fin (1 / 2)) 1 exWork).map
    Prod.fst = some ⟨some (.int 1), .fin (1 / 2), false⟩ := by
  decide +kernel

/-! ## C16 -/

/-- **C16.** Searching a feature, missing values or not, from the parent's own impurity: if a
decrease above `minImp` is reported, it is the parent's impurity minus the size-weighted mean of
the impurities of the three blocks the code makes. -/
theorem c16_three_way (F : Feature K) {T : Target K} {cases : List Nat}
    (L : TargetLaws T cases) (imp : List Nat → K) (hw : L.Weighted imp)
    {leafSize : Nat} (hls : 1 ≤ leafSize) (randomSplit : Bool) (w : Work K)
    (hcs : ∀ c ∈ w.cases, c ∈ cases) (hF : F.Searchable (F.knowns w.cases))
    (hties : F.NoNearTies (F.knowns w.cases))
    (hvalid : ∀ c ∈ w.cases, F.ValidCase c) (hsound : F.MissingSound)
    (hok : L.Ok w.allocs) :
    ∃ r w', F.bestSplit T (L.I w.cases) leafSize randomSplit w = some (r, w') ∧
      (minImp < r.imp → ∃ code, r.code = some code ∧
        leafSize ≤ (F.lefts code (F.knowns w.cases)).length ∧
        leafSize ≤ (F.rights code (F.knowns w.cases)).length ∧
        r.imp = .fin (imp w.cases -
          ((F.lefts code (F.knowns w.cases)).length * imp (F.lefts code (F.knowns w.cases)) +
           (F.rights code (F.knowns w.cases)).length * imp (F.rights code (F.knowns w.cases)) +
           (F.missings w.cases).length * imp (F.missings w.cases)) / w.cases.length)) := by
  have hmiss : ∀ c ∈ w.cases, F.isMissing c ≠ none := by
    intro c hc
    have := hvalid c hc
    cases F with
    | cat f => exact fun h => absurd (List.getElem?_eq_none_iff.1 h) (by have := this.1; omega)
    | num f => exact fun h => absurd (List.getElem?_eq_none_iff.1 h) (by have := this.1; omega)
  obtain ⟨r, w', e, -, -, h⟩ := bestSplit_ok L (L.I w.cases) leafSize F hls randomSplit w hcs hF
    hmiss hsound hok
  refine ⟨r, w', e, ?_⟩
  intro hlt
  rcases h with ⟨-, -, rfl⟩ | ⟨r0, w0, w1, -, -, -, hf, hcode, -, himp⟩
  · exfalso
    unfold minImp at hlt
    rw [XF.fin_lt] at hlt
    norm_num at hlt
  have hlt0 : minImp < r0.imp := by
    by_contra hn
    rw [if_neg (fun h => hn h.2)] at himp
    rw [himp] at hlt; exact hn hlt
  obtain ⟨code, hc, hadm⟩ := hf.adm hlt0
  have hg := hf.gain hties hlt0 code hc
  refine ⟨code, by rw [hcode, hc], hadm.1, hadm.2, ?_⟩
  obtain ⟨l, hl⟩ : ∃ l, l = F.lefts code (F.knowns w.cases) := ⟨_, rfl⟩
  obtain ⟨r', hr'⟩ : ∃ l, l = F.rights code (F.knowns w.cases) := ⟨_, rfl⟩
  obtain ⟨m, hm⟩ : ∃ l, l = F.missings w.cases := ⟨_, rfl⟩
  obtain ⟨k, hk⟩ : ∃ l, l = F.knowns w.cases := ⟨_, rfl⟩
  unfold AdmCode at hadm
  unfold codeGain at hg
  rw [← hl, ← hr'] at hadm hg ⊢
  rw [← hm, ← hk] at himp
  rw [← hk] at hg
  rw [← hm]
  have hlne : l ≠ [] := fun h => by rw [h] at hadm; simp at hadm; omega
  have hrne : r' ≠ [] := fun h => by rw [h] at hadm; simp at hadm; omega
  have hkc : ∀ c ∈ k, c ∈ cases := by
    rw [hk]; exact fun c hc => hcs c (List.mem_of_mem_filter hc)
  have hlr : ∀ c ∈ l ++ r', c ∈ k := by
    rw [hl, hr', hk]
    intro c hc
    rcases List.mem_append.1 hc with h | h <;> exact List.mem_of_mem_filter h
  have hkne : k ≠ [] := by
    obtain ⟨c, hc⟩ := List.exists_mem_of_ne_nil _ hlne
    exact List.ne_nil_of_mem (hlr c (by simp [hc]))
  have hwne : w.cases ≠ [] := by
    obtain ⟨c, hc⟩ := List.exists_mem_of_ne_nil _ hkne
    rw [hk] at hc
    exact List.ne_nil_of_mem (List.mem_of_mem_filter hc)
  have hlen : w.cases.length = k.length + m.length := by
    rw [hk, hm]
    have : ∀ cs : List Nat, (∀ c ∈ cs, F.isMissing c ≠ none) →
        cs.length = (F.knowns cs).length + (F.missings cs).length := by
      intro cs
      unfold Feature.knowns Feature.missings
      induction cs with
      | nil => intro _; rfl
      | cons c cs ih =>
        intro h
        have h1 := ih fun c hc => h c (by simp [hc])
        obtain ⟨b, hb⟩ := Option.ne_none_iff_exists'.1 (h c (by simp))
        cases b <;> simp [hb] <;> omega
    exact this _ hmiss
  have hklen : k.length = l.length + r'.length := by
    rw [hl, hr', hk]
    exact sides_length F (hf.fits code hc) hF
  have hS := hw.mean l r' hlne hrne fun c hc => hkc c (hlr c hc)
  have hIk := hw.finite k hkne hkc
  have hn0 := hw.nonneg k hkne hkc
  have hIw := hw.finite w.cases hwne hcs
  have hnw := hw.nonneg w.cases hwne hcs
  have hkpos : (0 : K) < (l.length : K) + (r'.length : K) := by
    have := List.length_pos_of_ne_nil hlne
    have h1 : (0 : K) < l.length := by exact_mod_cast this
    have h2 : (0 : K) ≤ r'.length := by exact_mod_cast Nat.zero_le _
    linarith
  have hkK : (k.length : K) = (l.length : K) + (r'.length : K) := by rw [hklen]; push_cast; rfl
  have hwK : (w.cases.length : K) = (l.length : K) + (r'.length : K) + (m.length : K) := by
    rw [hlen, hklen]; push_cast; rfl
  have hwpos : (w.cases.length : K) ≠ 0 := by
    rw [hwK]
    have h2 : (0 : K) ≤ m.length := by exact_mod_cast Nat.zero_le _
    linarith [hkpos]
  rw [hS] at hg
  by_cases hmne : m = []
  · -- no missing cases
    have hpar : (if F.missingVals = true then L.I k else L.I w.cases) = .fin (imp w.cases) := by
      rw [hIw]
      split_ifs
      · have : k = w.cases := by
          rw [hk]
          apply List.filter_eq_self.2
          intro c hc
          obtain ⟨b, hb⟩ := Option.ne_none_iff_exists'.1 (hmiss c hc)
          cases b
          · simp [hb]
          · exfalso
            have : c ∈ m := by rw [hm]; exact List.mem_filter.2 ⟨hc, by simp [hb]⟩
            rw [hmne] at this; cases this
        rw [this, hIw]
      · rfl
    rw [hpar, decrease_eq, decrease, if_neg (by rw [XF.fin_lt]; exact not_lt.2 hnw)] at hg
    rw [if_neg (fun h => h.1 hmne)] at himp
    rw [himp, hg, XF.fin_sub, hwK, hmne]
    simp
  · have hmv : F.missingVals = true := by
      obtain ⟨c, hc⟩ := List.exists_mem_of_ne_nil _ hmne
      rw [hm] at hc
      exact hsound c (by simpa using (List.mem_filter.1 hc).2)
    rw [if_pos hmv, hIk, decrease_eq, decrease, if_neg (by rw [XF.fin_lt]; exact not_lt.2 hn0)] at hg
    rw [if_pos ⟨hmne, hlt0⟩, hIw, hIk, hw.finite m hmne (by
      rw [hm]; exact fun c hc => hcs c (List.mem_of_mem_filter hc)), hg] at himp
    rw [himp]
    unfold XF.ofNat
    simp only [XF.fin_sub, XF.fin_mul, XF.fin_add]
    rw [XF.fin_div _ hwpos, XF.fin_add]
    congr 1
    rw [hkK, hwK] at *
    field_simp
    ring

/-- The six cases of `exSplit`, two of them missing. -/
def exMiss : NumFeature ℚ :=
  ⟨[.fin 3, .fin 1, .fin 0, .fin 5, .fin 0, .fin 2], [false, false, true, false, true, false], "x",
    true⟩

theorem exMiss_finite : exMiss.Finite ((Feature.num exMiss).knowns [0, 1, 2, 3, 4, 5]) := by
  intro c hc
  have : c ∈ [0, 1, 3, 5] := hc
  fin_cases this <;> simp [exMiss]

example : ∃ r w', (Feature.num exMiss).bestSplit (giniTarget exSplitT)
    ((giniLaws exSplitT 2 _ exSplitT_inRange).I exWork.cases) 1 false exWork = some (r, w') := by
  obtain ⟨r, w', h1, -⟩ := c16_three_way (.num exMiss) (giniLaws exSplitT 2 _ exSplitT_inRange) _
    (giniLaws_weighted exSplitT 2 _ exSplitT_inRange) (le_refl 1) false exWork (fun _ h => h)
    exMiss_finite (by
      intro c hc d hd
      have hc : c ∈ [0, 1, 3, 5] := hc
      have hd : d ∈ [0, 1, 3, 5] := hd
      fin_cases hc <;> fin_cases hd <;> simp [exMiss, NumFeature.value] <;> norm_num)
    (by
      intro c hc
      have hc : c ∈ [0, 1, 2, 3, 4, 5] := hc
      fin_cases hc <;> simp [Feature.ValidCase, exMiss])
    (fun _ _ => rfl) ⟨rfl, rfl, rfl⟩
  exact ⟨r, w', h1⟩

/-- On the example the decrease above `minImp` is reported: 1/2 - 2/6 * 1/2. -/
example : ((Feature.num exMiss).bestSplit (giniTarget exSplitT) (.fin (1 / 2)) 1 false exWork).map
    Prod.fst = some ⟨some (.num (.fin (5 / 2))), .fin (1 / 3), false⟩ := by
  decide +kernel

/-! ## C18 -/

/-- **C18.** If the search of a numerical or exhaustively searched feature reports it constant
on some cases, then on any sub-multiset of them the search finds nothing. -/
theorem c18_constant_stays (F : Feature K) (hex : F.Exhaustive) {T : Target K} {cases : List Nat}
    (L : TargetLaws T cases) (parentImp parentImp' : XF K) {leafSize : Nat} (hls : 1 ≤ leafSize)
    (randomSplit randomSplit' : Bool) (w v : Work K)
    (hcs : ∀ c ∈ w.cases, c ∈ cases) (hF : F.Searchable (F.knowns w.cases))
    (hvalid : ∀ c ∈ w.cases, F.ValidCase c) (hsound : F.MissingSound)
    (hok : L.Ok w.allocs) (hsub : v.cases.Subperm w.cases) (hok' : L.Ok v.allocs) :
    ∃ r w', F.bestSplit T parentImp leafSize randomSplit w = some (r, w') ∧
      (r.constant = true → ∃ r' v', F.bestSplit T parentImp' leafSize randomSplit' v = some (r', v') ∧
        ¬ minImp < r'.imp) := by
  have hmiss : ∀ c ∈ w.cases, F.isMissing c ≠ none := by
    intro c hc
    have := hvalid c hc
    cases F with
    | cat f => exact fun h => absurd (List.getElem?_eq_none_iff.1 h) (by have := this.1; omega)
    | num f => exact fun h => absurd (List.getElem?_eq_none_iff.1 h) (by have := this.1; omega)
  have hsubk : (F.knowns v.cases).Subperm (F.knowns w.cases) := hsub.filter _
  have hF' : F.Searchable (F.knowns v.cases) := by
    cases F with
    | num f => exact fun c hc => hF c (hsubk.subset hc)
    | cat f => exact fun c hc => hF c (hsubk.subset hc)
  have hk : ∀ c ∈ F.knowns w.cases, c ∈ cases := fun c hc => hcs c (List.mem_of_mem_filter hc)
  obtain ⟨r, w', e, -, -, h⟩ := bestSplit_ok L parentImp leafSize F hls randomSplit w hcs hF
    hmiss hsound hok
  obtain ⟨r', v', e', -, -, h'⟩ := bestSplit_ok L parentImp' leafSize F hls randomSplit' v
    (fun c hc => hcs c (hsub.subset hc)) hF' (fun c hc => hmiss c (hsub.subset hc)) hsound hok'
  refine ⟨r, w', e, fun hc => ⟨r', v', e', ?_⟩⟩
  rcases h with ⟨-, -, rfl⟩ | ⟨r0, w0, w1, h1, h2, h3, -, -, h4, -⟩
  · cases hc
  have hflat := search_constant L _ leafSize F hex hls randomSplit w0 (by rw [h1]; exact hk)
    (by rw [h1]; exact hF) h2 h3 (by rw [← h4]; exact hc)
  rw [h1] at hflat
  rcases h' with ⟨-, -, rfl⟩ | ⟨r0', w0', w1', h1', h2', h3', -, -, h4', himp'⟩
  · unfold minImp
    rw [XF.fin_lt]; norm_num
  have hno := search_flat L _ leafSize F hls randomSplit' w0' (by
      rw [h1']; exact fun c hc => hk c (hsubk.subset hc)) (by rw [h1']; exact hF') h2' h3'
    (by rw [h1']; exact hflat.subperm leafSize hsubk)
  rw [if_neg (fun h => hno h.2)] at himp'
  rw [himp']; exact hno

/-- Four cases of one category and one of another. -/
def exFew : CatFeature :=
  ⟨⟨fun s => ["a", "b"].findIdx? (· == s), ["a", "b"]⟩, [0, 0, 1, 0, 0, 0],
    List.replicate 6 false, "g", false, false⟩

example : ∃ r w', (Feature.cat exFew).bestSplit (giniTarget exSplitT) (.fin (1 / 2)) 2 false exWork =
      some (r, w') ∧
    (r.constant = true → ∃ r' v', (Feature.cat exFew).bestSplit (giniTarget exSplitT) (.fin (1 / 3)) 2
      false { exWork with cases := [4, 2, 1, 5] } = some (r', v') ∧ ¬ minImp < r'.imp) :=
  c18_constant_stays (.cat exFew) (.inl (by decide)) (giniLaws exSplitT 2 _ exSplitT_inRange)
    (.fin (1 / 2)) (.fin (1 / 3)) (by norm_num) false false exWork _ (fun _ h => h)
    (by
      intro c hc
      have hc : c ∈ [0, 1, 2, 3, 4, 5] := List.mem_of_mem_filter hc
      fin_cases hc <;> simp [exFew, CatMap.nCats])
    (by
      intro c hc
      have hc : c ∈ [0, 1, 2, 3, 4, 5] := hc
      fin_cases hc <;> simp [Feature.ValidCase, exFew])
    (by
      intro c h
      have : c < 6 := (List.getElem?_eq_some_iff.1 h).1
      rcases c with _ | _ | _ | _ | _ | _ | c <;> first | omega | simp [Feature.isMissing, exFew] at h)
    ⟨rfl, rfl, rfl⟩ (by decide) ⟨rfl, rfl, rfl⟩

example : ((Feature.cat exFew).bestSplit (giniTarget exSplitT) (.fin (1 / 2)) 2 false exWork).map
    Prod.fst = some ⟨some (.int 0), .fin 0, true⟩ := by
  decide +kernel

/-! ## C47 -/

/-- Values 0, +Inf, +Inf. -/
def exInf : NumFeature ℚ := ⟨[.fin 0, .pinf, .pinf], List.replicate 3 false, "x", false⟩
/-- Classes 0, 1, 1. -/
def exInfT : CatFeature := ⟨.empty, [0, 1, 1], List.replicate 3 false, "t", false, false⟩

/-- **C47 is false of the code.** With infinite values a decrease of 4/9 is reported for the
threshold +Inf, which sends every case left. -/
theorem c47_infinite_threshold :
    (exInf.bestNumSplit (giniTarget exInfT) (.fin (4 / 9)) 1 false
      { exWork with cases := [0, 1, 2] }).map Prod.fst =
        some ⟨some (.num .pinf), .fin (4 / 9), false⟩ ∧
    (Feature.num exInf).lefts (.num .pinf) [0, 1, 2] = [0, 1, 2] ∧
    (Feature.num exInf).rights (.num .pinf) [0, 1, 2] = [] := by
  decide +kernel

/-- **C47, finite values only.** A reported decrease comes with a threshold that has `leafSize`
cases on either side, near ties or not. -/
theorem c47_finite_partial (f : NumFeature K) {T : Target K} {cases : List Nat}
    (L : TargetLaws T cases) (hfin : f.Finite cases)
    (parentImp : XF K) {leafSize : Nat} (hls : 1 ≤ leafSize) (randomSplit : Bool) (w : Work K)
    (hcs : ∀ c ∈ w.cases, c ∈ cases) (hok : L.Ok w.allocs) :
    ∃ r w', f.bestNumSplit T parentImp leafSize randomSplit w = some (r, w') ∧
      (minImp < r.imp → ∃ t : K, r.code = some (.num (.fin t)) ∧
        leafSize ≤ ((Feature.num f).lefts (.num (.fin t)) w.cases).length ∧
        leafSize ≤ ((Feature.num f).rights (.num (.fin t)) w.cases).length) := by
  obtain ⟨r, w', e, h⟩ := bestNumSplit_ok f L hfin parentImp hls randomSplit w hcs hok
  refine ⟨r, w', e, fun hlt => ?_⟩
  rcases h.found with h1 | ⟨-, t, h2, h3, h4, -⟩
  · exact absurd hlt (by rw [h1]; exact XF.lt_irrefl' _)
  · exact ⟨t, h2, h3, h4.le⟩

example : ∃ r w', exTies.bestNumSplit (giniTarget exSplitT) (.fin (1 / 2)) 1 false
    { exWork with cases := [0, 1, 2, 3] } = some (r, w') := by
  obtain ⟨r, w', h, -⟩ := c47_finite_partial exTies (cases := [0, 1, 2, 3])
    (giniLaws exSplitT 2 _ (fun c hc => exSplitT_inRange c (by
      fin_cases hc <;> simp))) (by intro c hc; fin_cases hc <;> simp [exTies]) (.fin (1 / 2))
    (le_refl 1) false { exWork with cases := [0, 1, 2, 3] } (fun _ h => h) ⟨rfl, rfl, rfl⟩
  exact ⟨r, w', h⟩

/-! ## C48 -/

/-- Eleven categories, the two cases in categories 0 and 1, searched at random. -/
def exWide : CatFeature :=
  ⟨⟨fun _ => none, List.replicate 11 "c"⟩, [0, 1], [false, false], "g", true, false⟩

/-- **C48 is false of the code.** For a stream of zeros every division tried is inadmissible and
the feature is reported constant, although code 1 separates the two cases. -/
theorem c48_random_constant :
    ((Feature.cat exWide).bestSplit (giniTarget exInfT) (.fin (1 / 2)) 1 false
      { exWork with cases := [0, 1], rng := fun _ => 0 }).map Prod.fst =
        some ⟨some (.int 0), minImp, true⟩ ∧
    (Feature.cat (K := ℚ) exWide).lefts (.int 1) [0, 1] = [0] ∧
    (Feature.cat (K := ℚ) exWide).rights (.int 1) [0, 1] = [1] := by
  decide +kernel

/-- **C48, exhaustive searches only.** A feature reported constant has no admissible code. -/
theorem c48_exhaustive_partial (f : CatFeature) {T : Target K} {cases : List Nat}
    (L : TargetLaws T cases) (hex : (Feature.cat (K := K) f).Exhaustive)
    (hr : f.InRange f.cm.nCats cases) (parentImp : XF K) {leafSize : Nat} (hls : 1 ≤ leafSize)
    (randomSplit : Bool) (w : Work K) (hcs : ∀ c ∈ w.cases, c ∈ cases) (hok : L.Ok w.allocs)
    (r : Found K) (w' : Work K)
    (he : (Feature.cat f).search T parentImp leafSize randomSplit w = some (r, w'))
    (hc : r.constant = true) (b : Nat) :
    ((Feature.cat (K := K) f).lefts (.int b) w.cases).length < leafSize ∨
    ((Feature.cat (K := K) f).rights (.int b) w.cases).length < leafSize := by
  have := search_constant L parentImp leafSize (.cat f) hex hls randomSplit w hcs
    (fun c hc => hr c (hcs c hc)) hok he hc b
  unfold AdmCode at this
  omega

example : ∃ r w', (Feature.cat exFew).search (giniTarget exSplitT) (.fin (1 / 2)) 2 false exWork =
    some (r, w') ∧ r.constant = true := by
  refine ⟨⟨some (.int 0), .fin 0, true⟩, ?_⟩
  have : ((Feature.cat exFew).search (giniTarget exSplitT) (.fin (1 / 2)) 2 false exWork).map
    Prod.fst = some ⟨some (.int 0), .fin 0, true⟩ := by decide +kernel
  rw [Option.map_eq_some_iff] at this
  obtain ⟨⟨a, b⟩, h1, h2⟩ := this
  exact ⟨b, by rw [h1, ← h2], rfl⟩

end CloudForest
