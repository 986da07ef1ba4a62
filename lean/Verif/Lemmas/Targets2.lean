import Verif.Lemmas.Targets
import Verif.Lemmas.AdaBoost

/-!
# The other targets measure impurity consistently
-/

set_option linter.unusedSectionVars false

namespace CloudForest
variable {K : Type} [Field K] [LinearOrder K] [IsStrictOrderedRing K]

/-! ## Targets whose impurity looks at the cases too -/

/-- An impurity that looks at the cases and their counts: it never fails on the given cases and does not depend on
their order. -/
structure CaseImp (f : CatFeature) (n : Nat) (cases : List Nat) (imp : List Nat → List Int → Option (XF K))
    (i : List Nat → XF K) : Prop where
  eq : ∀ cs, (∀ c ∈ cs, c ∈ cases) → imp cs (f.counts n cs) = some (i cs)
  perm : ∀ l l', l.Perm l' → i l = i l'

theorem case_split (f : CatFeature) (n : Nat) (cases : List Nat) {imp : List Nat → List Int → Option (XF K)}
    {i : List Nat → XF K} (H : CaseImp f n cases imp i) (h : f.InRange n cases) (a : Allocs K)
    (ha : countOk n a) (l r : List Nat) (m : Option (List Nat)) (hc : ∀ c ∈ l ++ r ++ missBlock m, c ∈ cases) :
    caseSplitImpurity f imp a l r m = some
      ((if 0 < (missBlock m).length then
          (XF.ofNat l.length * i l + XF.ofNat r.length * i r + XF.ofNat (missBlock m).length * i (missBlock m)) /
            (XF.ofNat l.length + XF.ofNat r.length + XF.ofNat (missBlock m).length)
        else wavg l.length r.length (i l) (i r)),
        { a with
          lcounter := f.counts n l, rcounter := f.counts n r
          counter := if 0 < (missBlock m).length then f.counts n (missBlock m) else a.counter }) := by
  obtain ⟨h1, h2, h3⟩ := ha
  have il : ∀ c ∈ l, c ∈ cases := fun c hx => hc c (by simp [hx])
  have ir : ∀ c ∈ r, c ∈ cases := fun c hx => hc c (by simp [hx])
  have im : ∀ c ∈ missBlock m, c ∈ cases := fun c hx => hc c (by simp [hx])
  have cl := countPerCat_eq f l a.lcounter (by rw [h2]; exact fun c hx => h c (il c hx))
  have cr := countPerCat_eq f r a.rcounter (by rw [h3]; exact fun c hx => h c (ir c hx))
  have cm := countPerCat_eq f (missBlock m) a.counter (by rw [h1]; exact fun c hx => h c (im c hx))
  rw [h2] at cl; rw [h3] at cr; rw [h1] at cm
  unfold caseSplitImpurity
  simp only [cl, cr, cm, Option.bind_eq_bind, Option.bind_some, H.eq l il, H.eq r ir, H.eq _ im]
  by_cases h0 : 0 < (missBlock m).length
  · simp only [if_pos h0]
  · simp only [if_neg h0]
    rfl

theorem case_step (f : CatFeature) (n : Nat) (cases : List Nat) {imp : List Nat → List Int → Option (XF K)}
    {i : List Nat → XF K} (H : CaseImp f n cases imp i) (h : f.InRange n cases) (a : Allocs K)
    (ha : countOk n a) (l mv r' : List Nat) (m : Option (List Nat))
    (hc : ∀ c ∈ l ++ (mv ++ r') ++ missBlock m, c ∈ cases) :
    ∃ st, caseSplitImpurity f imp a l (mv ++ r') m = some st ∧
      caseUpdateSImp f imp st.2 (l ++ mv) r' m mv = caseSplitImpurity f imp a (l ++ mv) r' m := by
  have hc' : ∀ c ∈ l ++ mv ++ r' ++ missBlock m, c ∈ cases := fun c hx => hc c (by simpa [or_assoc] using hx)
  refine ⟨_, case_split f n cases H h a ha l (mv ++ r') m hc, ?_⟩
  rw [case_split f n cases H h a ha (l ++ mv) r' m hc']
  have il : ∀ c ∈ l ++ mv, c ∈ cases := fun c hx => hc' c (List.mem_append_left _ (List.mem_append_left _ hx))
  have ir : ∀ c ∈ r', c ∈ cases := fun c hx => hc' c (by simp [hx])
  have im : ∀ c ∈ missBlock m, c ∈ cases := fun c hx => hc' c (by simp [hx])
  have hmv : f.InRange n mv := fun c hx => h c (hc' c (by simp [hx]))
  unfold caseUpdateSImp
  simp only [moveCounts_eq f n mv l (mv ++ r') r' hmv (List.Perm.refl _), Option.bind_eq_bind, Option.bind_some,
    H.eq _ il, H.eq _ ir]
  by_cases h0 : 0 < (missBlock m).length
  · simp only [if_pos h0, H.eq _ im, Option.bind_some]
  · simp only [if_neg h0]
    rfl

/-- A target whose impurity looks at the cases too measures it consistently. -/
def caseLaws (f : CatFeature) (n : Nat) (cases : List Nat) (imp : List Nat → List Int → Option (XF K))
    (i : List Nat → XF K) (H : CaseImp f n cases imp i) (h : f.InRange n cases) :
    TargetLaws ⟨caseImpurity f imp, caseSplitImpurity f imp, caseUpdateSImp f imp⟩ cases where
  I := i
  S l r := wavg l.length r.length (i l) (i r)
  Ok := countOk n
  Tracks := countTracks f n
  tracks_ok := by
    rintro a l r ⟨h1, h2, h3⟩
    refine ⟨h1, ?_, ?_⟩
    · rw [h2, counts_length]
    · rw [h3, counts_length]
  I_perm := H.perm
  S_perm l l' r r' hl hr := by rw [hl.length_eq, hr.length_eq, H.perm l l' hl, H.perm r r' hr]
  S_comm l r := wavg_comm _ _ _ _
  impurity := by
    rintro a cs ⟨h1, h2, h3⟩ hcs
    refine ⟨{ a with counter := f.counts n cs }, ?_, counts_length f n cs, h2, h3⟩
    show caseImpurity f imp a cs = _
    unfold caseImpurity
    rw [countPerCat_eq f cs a.counter (by rw [h1]; exact fun c hc => h c (hcs c hc)), h1]
    simp only [Option.bind_eq_bind, Option.bind_some, H.eq cs hcs]
  split := by
    rintro a l r ha hcs
    refine ⟨{ a with lcounter := f.counts n l, rcounter := f.counts n r }, ?_, ha.1, rfl, rfl⟩
    have := case_split f n cases H h a ha l r none (by simpa [missBlock] using hcs)
    simpa [missBlock] using this
  update := by
    rintro a l r l' r' mv ⟨h1, h2, h3⟩ hcs hl hr
    refine ⟨{ a with lcounter := f.counts n l', rcounter := f.counts n r' }, ?_, h1, rfl, rfl⟩
    show caseUpdateSImp f imp a l' r' none mv = _
    unfold caseUpdateSImp
    have hm : f.InRange n mv := fun c hc => h c (hcs c (List.mem_append_right _
      (hr.mem_iff.2 (List.mem_append_left _ hc))))
    have il : ∀ c ∈ l', c ∈ cases := by
      intro c hc
      rcases List.mem_append.1 (hl.mem_iff.1 hc) with hx | hx
      · exact hcs c (List.mem_append_left _ hx)
      · exact hcs c (List.mem_append_right _ (hr.mem_iff.2 (List.mem_append_left _ hx)))
    have ir : ∀ c ∈ r', c ∈ cases := fun c hc =>
      hcs c (List.mem_append_right _ (hr.mem_iff.2 (List.mem_append_right _ hc)))
    rw [h2, h3, moveCounts_eq f n mv l r r' hm hr, ← counts_perm f n hl]
    simp only [Option.bind_eq_bind, Option.bind_some, H.eq _ il, H.eq _ ir]
    rfl

/-- The weight (times the cost of its category) of the listed cases that are not of the category the counts favour. -/
def missWeight (f : CatFeature) (n : Nat) (w : Nat → K) (cs : List Nat) : K :=
  ((cs.filter fun c => decide (f.catData[c]? ≠ some (firstMost (f.counts n cs)))).map w).sum

theorem missWeight_perm (f : CatFeature) (n : Nat) (w : Nat → K) {l l' : List Nat} (h : l.Perm l') :
    missWeight f n w l = missWeight f n w l' := by
  unfold missWeight
  rw [counts_perm f n h]
  exact ((h.filter _).map w).sum_eq

theorem ada_caseImp (f : CatFeature) (n N : Nat) (w : Nat → K) (cases : List Nat) (h : f.InRange n cases)
    (hN : ∀ c ∈ cases, c < N) :
    CaseImp f n cases (adaImpFromCounts f (finList N w)) fun cs => .fin (missWeight f n w cs) where
  eq cs hcs := adaImp_eq f N w cs _ (fun c hc => (h c (hcs c hc)).imp fun _ hk => hk.1) fun c hc => hN c (hcs c hc)
  perm l l' hp := by rw [missWeight_perm f n w hp]

theorem adaCost_caseImp (f : CatFeature) (n N : Nat) (w x : Nat → K) (cases : List Nat) (h : f.InRange n cases)
    (hN : ∀ c ∈ cases, c < N) :
    CaseImp f n cases (adaCostImpFromCounts f (finList N w) (finList n x))
      fun cs => .fin (missWeight f n (fun c => w c * x (f.cat c)) cs) where
  eq cs hcs := by
    unfold adaCostImpFromCounts missWeight
    generalize firstMost (f.counts n cs) = m
    have key : ∀ (cs : List Nat) (e : K), (∀ c ∈ cs, c ∈ cases) →
        cs.foldlM (fun (e : XF K) c => do
          let k ← f.catData[c]?
          if k ≠ m then do
            let w ← (finList N w)[c]?
            let x ← (finList n x)[k]?
            some (e + w * x)
          else some e) (.fin e) =
        some (.fin (e + ((cs.filter fun c => decide (f.catData[c]? ≠ some m)).map
          fun c => w c * x (f.cat c)).sum)) := by
      intro cs
      induction cs with
      | nil => intro e _; simp
      | cons c cs ih =>
        intro e h1
        obtain ⟨k, hk, hkn⟩ := h c (h1 c (by simp))
        have hcat := cat_of_get hk
        rw [List.foldlM_cons, hk, finList_get w (hN c (h1 c (by simp))), List.filter_cons, hk]
        by_cases hkm : k = m
        · refine Eq.trans (b := List.foldlM _ (XF.fin e) cs) ?_ ((ih e fun x hx => h1 x (by simp [hx])).trans ?_)
          · simp [hkm]
          · simp [hkm]
        · refine Eq.trans (b := List.foldlM _ (XF.fin (e + w c * x k)) cs) ?_
            ((ih (e + w c * x k) fun x hx => h1 x (by simp [hx])).trans ?_)
          · simp only [Option.bind_eq_bind, Option.bind_some]
            rw [if_pos hkm, finList_get x hkn]
            rfl
          · have : decide (some k ≠ some m) = true := by simpa using hkm
            rw [if_pos this, List.map_cons, List.sum_cons, hcat, add_assoc]
    rw [key cs 0 hcs, zero_add]
  perm l l' hp := by rw [missWeight_perm f n _ hp]

/-! ## Distances -/

/-- The distance score of a division. -/
def hScore (K : Type) [Field K] [LinearOrder K] [IsStrictOrderedRing K] (f : CatFeature) (l r : List Nat) : XF K :=
  let t0 : XF K := .ofInt (f.catCount l 0 + f.catCount r 0)
  let t1 : XF K := .ofInt (f.catCount l 1 + f.catCount r 1)
  let x := XF.ofInt (f.catCount l 0 : Int) / t0 - .ofInt (f.catCount l 1 : Int) / t1
  let y := XF.ofInt (f.catCount r 0 : Int) / t0 - .ofInt (f.catCount r 1 : Int) / t1
  x * x + y * y

theorem hDist_counts (f : CatFeature) (n : Nat) (hn : 2 ≤ n) (l r : List Nat) :
    hDist (f.counts n l) (f.counts n r) = some (hScore K f l r) := by
  have get : ∀ (cs : List Nat) (k : Nat), k < n → (f.counts n cs)[k]? = some (f.catCount cs k : Int) := by
    intro cs k hk
    unfold CatFeature.counts
    rw [List.getElem?_map, List.getElem?_range hk]
    rfl
  unfold hDist
  rw [get l 0 (by omega), get r 0 (by omega), get l 1 (by omega), get r 1 (by omega)]
  rfl

/-- The Hellinger distance target measures its score consistently. -/
def hDistLaws (f : CatFeature) (n : Nat) (hn : 2 ≤ n) (cases : List Nat) (h : f.InRange n cases) :
    TargetLaws (hDistTarget f : Target K) cases where
  I _ := .fin (-1)
  S := hScore K f
  Ok := countOk n
  Tracks := countTracks f n
  tracks_ok := by
    rintro a l r ⟨h1, h2, h3⟩
    refine ⟨h1, ?_, ?_⟩
    · rw [h2, counts_length]
    · rw [h3, counts_length]
  I_perm _ _ _ := rfl
  S_perm l l' r r' hl hr := by
    unfold hScore
    simp only [catCount_perm f hl, catCount_perm f hr]
  S_comm l r := by
    unfold hScore
    simp only [add_comm (f.catCount l _ : Int)]
    exact XF.add_comm' _ _
  impurity := by
    rintro a cs ha -
    exact ⟨a, rfl, ha⟩
  split := by
    rintro a l r ⟨h1, h2, h3⟩ hcs
    refine ⟨{ a with lcounter := f.counts n l, rcounter := f.counts n r }, ?_, h1, rfl, rfl⟩
    simp only [hDistTarget]
    rw [countPerCat_eq f l a.lcounter
        (by rw [h2]; exact fun c hc => h c (hcs c (List.mem_append_left _ hc))), h2,
      countPerCat_eq f r a.rcounter
        (by rw [h3]; exact fun c hc => h c (hcs c (List.mem_append_right _ hc))), h3]
    simp only [Option.bind_eq_bind, Option.bind_some, hDist_counts f n hn]
  update := by
    rintro a l r l' r' mv ⟨h1, h2, h3⟩ hcs hl hr
    refine ⟨{ a with lcounter := f.counts n l', rcounter := f.counts n r' }, ?_, h1, rfl, rfl⟩
    simp only [hDistTarget]
    have hm : f.InRange n mv := fun c hc => h c (hcs c (List.mem_append_right _
      (hr.mem_iff.2 (List.mem_append_left _ hc))))
    rw [h2, h3, moveCounts_eq f n mv l r r' hm hr, ← counts_perm f n hl]
    simp only [Option.bind_eq_bind, Option.bind_some, hDist_counts f n hn]

/-! ## Gradient boosting -/

theorem sum_eq (f : NumFeature K) (cases : List Nat) (h : f.Finite cases) :
    f.sum cases = some (.fin (cases.map f.value).sum) := by
  unfold NumFeature.sum
  suffices H : ∀ s : K, cases.foldlM (fun (s : XF K) c => do
      let x ← f.numData[c]?
      some (s + x)) (.fin s) = some (.fin (s + (cases.map f.value).sum)) by simpa using H 0
  induction cases with
  | nil => intro s; simp
  | cons c cs ih =>
    intro s
    obtain ⟨x, hx⟩ := h c (by simp)
    have hv : f.value c = x := by unfold NumFeature.value; rw [hx]
    rw [List.foldlM_cons, hx]
    refine (ih (fun c hc => h c (by simp [hc])) (s + x)).trans ?_
    rw [List.map_cons, List.sum_cons, hv, add_assoc]

/-- Friedman's score of a division. -/
def fScore (f : NumFeature K) (l r : List Nat) : XF K :=
  let nl : XF K := .ofNat l.length
  let nr : XF K := .ofNat r.length
  let d := XF.fin (l.map f.value).sum / nl - .fin (r.map f.value).sum / nr
  d * d * nl * nr / (nl + nr)

/-- For blocks that are not empty it is the decrease of the sum of squared deviations. -/
theorem fScore_eq (f : NumFeature K) (l r : List Nat) (hl : l ≠ []) (hr : r ≠ []) :
    fScore f l r = .fin (f.sse (l ++ r) - f.sse l - f.sse r) := by
  have pl := length_pos' (K := K) hl
  have pr := length_pos' (K := K) hr
  unfold fScore XF.ofNat
  simp only [XF.fin_div _ pl.ne', XF.fin_div _ pr.ne', XF.fin_sub, XF.fin_mul, XF.fin_add]
  rw [XF.fin_div _ (by linarith)]
  have h1 := sum_sq_dev f (f.meanOf (l ++ r)) l
  have h2 := sum_sq_dev f (f.meanOf (l ++ r)) r
  have h3 : f.sse (l ++ r) = (l.map fun c => (f.value c - f.meanOf (l ++ r)) ^ 2).sum +
      (r.map fun c => (f.value c - f.meanOf (l ++ r)) ^ 2).sum := by
    unfold NumFeature.sse
    rw [List.map_append, List.sum_append]
  have h4 : f.meanOf (l ++ r) = (l.length * f.meanOf l + r.length * f.meanOf r) / (l.length + r.length) := by
    unfold NumFeature.meanOf
    rw [List.map_append, List.sum_append, List.length_append]
    push_cast
    field_simp
  rw [h3, h1, h2, h4]
  show XF.fin ((f.meanOf l - f.meanOf r) * (f.meanOf l - f.meanOf r) * l.length * r.length / (l.length + r.length)) = _
  congr 1
  field_simp
  ring

theorem fScore_nil_left (f : NumFeature K) (r : List Nat) : fScore f [] r = .nan := by
  unfold fScore XF.ofNat
  simp only [List.map_nil, List.sum_nil, List.length_nil, Nat.cast_zero]
  have h0 : (XF.fin (0 : K) / XF.fin 0) = .nan := by
    show (if (0 : K) = 0 then XF.infTimes 0 else _) = _
    rw [if_pos rfl]
    simp [XF.infTimes]
  rw [h0]
  rfl

theorem fScore_nil_right (f : NumFeature K) (l : List Nat) : fScore f l [] = .nan := by
  unfold fScore XF.ofNat
  simp only [List.map_nil, List.sum_nil, List.length_nil, Nat.cast_zero]
  have h0 : (XF.fin (0 : K) / XF.fin 0) = .nan := by
    show (if (0 : K) = 0 then XF.infTimes 0 else _) = _
    rw [if_pos rfl]
    simp [XF.infTimes]
  rw [h0]
  have h1 : ∀ x : XF K, x - .nan = .nan := by intro x; cases x <;> rfl
  rw [h1]
  rfl

theorem fScore_comm (f : NumFeature K) (l r : List Nat) : fScore f l r = fScore f r l := by
  rcases eq_or_ne l [] with rfl | hl
  · rw [fScore_nil_left, fScore_nil_right]
  rcases eq_or_ne r [] with rfl | hr
  · rw [fScore_nil_left, fScore_nil_right]
  rw [fScore_eq f l r hl hr, fScore_eq f r l hr hl, sse_perm f (List.perm_append_comm (l₁ := l))]
  congr 1
  ring

/-- The gradient boosting target measures its score consistently on cases with finite values. -/
def gradLaws (f : NumFeature K) (cases : List Nat) (h : f.Finite cases) : TargetLaws (gradTarget f) cases where
  I cs := if sseX f cs ≤ minImp then sseX f cs else .fin (-1)
  S := fScore f
  Ok _ := True
  Tracks a l r := a.lsum = .fin (l.map f.value).sum ∧ a.rsum = .fin (r.map f.value).sum
  tracks_ok _ _ _ _ := trivial
  I_perm l l' hp := by rw [sseX_perm f hp]
  S_perm l l' r r' hl hr := by
    unfold fScore
    rw [hl.length_eq, hr.length_eq, (hl.map f.value).sum_eq, (hr.map f.value).sum_eq]
  S_comm l r := fScore_comm f l r
  impurity := by
    intro a cs _ hcs
    refine ⟨a, ?_, trivial⟩
    have he : f.impurity a cs = some (sseX f cs, a) := by
      unfold NumFeature.impurity
      rw [sums_eq f cs (fun c hc => h c (hcs c hc))]
      rfl
    simp only [gradTarget]
    rw [he, Option.bind_eq_bind, Option.bind_some]
    by_cases hle : sseX f cs ≤ minImp
    · simp only [if_pos hle]
    · simp only [if_neg hle]
  split := by
    intro a l r _ hcs
    refine ⟨{ a with lsum := .fin (l.map f.value).sum, rsum := .fin (r.map f.value).sum }, ?_, rfl, rfl⟩
    simp only [gradTarget]
    rw [sum_eq f l (fun c hc => h c (hcs c (List.mem_append_left _ hc))),
      sum_eq f r (fun c hc => h c (hcs c (List.mem_append_right _ hc)))]
    rfl
  update := by
    rintro a l r l' r' mv ⟨h1, h2⟩ hcs hl hr
    refine ⟨{ a with lsum := .fin (l'.map f.value).sum, rsum := .fin (r'.map f.value).sum }, ?_, rfl, rfl⟩
    simp only [gradTarget]
    have hm : f.Finite mv := fun c hc => h c (hcs c (List.mem_append_right _
      (hr.mem_iff.2 (List.mem_append_left _ hc))))
    rw [sum_eq f mv hm, h1, h2]
    have e1 := (hl.map f.value).sum_eq
    have e3 := (hr.map f.value).sum_eq
    rw [List.map_append, List.sum_append] at e1 e3
    simp only [Option.bind_eq_bind, Option.bind_some, XF.fin_add, XF.fin_sub]
    rw [← e1, e3]
    simp only [add_sub_cancel_left]
    rfl

end CloudForest
