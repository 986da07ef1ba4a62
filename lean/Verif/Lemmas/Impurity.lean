import Verif.Spec.Target
import Mathlib.Tactic.Ring
import Mathlib.Tactic.Linarith
import Mathlib.Tactic.FieldSimp
import Mathlib.Algebra.BigOperators.Group.List.Lemmas

/-! # Lemmas about impurities -/

set_option linter.unusedSectionVars false

namespace CloudForest
variable {K : Type} [Field K] [LinearOrder K] [IsStrictOrderedRing K]

namespace XF

@[simp] theorem fin_add (x y : K) : (fin x + fin y : XF K) = fin (x + y) := rfl
@[simp] theorem fin_mul (x y : K) : (fin x * fin y : XF K) = fin (x * y) := rfl
@[simp] theorem fin_neg (x : K) : (-fin x : XF K) = fin (-x) := rfl
@[simp] theorem fin_sub (x y : K) : (fin x - fin y : XF K) = fin (x - y) := by
  show fin (x + -y) = _; rw [sub_eq_add_neg]
theorem fin_div (x : K) {y : K} (h : y ≠ 0) : (fin x / fin y : XF K) = fin (x / y) := by
  show (if y = 0 then infTimes x else fin (x / y)) = _
  rw [if_neg h]
@[simp] theorem fin_lt (x y : K) : ((fin x : XF K) < fin y) ↔ x < y := Iff.rfl
@[simp] theorem fin_le (x y : K) : ((fin x : XF K) ≤ fin y) ↔ x ≤ y := Iff.rfl

end XF

/-! ## Counts -/

theorem bump_counts (f : CatFeature) (n : Nat) (xs ys : List Nat) (k : Nat) (hk : k < n) (d : Int)
    (h : ∀ j, (f.catCount ys j : Int) = f.catCount xs j + if j = k then d else 0) :
    bump (f.counts n xs) k d = some (f.counts n ys) := by
  unfold bump CatFeature.counts
  rw [List.getElem?_map, List.getElem?_range hk]
  simp only [Option.map_some, Option.bind_eq_bind, Option.bind_some]
  congr 1
  apply List.ext_getElem?
  intro j
  rw [List.getElem?_set]
  simp only [List.length_map, List.length_range, List.getElem?_map]
  by_cases hjk : k = j
  · subst hjk
    rw [if_pos rfl, if_pos hk, List.getElem?_range hk]
    simp [h k]
  · rw [if_neg hjk]
    have := h j
    rw [if_neg (fun e => hjk e.symm)] at this
    by_cases hj : j < n
    · rw [List.getElem?_range hj]; simp [this]
    · rw [List.getElem?_eq_none (by simpa using hj)]; rfl

theorem catCount_append (f : CatFeature) (xs ys : List Nat) (k : Nat) :
    f.catCount (xs ++ ys) k = f.catCount xs k + f.catCount ys k := by
  unfold CatFeature.catCount; exact List.countP_append

theorem catCount_cons (f : CatFeature) (c : Nat) (ys : List Nat) (k j : Nat)
    (hk : f.catData[c]? = some k) :
    f.catCount (c :: ys) j = f.catCount ys j + if j = k then 1 else 0 := by
  unfold CatFeature.catCount
  rw [List.countP_cons, hk]
  by_cases h : j = k
  · subst h; simp
  · have : ¬ k = j := fun e => h e.symm
    simp [h, this]

theorem catCount_perm (f : CatFeature) {xs ys : List Nat} (h : xs.Perm ys) (k : Nat) :
    f.catCount xs k = f.catCount ys k := by
  unfold CatFeature.catCount; exact h.countP_eq _

theorem counts_perm (f : CatFeature) (n : Nat) {xs ys : List Nat} (h : xs.Perm ys) :
    f.counts n xs = f.counts n ys := by
  unfold CatFeature.counts
  exact List.map_congr_left fun k _ => by rw [catCount_perm f h k]

theorem counts_length (f : CatFeature) (n : Nat) (xs : List Nat) : (f.counts n xs).length = n := by
  simp [CatFeature.counts]

theorem InRange.of_perm {f : CatFeature} {n : Nat} {xs ys : List Nat} (h : f.InRange n ys)
    (hp : xs.Perm ys) : f.InRange n xs := fun c hc => h c (hp.mem_iff.1 hc)

theorem countPerCat_eq (f : CatFeature) (cases : List Nat) (counter : List Int)
    (h : f.InRange counter.length cases) :
    f.countPerCat cases counter = some (f.counts counter.length cases) := by
  unfold CatFeature.countPerCat
  have h0 : (counter.map fun _ => (0 : Int)) = f.counts counter.length [] := by
    apply List.ext_getElem
    · simp [counts_length]
    · intro i h1 h2; simp [CatFeature.counts, CatFeature.catCount]
  rw [h0]
  generalize counter.length = n at *
  suffices H : ∀ pre, cases.foldlM (fun acc c => do
      let k ← f.catData[c]?
      bump acc k 1) (f.counts n pre) = some (f.counts n (pre ++ cases)) by
    simpa using H []
  intro pre
  induction cases generalizing pre with
  | nil => simp
  | cons c cs ih =>
    obtain ⟨k, hk, hkn⟩ := h c (by simp)
    rw [List.foldlM_cons, hk]
    simp only [Option.bind_eq_bind, Option.bind_some]
    rw [bump_counts f n pre (pre ++ [c]) k hkn 1 (by
      intro j; rw [catCount_append, catCount_cons f c [] k j hk]
      simp [CatFeature.catCount])]
    simp only [Option.bind_some]
    rw [← Option.bind_eq_bind, ih (fun c hc => h c (by simp [hc]))]
    simp

theorem moveCounts_eq (f : CatFeature) (n : Nat) (mv l r r' : List Nat)
    (hm : f.InRange n mv) (hr : r.Perm (mv ++ r')) :
    f.moveCounts mv (f.counts n l) (f.counts n r) =
      some (f.counts n (l ++ mv), f.counts n r') := by
  rw [counts_perm f n hr]
  clear hr
  unfold CatFeature.moveCounts
  induction mv generalizing l with
  | nil => simp
  | cons c cs ih =>
    obtain ⟨k, hk, hkn⟩ := hm c (by simp)
    rw [List.foldlM_cons, hk]
    simp only [Option.bind_eq_bind, Option.bind_some]
    rw [bump_counts f n l (l ++ [c]) k hkn 1 (by
      intro j; rw [catCount_append, catCount_cons f c [] k j hk]
      simp [CatFeature.catCount])]
    simp only [Option.bind_some]
    rw [bump_counts f n (c :: cs ++ r') (cs ++ r') k hkn (-1) (by
      intro j; rw [List.cons_append, catCount_cons f c _ k j hk]
      split <;> simp)]
    simp only [Option.bind_some]
    have := ih (l ++ [c]) (fun c hc => hm c (by simp [hc]))
    simp only [Option.bind_eq_bind] at this
    rw [this]; simp

theorem sum_catCount (f : CatFeature) (n : Nat) (cases : List Nat) (h : f.InRange n cases) :
    ((List.range n).map fun k => (f.catCount cases k : K)).sum = (cases.length : K) := by
  induction cases with
  | nil => simp [CatFeature.catCount]
  | cons c cs ih =>
    obtain ⟨k, hk, hkn⟩ := h c (by simp)
    have e : (fun j => (f.catCount (c :: cs) j : K)) =
        fun j => (f.catCount cs j : K) + if j = k then 1 else 0 := by
      funext j; rw [catCount_cons f c cs k j hk]; push_cast; rfl
    rw [e, List.sum_map_add, ih (fun c hc => h c (by simp [hc]))]
    have : ((List.range n).map fun j => if j = k then (1 : K) else 0).sum = 1 := by
      clear e ih h hk
      induction n with
      | zero => omega
      | succ n ihn =>
        rw [List.range_succ, List.map_append, List.sum_append]
        by_cases hkn' : k < n
        · rw [ihn hkn']
          have : n ≠ k := by omega
          simp [this]
        · have hk : k = n := by omega
          subst hk
          have : ((List.range k).map fun j => if j = k then (1 : K) else 0) =
              (List.range k).map fun _ => (0 : K) :=
            List.map_congr_left fun j hj => by
              have := List.mem_range.1 hj
              rw [if_neg (by omega)]
          rw [this]; simp
    rw [this]; push_cast [List.length_cons]; ring

/-! ## Gini -/

theorem giniFromCounts_eq (f : CatFeature) (n : Nat) (cases : List Nat) (h : cases ≠ []) :
    (giniFromCounts cases.length (f.counts n cases) : XF K) = .fin (f.gini K n cases) := by
  unfold giniFromCounts CatFeature.counts CatFeature.gini
  have hN : (cases.length : K) ≠ 0 := by
    have : cases.length ≠ 0 := by simpa using h
    exact_mod_cast this
  have hN2 : ((cases.length * cases.length : Nat) : K) ≠ 0 := by
    push_cast; exact mul_ne_zero hN hN
  rw [List.foldl_map]
  suffices H : ∀ (l : List Nat) (e : K), List.foldl (fun (e : XF K) k =>
      e - XF.ofInt ((f.catCount cases k : Int) * (f.catCount cases k : Int)) /
        XF.ofNat (cases.length * cases.length)) (.fin e) l =
      .fin (e - (l.map fun k => ((f.catCount cases k : K) / (cases.length : K)) ^ 2).sum) from
    H _ 1
  intro l
  induction l with
  | nil => intro e; simp
  | cons k ks ih =>
    intro e
    rw [List.foldl_cons]
    have : (XF.fin e - XF.ofInt ((f.catCount cases k : Int) * (f.catCount cases k : Int)) /
        XF.ofNat (cases.length * cases.length) : XF K) =
        .fin (e - ((f.catCount cases k : K) / (cases.length : K)) ^ 2) := by
      unfold XF.ofInt XF.ofNat
      rw [XF.fin_div _ hN2, XF.fin_sub]
      congr 2
      push_cast
      field_simp
    rw [this, ih]
    simp only [List.map_cons, List.sum_cons]
    congr 1; ring

/-- Scratch counters of the right length. -/
def countOk (n : Nat) (a : Allocs K) : Prop :=
  a.counter.length = n ∧ a.lcounter.length = n ∧ a.rcounter.length = n

/-- Scratch counters that belong to a division. -/
def countTracks (f : CatFeature) (n : Nat) (a : Allocs K) (l r : List Nat) : Prop :=
  a.counter.length = n ∧ a.lcounter = f.counts n l ∧ a.rcounter = f.counts n r

/-- Weighted impurity of two blocks. -/
def wavg (nl nr : Nat) (il ir : XF K) : XF K :=
  (XF.ofNat nl * il + XF.ofNat nr * ir) / (XF.ofNat nl + XF.ofNat nr + .fin 0)

theorem XF.add_comm' (a b : XF K) : a + b = b + a := by
  show XF.add a b = XF.add b a
  cases a <;> cases b <;> simp [XF.add, add_comm]

theorem wavg_comm (nl nr : Nat) (il ir : XF K) : wavg nl nr il ir = wavg nr nl ir il := by
  unfold wavg
  rw [XF.add_comm' (XF.ofNat nl * il), XF.add_comm' (XF.ofNat nl) (XF.ofNat nr)]

/-- A count based target measures impurity consistently. -/
def countLaws (f : CatFeature) (imp : Nat → List Int → XF K) (n : Nat) (cases : List Nat)
    (h : f.InRange n cases) : TargetLaws (countTarget f imp) cases where
  I cs := imp cs.length (f.counts n cs)
  S l r := wavg l.length r.length (imp l.length (f.counts n l)) (imp r.length (f.counts n r))
  Ok := countOk n
  Tracks := countTracks f n
  tracks_ok := by
    rintro a l r ⟨h1, h2, h3⟩
    refine ⟨h1, ?_, ?_⟩
    · rw [h2, counts_length]
    · rw [h3, counts_length]
  I_perm l l' hp := by rw [hp.length_eq, counts_perm f n hp]
  S_perm l l' r r' hl hr := by
    rw [hl.length_eq, counts_perm f n hl, hr.length_eq, counts_perm f n hr]
  S_comm l r := wavg_comm _ _ _ _
  impurity := by
    rintro a cs ⟨h1, h2, h3⟩ hcs
    refine ⟨{ a with counter := f.counts n cs }, ?_, ?_, h2, h3⟩
    · show countImpurity f imp a cs = _
      unfold countImpurity
      rw [countPerCat_eq f cs a.counter (by rw [h1]; exact fun c hc => h c (hcs c hc)), h1]
      rfl
    · exact counts_length f n cs
  split := by
    rintro a l r ⟨h1, h2, h3⟩ hcs
    refine ⟨{ a with lcounter := f.counts n l, rcounter := f.counts n r }, ?_, h1, rfl, rfl⟩
    show countSplitImpurity f imp a l r none = _
    unfold countSplitImpurity
    rw [countPerCat_eq f l a.lcounter
        (by rw [h2]; exact fun c hc => h c (hcs c (List.mem_append_left _ hc))), h2,
      countPerCat_eq f r a.rcounter
        (by rw [h3]; exact fun c hc => h c (hcs c (List.mem_append_right _ hc))), h3]
    rfl
  update := by
    rintro a l r l' r' mv ⟨h1, h2, h3⟩ hcs hl hr
    refine ⟨{ a with lcounter := f.counts n l', rcounter := f.counts n r' }, ?_, h1, rfl, rfl⟩
    show countUpdateSImp f imp a l' r' none mv = _
    unfold countUpdateSImp
    have hm : f.InRange n mv := fun c hc => h c (hcs c (List.mem_append_right _
      (hr.mem_iff.2 (List.mem_append_left _ hc))))
    rw [h2, h3, moveCounts_eq f n mv l r r' hm hr, ← counts_perm f n hl]
    rfl

/-! ## Sums of squares -/

theorem sums_eq (f : NumFeature K) (cases : List Nat) (h : f.Finite cases) :
    f.sums cases = some (.fin (cases.map f.value).sum, .fin (cases.map fun c => f.value c ^ 2).sum)
    := by
  unfold NumFeature.sums
  suffices H : ∀ s q : K, cases.foldlM (fun (acc : XF K × XF K) c => do
      let x ← f.numData[c]?
      some (acc.1 + x, acc.2 + x * x)) (.fin s, .fin q) =
      some (.fin (s + (cases.map f.value).sum), .fin (q + (cases.map fun c => f.value c ^ 2).sum))
      by simpa using H 0 0
  induction cases with
  | nil => intro s q; simp
  | cons c cs ih =>
    intro s q
    obtain ⟨x, hx⟩ := h c (by simp)
    have hv : f.value c = x := by unfold NumFeature.value; rw [hx]
    rw [List.foldlM_cons, hx]
    simp only [Option.bind_eq_bind, Option.bind_some, XF.fin_add, XF.fin_mul]
    have := ih (fun c hc => h c (by simp [hc])) (s + x) (q + x * x)
    simp only [Option.bind_eq_bind] at this
    rw [this]
    simp only [List.map_cons, List.sum_cons, hv]
    congr 3 <;> ring

/-- Scratch sums that belong to a division. -/
def sseTracks (f : NumFeature K) (a : Allocs K) (l r : List Nat) : Prop :=
  a.lsum = .fin (l.map f.value).sum ∧ a.lsumSqr = .fin (l.map fun c => f.value c ^ 2).sum ∧
  a.rsum = .fin (r.map f.value).sum ∧ a.rsumSqr = .fin (r.map fun c => f.value c ^ 2).sum

/-- Sum of squared deviations as the target computes it. -/
def sseX (f : NumFeature K) (cs : List Nat) : XF K :=
  sseFrom cs.length (.fin (cs.map f.value).sum) (.fin (cs.map fun c => f.value c ^ 2).sum)

theorem sseX_perm (f : NumFeature K) {l l' : List Nat} (h : l.Perm l') : sseX f l = sseX f l' := by
  unfold sseX
  rw [h.length_eq, (h.map f.value).sum_eq, (h.map fun c => f.value c ^ 2).sum_eq]

/-- A numerical target measures impurity consistently on cases with finite values. -/
def sseLaws (f : NumFeature K) (cases : List Nat) (h : f.Finite cases) :
    TargetLaws (sseTarget f) cases where
  I := sseX f
  S l r := wavg l.length r.length (sseX f l) (sseX f r)
  Ok _ := True
  Tracks := sseTracks f
  tracks_ok _ _ _ _ := trivial
  I_perm l l' hp := sseX_perm f hp
  S_perm l l' r r' hl hr := by
    rw [hl.length_eq, sseX_perm f hl, hr.length_eq, sseX_perm f hr]
  S_comm l r := wavg_comm _ _ _ _
  impurity := by
    intro a cs _ hcs
    refine ⟨a, ?_, trivial⟩
    show f.impurity a cs = _
    unfold NumFeature.impurity
    rw [sums_eq f cs (fun c hc => h c (hcs c hc))]
    rfl
  split := by
    intro a l r _ hcs
    refine ⟨{ a with
      lsum := .fin (l.map f.value).sum, lsumSqr := .fin (l.map fun c => f.value c ^ 2).sum
      rsum := .fin (r.map f.value).sum, rsumSqr := .fin (r.map fun c => f.value c ^ 2).sum },
      ?_, rfl, rfl, rfl, rfl⟩
    show f.splitImpurity a l r none = _
    unfold NumFeature.splitImpurity
    rw [sums_eq f l (fun c hc => h c (hcs c (List.mem_append_left _ hc))),
      sums_eq f r (fun c hc => h c (hcs c (List.mem_append_right _ hc)))]
    rfl
  update := by
    rintro a l r l' r' mv ⟨h1, h2, h3, h4⟩ hcs hl hr
    refine ⟨{ a with
      lsum := .fin (l'.map f.value).sum, lsumSqr := .fin (l'.map fun c => f.value c ^ 2).sum
      rsum := .fin (r'.map f.value).sum, rsumSqr := .fin (r'.map fun c => f.value c ^ 2).sum },
      ?_, rfl, rfl, rfl, rfl⟩
    show f.updateSImp a l' r' none mv = _
    unfold NumFeature.updateSImp
    have hm : f.Finite mv := fun c hc => h c (hcs c (List.mem_append_right _
      (hr.mem_iff.2 (List.mem_append_left _ hc))))
    rw [sums_eq f mv hm, h1, h2, h3, h4]
    have e1 := (hl.map f.value).sum_eq
    have e2 := (hl.map fun c => f.value c ^ 2).sum_eq
    have e3 := (hr.map f.value).sum_eq
    have e4 := (hr.map fun c => f.value c ^ 2).sum_eq
    rw [List.map_append, List.sum_append] at e1 e2 e3 e4
    simp only [Option.bind_eq_bind, Option.bind_some, XF.fin_add, XF.fin_sub]
    rw [← e1, ← e2, e3, e4]
    simp only [add_sub_cancel_left]
    rfl

theorem sseX_eq (f : NumFeature K) (cs : List Nat) (h : cs ≠ []) :
    sseX f cs = .fin (f.sse cs) := by
  unfold sseX sseFrom XF.ofNat
  have hN : (cs.length : K) ≠ 0 := by
    have : cs.length ≠ 0 := by simpa using h
    exact_mod_cast this
  rw [XF.fin_mul, XF.fin_div _ hN, XF.fin_sub]
  congr 1
  unfold NumFeature.sse
  have : ∀ (m : K) (l : List Nat), (l.map fun c => (f.value c - m) ^ 2).sum =
      (l.map fun c => f.value c ^ 2).sum - 2 * m * (l.map f.value).sum + l.length * m ^ 2 := by
    intro m l
    induction l with
    | nil => simp
    | cons x xs ih =>
      simp only [List.map_cons, List.sum_cons, List.length_cons, ih]
      push_cast; ring
  rw [this]
  unfold NumFeature.meanOf
  field_simp
  ring

end CloudForest
