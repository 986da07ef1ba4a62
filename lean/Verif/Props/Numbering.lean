import Verif.Lemmas.Questions
import Verif.Props.Fit
import Verif.Props.Targets

/-!
# C154: a classification tree does not depend on the numbers of the classes
-/

set_option linter.unusedSectionVars false

namespace CloudForest
variable {K : Type} [Field K] [LinearOrder K] [IsStrictOrderedRing K] {τ : Type}

/-! ## Impurity without numbers -/

/-- How many of the listed cases are of the class of case `c`. -/
def CatFeature.sameClass (f : CatFeature) (l : List Nat) (c : Nat) : Nat :=
  l.countP fun d => f.catData[d]? == f.catData[c]?

theorem sum_classes_single (n k0 : Nat) (a : K) (h : k0 < n) :
    ((List.range n).map fun k => if k = k0 then a else 0).sum = a := by
  induction n with
  | zero => omega
  | succ n ih =>
    rw [List.range_succ, List.map_append, List.sum_append]
    by_cases hk : k0 = n
    · subst hk
      have : ((List.range k0).map fun k => if k = k0 then a else 0) = (List.range k0).map fun _ => 0 :=
        List.map_congr_left fun k hk => if_neg (by have := List.mem_range.1 hk; omega)
      rw [this]
      simp
    · rw [ih (by omega)]
      simp [show ¬ n = k0 by omega]

theorem sum_by_class {f : CatFeature} {n : Nat} (h : Nat → K) : ∀ {l : List Nat}, f.InRange n l →
    (l.map h).sum = ((List.range n).map fun k => ((l.filter fun c => f.catData[c]? == some k).map h).sum).sum := by
  intro l
  induction l with
  | nil => intro _; simp
  | cons c l ih =>
    intro hr
    obtain ⟨k0, hk, hlt⟩ := hr c (by simp)
    rw [List.map_cons, List.sum_cons, ih fun d hd => hr d (List.mem_cons_of_mem _ hd)]
    have : ∀ k, (((c :: l).filter fun c => f.catData[c]? == some k).map h).sum =
        (if k = k0 then h c else 0) + ((l.filter fun c => f.catData[c]? == some k).map h).sum := by
      intro k
      rw [List.filter_cons, hk]
      by_cases hkk : k = k0
      · subst hkk
        simp
      · rw [if_neg (by simpa using fun e => hkk e.symm), if_neg hkk, zero_add]
    simp only [this]
    rw [List.sum_map_add, sum_classes_single _ _ _ hlt]

/-- A sum over classes as a sum over cases. -/
theorem sum_classes {f : CatFeature} {n : Nat} (g : Nat → K) (h0 : g 0 = 0) {l : List Nat} (hr : f.InRange n l) :
    ((List.range n).map fun k => g (f.catCount l k)).sum =
      (l.map fun c => g (f.sameClass l c) / (f.sameClass l c : K)).sum := by
  rw [sum_by_class _ hr]
  congr 1
  refine List.map_congr_left fun k _ => ?_
  have e : ((l.filter fun c => f.catData[c]? == some k).map fun c => g (f.sameClass l c) / (f.sameClass l c : K)) =
      (l.filter fun c => f.catData[c]? == some k).map fun _ => g (f.catCount l k) / (f.catCount l k : K) := by
    refine List.map_congr_left fun c hc => ?_
    have hck : f.catData[c]? = some k := by simpa using (List.mem_filter.1 hc).2
    have : f.sameClass l c = f.catCount l k := by
      unfold CatFeature.sameClass CatFeature.catCount
      rw [hck]
    rw [this]
  rw [e, List.map_const', List.sum_replicate, ← List.countP_eq_length_filter]
  show _ = f.catCount l k • _
  by_cases hz : f.catCount l k = 0
  · rw [hz]
    simp [h0]
  · have : (f.catCount l k : K) ≠ 0 := by exact_mod_cast hz
    rw [nsmul_eq_mul]
    field_simp

/-! ## The same classes under other numbers -/

section
variable {f f' : CatFeature} {all : List Nat}

theorem known_class (hf : f.Consistent) {c : Nat} (hk : f.missing[c]? = some false) :
    ∃ k, f.catData[c]? = some k ∧ k < f.cm.nCats ∧ f.getStr c = f.cm.back[k]? := by
  have hl : c < f.catData.length := by
    rw [hf.lengths]
    exact (List.getElem?_eq_some_iff.1 hk).1
  have hc : f.catData[c]? = some f.catData[c] := List.getElem?_eq_getElem hl
  refine ⟨_, hc, hf.valid _ _ hk hc, ?_⟩
  unfold CatFeature.getStr
  rw [hk]
  simp only [Option.bind_eq_bind, Option.bind_some, Bool.false_eq_true, if_false, hc]

/-- Known cases have the same class exactly if they read the same. -/
theorem same_class_iff (hf : f.Consistent) {c d : Nat} (hc : f.missing[c]? = some false) (hd : f.missing[d]? = some false) :
    f.catData[d]? = f.catData[c]? ↔ f.getStr d = f.getStr c := by
  obtain ⟨k, h1, h2, h3⟩ := known_class hf hc
  obtain ⟨j, g1, g2, g3⟩ := known_class hf hd
  rw [h1, g1, h3, g3]
  constructor
  · intro h
    cases h
    rfl
  · intro h
    have hk : f.cm.back[k]? = some (f.cm.back[k]'h2) := List.getElem?_eq_getElem h2
    rw [hk] at h
    rw [CatMap.WF.inj hf.map h hk]

theorem ReadAlike.sameClass (h : ReadAlike f f' all) {l : List Nat} (hl : ∀ c ∈ l, c ∈ all) {c : Nat} (hc : c ∈ l) :
    f'.sameClass l c = f.sameClass l c := by
  unfold CatFeature.sameClass
  apply List.countP_congr
  intro d hd
  rw [beq_iff_eq, beq_iff_eq, same_class_iff h.cons' (h.known' c (hl c hc)) (h.known' d (hl d hd)),
    same_class_iff h.cons (h.known c (hl c hc)) (h.known d (hl d hd)), h.same c (hl c hc), h.same d (hl d hd)]

theorem ReadAlike.inRange (h : ReadAlike f f' all) : f.InRange f.cm.nCats all := fun c hc => by
  obtain ⟨k, h1, h2, -⟩ := known_class h.cons (h.known c hc)
  exact ⟨k, h1, h2⟩

theorem ReadAlike.inRange' (h : ReadAlike f f' all) : f'.InRange f'.cm.nCats all := fun c hc => by
  obtain ⟨k, h1, h2, -⟩ := known_class h.cons' (h.known' c hc)
  exact ⟨k, h1, h2⟩

theorem ReadAlike.sum (h : ReadAlike f f' all) (g : Nat → K) (h0 : g 0 = 0) {l : List Nat} (hl : ∀ c ∈ l, c ∈ all) :
    ((List.range f'.cm.nCats).map fun k => g (f'.catCount l k)).sum =
      ((List.range f.cm.nCats).map fun k => g (f.catCount l k)).sum := by
  rw [sum_classes g h0 fun c hc => h.inRange' c (hl c hc), sum_classes g h0 fun c hc => h.inRange c (hl c hc)]
  congr 1
  exact List.map_congr_left fun c hc => by rw [h.sameClass hl hc]

theorem giniFromCounts_none (f : CatFeature) {n : Nat} (hn : n ≠ 0) :
    (giniFromCounts 0 (f.counts n []) : XF K) = .nan := by
  have hnan : ∀ l : List Int, l.foldl (fun (e : XF K) i => e - XF.ofInt (i * i) / XF.ofNat (0 * 0)) .nan = .nan := by
    intro l
    induction l with
    | nil => rfl
    | cons x l ih => exact ih
  obtain ⟨m, rfl⟩ := Nat.exists_eq_succ_of_ne_zero hn
  unfold giniFromCounts CatFeature.counts
  rw [List.range_succ_eq_map, List.map_cons, List.foldl_cons]
  have : (XF.fin 1 - XF.ofInt ((f.catCount [] 0 : Int) * (f.catCount [] 0 : Int)) / XF.ofNat (0 * 0) : XF K) = .nan := by
    show XF.sub _ (XF.div (XF.fin _) (XF.fin _)) = _
    simp [CatFeature.catCount, XF.div, XF.infTimes, XF.sub]
    rfl
  rw [this]
  exact hnan _

theorem ReadAlike.gini (h : ReadAlike f f' all) (hne : all ≠ []) {l : List Nat} (hl : ∀ c ∈ l, c ∈ all) :
    (giniFromCounts l.length (f'.counts f'.cm.nCats l) : XF K) = giniFromCounts l.length (f.counts f.cm.nCats l) := by
  by_cases hll : l = []
  · subst hll
    obtain ⟨c, hc⟩ := List.exists_mem_of_ne_nil _ hne
    obtain ⟨k, -, hk⟩ := h.inRange c hc
    obtain ⟨k', -, hk'⟩ := h.inRange' c hc
    rw [List.length_nil, giniFromCounts_none f (by omega), giniFromCounts_none f' (by omega)]
  · rw [giniFromCounts_eq _ _ _ hll, giniFromCounts_eq _ _ _ hll]
    unfold CatFeature.gini
    rw [h.sum (fun k => ((k : K) / (l.length : K)) ^ 2) (by simp) hl]

theorem ReadAlike.entropy (h : ReadAlike f f' all) {l : List Nat} (hl : ∀ c ∈ l, c ∈ all) :
    entropyFromCounts realLog l.length (f'.counts f'.cm.nCats l) =
      entropyFromCounts realLog l.length (f.counts f.cm.nCats l) := by
  by_cases hll : l = []
  · subst hll
    have : ∀ (f : CatFeature) (n : Nat), entropyFromCounts realLog 0 (f.counts n []) = .fin 0 := by
      intro f n
      unfold entropyFromCounts CatFeature.counts CatFeature.catCount
      rw [List.foldl_map]
      generalize List.range n = r
      induction r with
      | nil => rfl
      | cons x r ih => simpa using ih
    rw [List.length_nil, this, this]
  · rw [entropyFromCounts_eq _ _ _ hll, entropyFromCounts_eq _ _ _ hll, entropy_eq, entropy_eq]
    rw [h.sum (fun k => Real.negMulLog ((k : ℝ) / l.length)) (by simp) hl]

theorem countLaws_agrees (h : ReadAlike f f' all) {imp : Nat → List Int → XF K}
    (hI : ∀ l, (∀ c ∈ l, c ∈ all) → imp l.length (f'.counts f'.cm.nCats l) = imp l.length (f.counts f.cm.nCats l)) :
    (countLaws f imp _ all h.inRange).Agrees (countLaws f' imp _ all h.inRange') where
  I := hI
  S l r hlr := by
    show wavg _ _ (imp _ _) (imp _ _) = wavg _ _ (imp _ _) (imp _ _)
    rw [hI l fun c hc => hlr c (List.mem_append_left _ hc), hI r fun c hc => hlr c (List.mem_append_right _ hc)]

theorem predicted_frequent (hf : f.Consistent) {S : List Nat} (hne : S ≠ []) (hk : ∀ c ∈ S, f.missing[c]? = some false) :
    ∃ p, f.findPredicted S = some p ∧ ∀ s, f.frequency S s ≤ f.frequency S p := by
  have hkn : knownOf f.missing S = S := by
    unfold knownOf
    rw [List.filter_eq_self]
    intro d hd
    rw [hk d hd]
    rfl
  obtain ⟨p, m, h1, h2, h3⟩ := c38_cat f hf S (fun c hc => (List.getElem?_eq_some_iff.1 (hk c hc)).1) (by rwa [hkn])
  rw [hkn] at h3
  have hcount : ∀ {k : Nat} {s : String}, f.cm.back[k]? = some s → f.frequency S s = f.catCount S k := by
    intro k s hs
    unfold CatFeature.frequency CatFeature.catCount
    apply List.countP_congr
    intro c hc
    obtain ⟨j, g1, g2, g3⟩ := known_class hf (hk c hc)
    rw [beq_iff_eq, beq_iff_eq, g1, g3]
    constructor
    · intro h
      rw [CatMap.WF.inj hf.map h hs]
    · intro h
      cases h
      exact hs
  refine ⟨p, h1, fun s => ?_⟩
  rw [hcount h2]
  by_cases hs : ∃ k : Nat, f.cm.back[k]? = some s
  · obtain ⟨k, hs⟩ := hs
    rw [hcount hs]
    exact h3 k
  · have : f.frequency S s = 0 := by
      unfold CatFeature.frequency
      rw [List.countP_eq_zero]
      intro c hc
      obtain ⟨j, g1, g2, g3⟩ := known_class hf (hk c hc)
      rw [beq_iff_eq, g3]
      exact fun h => hs ⟨j, h⟩
    omega

theorem frequency_perm {S S' : List Nat} (h : S.Perm S') (s : String) : f.frequency S s = f.frequency S' s := h.countP_eq _

/-- What a leaf of a grown classification tree predicts: a most frequent class of its training cases. -/
theorem grown_predicts {fm : FeatureMatrix K} {T : Target K} {C : Contrast K τ} {good : τ → Prop} {o : SplitOpts}
    {cases : List Nat} (hM : MatrixOk fm all) (hc : ∀ c ∈ cases, c ∈ all) {L : TargetLaws T all} {st : SplitState K}
    (hS : SplitSetting L fm C good o st.cans st.oob) (hok : L.Ok st.allocs) (hf : f.Consistent)
    (hk : ∀ c ∈ all, f.missing[c]? = some false) (maxDepth : Int) (splitmissing : Bool) {fuel : Nat} {root : Node K}
    {st' : SplitState K}
    (h : grow (treeGrower fm T C o (fun S => (f.findPredicted S).getD "") maxDepth splitmissing) fm fuel .fresh st cases 0 0 =
      some (root, st')) {c : Nat} (hcc : c ∈ cases) {path : List Dir} {p : String}
    (hl : landing fm root c = some (path, p)) (s : String) :
    f.frequency (leafMates fm root cases c) s ≤ f.frequency (leafMates fm root cases c) p := by
  have hmates : leafMates fm root cases c = cases.filter fun e => (landing fm root e).map (·.1) == some path := by
    unfold leafMates
    rw [hl]
    rfl
  rw [hmates]
  rcases (c08_grow hM hc hS hok _ maxDepth splitmissing h).1 (path, p) (landing_mem _ _ _ hl) with
    ⟨S, hp, e⟩ | ⟨-, -, -, e⟩
  · have hcS : c ∈ S := hp.mem_iff.2 (List.mem_filter.2 ⟨hcc, by rw [hl]; simp⟩)
    obtain ⟨q, h1, h2⟩ := predicted_frequent hf (List.ne_nil_of_mem hcS) fun d hd =>
      hk d (hc d (List.mem_filter.1 (hp.mem_iff.1 hd)).1)
    simp only at e
    rw [h1, Option.getD_some] at e
    rw [e, ← frequency_perm hp, ← frequency_perm hp]
    exact h2 s
  · exact absurd (by rw [hl]; rfl) (e c hcc)

/-- Two classifications of the training cases that cannot be told apart by the impurity: the same tree. -/
theorem same_classification {fm fm' : FeatureMatrix K} {C C' : Contrast K τ} {good good' : τ → Prop} {o : SplitOpts}
    {cases : List Nat} (hM : MatrixOk fm all) (hM' : MatrixOk fm' all) (hc : ∀ c ∈ cases, c ∈ all) (hr : ReadAlike f f' all)
    {imp : Nat → List Int → XF K}
    (hI : ∀ l, (∀ c ∈ l, c ∈ all) → imp l.length (f'.counts f'.cm.nCats l) = imp l.length (f.counts f.cm.nCats l))
    {st st' : SplitState K}
    (hS : SplitSetting (countLaws f imp _ all hr.inRange) fm C good o st.cans st.oob)
    (hS' : SplitSetting (countLaws f' imp _ all hr.inRange') fm' C' good' o st'.cans st'.oob)
    (hok : countOk f.cm.nCats st.allocs) (hok' : countOk f'.cm.nCats st'.allocs)
    (hrng : st'.rng = st.rng) (hcans : st'.cans = st.cans) (hvet : o.vet = false) (hoob : o.evaloob = false)
    (hsame : ∀ i ∈ st.cans, fm'.data[i]? = fm.data[i]?) (maxDepth : Int) (splitmissing : Bool) :
    ∃ root root' st1 st1', (∀ fuel, cases.length < fuel →
        grow (treeGrower fm (countTarget f imp) C o (fun S => (f.findPredicted S).getD "") maxDepth splitmissing) fm fuel
          .fresh st cases 0 0 = some (root, st1) ∧
        grow (treeGrower fm' (countTarget f' imp) C' o (fun S => (f'.findPredicted S).getD "") maxDepth splitmissing) fm'
          fuel .fresh st' cases 0 0 = some (root', st1')) ∧
      SameQuestions (fun _ _ => True) root root' ∧
      ∀ c ∈ cases, ∀ path p, landing fm root c = some (path, p) → ∃ p', landing fm' root' c = some (path, p') ∧
        (∀ s, f.frequency (leafMates fm root cases c) s ≤ f.frequency (leafMates fm root cases c) p) ∧
        (∀ s, f.frequency (leafMates fm root cases c) s ≤ f.frequency (leafMates fm root cases c) p') := by
  obtain ⟨root, root', st1, st1', h, hq⟩ := grow_same_questions hM hM' hc (countLaws_agrees hr hI) hS hS' hok hok' hrng hcans
    hvet hoob hsame (fp := fun S => (f.findPredicted S).getD "") (fp' := fun S => (f'.findPredicted S).getD "")
    (fun cs cs' hp _ => c124_class f cs cs' hp) (R := fun _ _ => True) (fun _ => .inl trivial) maxDepth splitmissing
  refine ⟨root, root', st1, st1', h, hq, ?_⟩
  have g := h _ (Nat.lt_succ_self _)
  have hask := (treeGrower_asks g.2).mono (Q := fun i => fm'.data[i]? = fm.data[i]?) fun i hi => hsame i (hcans ▸ hi)
  have hpath : ∀ c, (landing fm' root' c).map (·.1) = (landing fm root c).map (·.1) := by
    intro c
    rw [hask.landing]
    have := hq.landing fm c
    revert this
    cases landing fm root c <;> cases landing fm root' c <;> simp
  have hmates : ∀ c, leafMates fm' root' cases c = leafMates fm root cases c := by
    intro c
    unfold leafMates
    simp only [hpath]
  have hfreq : ∀ l, (∀ c ∈ l, c ∈ all) → ∀ s, f'.frequency l s = f.frequency l s := by
    intro l hl s
    unfold CatFeature.frequency
    exact List.countP_congr fun c hc => by rw [hr.same c (hl c hc)]
  intro c hcc path p hl
  have := hpath c
  rw [hl] at this
  obtain ⟨⟨path', p'⟩, hl', e⟩ := Option.map_eq_some_iff.1 this
  cases e
  refine ⟨p', hl', grown_predicts hM hc hS hok hr.cons hr.known maxDepth splitmissing g.1 hcc hl, ?_⟩
  have := grown_predicts hM' hc hS' hok' hr.cons' hr.known' maxDepth splitmissing g.2 hcc hl'
  rw [hmates] at this
  intro s
  have h2 := this s
  unfold leafMates at h2 ⊢
  rw [hfreq _ fun d hd => hc d (List.mem_filter.1 hd).1, hfreq _ fun d hd => hc d (List.mem_filter.1 hd).1] at h2
  exact h2

/-! ## The property -/

/-- **C154, Gini impurity.** Classes may have other numbers, as they do when rows are in another order or a table of other
data was read first, and there may be other classes besides: with the same random numbers the tree asks the same questions,
every training case ends at the same place, and there both trees predict a class that is as frequent as any among the
training cases. Missing from the full property: which of several equally frequent classes that is (`c154_tie`). -/
theorem c154_numbers_partial {fm fm' : FeatureMatrix K} {C C' : Contrast K τ} {good good' : τ → Prop} {o : SplitOpts}
    {cases : List Nat} (hM : MatrixOk fm all) (hM' : MatrixOk fm' all) (hc : ∀ c ∈ cases, c ∈ all) (hne : all ≠ [])
    (hr : ReadAlike f f' all) {st st' : SplitState K}
    (hS : SplitSetting (giniLaws f _ all hr.inRange) fm C good o st.cans st.oob)
    (hS' : SplitSetting (giniLaws f' _ all hr.inRange') fm' C' good' o st'.cans st'.oob)
    (hok : countOk f.cm.nCats st.allocs) (hok' : countOk f'.cm.nCats st'.allocs)
    (hrng : st'.rng = st.rng) (hcans : st'.cans = st.cans) (hvet : o.vet = false) (hoob : o.evaloob = false)
    (hsame : ∀ i ∈ st.cans, fm'.data[i]? = fm.data[i]?) (maxDepth : Int) (splitmissing : Bool) :
    ∃ root root' st1 st1', (∀ fuel, cases.length < fuel →
        grow (treeGrower fm (giniTarget f) C o (fun S => (f.findPredicted S).getD "") maxDepth splitmissing) fm fuel
          .fresh st cases 0 0 = some (root, st1) ∧
        grow (treeGrower fm' (giniTarget f') C' o (fun S => (f'.findPredicted S).getD "") maxDepth splitmissing) fm'
          fuel .fresh st' cases 0 0 = some (root', st1')) ∧
      SameQuestions (fun _ _ => True) root root' ∧
      ∀ c ∈ cases, ∀ path p, landing fm root c = some (path, p) → ∃ p', landing fm' root' c = some (path, p') ∧
        (∀ s, f.frequency (leafMates fm root cases c) s ≤ f.frequency (leafMates fm root cases c) p) ∧
        (∀ s, f.frequency (leafMates fm root cases c) s ≤ f.frequency (leafMates fm root cases c) p') :=
  same_classification hM hM' hc hr (fun _ hl => hr.gini hne hl) hS hS' hok hok' hrng hcans hvet hoob hsame maxDepth splitmissing

/-- **C154, entropy.** The same for trees that minimise entropy. -/
theorem c154_entropy_partial {fm fm' : FeatureMatrix ℝ} {C C' : Contrast ℝ τ} {good good' : τ → Prop} {o : SplitOpts}
    {cases : List Nat} (hM : MatrixOk fm all) (hM' : MatrixOk fm' all) (hc : ∀ c ∈ cases, c ∈ all)
    (hr : ReadAlike f f' all) {st st' : SplitState ℝ}
    (hS : SplitSetting (countLaws f (entropyFromCounts realLog) _ all hr.inRange) fm C good o st.cans st.oob)
    (hS' : SplitSetting (countLaws f' (entropyFromCounts realLog) _ all hr.inRange') fm' C' good' o st'.cans st'.oob)
    (hok : countOk f.cm.nCats st.allocs) (hok' : countOk f'.cm.nCats st'.allocs)
    (hrng : st'.rng = st.rng) (hcans : st'.cans = st.cans) (hvet : o.vet = false) (hoob : o.evaloob = false)
    (hsame : ∀ i ∈ st.cans, fm'.data[i]? = fm.data[i]?) (maxDepth : Int) (splitmissing : Bool) :
    ∃ root root' st1 st1', (∀ fuel, cases.length < fuel →
        grow (treeGrower fm (entropyTarget realLog f) C o (fun S => (f.findPredicted S).getD "") maxDepth splitmissing) fm
          fuel .fresh st cases 0 0 = some (root, st1) ∧
        grow (treeGrower fm' (entropyTarget realLog f') C' o (fun S => (f'.findPredicted S).getD "") maxDepth splitmissing)
          fm' fuel .fresh st' cases 0 0 = some (root', st1')) ∧
      SameQuestions (fun _ _ => True) root root' ∧
      ∀ c ∈ cases, ∀ path p, landing fm root c = some (path, p) → ∃ p', landing fm' root' c = some (path, p') ∧
        (∀ s, f.frequency (leafMates fm root cases c) s ≤ f.frequency (leafMates fm root cases c) p) ∧
        (∀ s, f.frequency (leafMates fm root cases c) s ≤ f.frequency (leafMates fm root cases c) p') :=
  same_classification hM hM' hc hr (fun _ hl => hr.entropy hl) hS hS' hok hok' hrng hcans hvet hoob hsame maxDepth splitmissing

end

/-! ## Examples -/

/-- The classes of `exFitT` under other numbers: a table with the classes c and a was read before. -/
def exRenumbered : CatFeature := ["b", "a", "a", "b", "b", "a"].foldl (fun f v => f.append v)
  { CatFeature.new "C:t" with cm := (["c", "a"].foldl (fun f v => f.append v) (CatFeature.new "C:t")).cm }

theorem exRenumbered_consistent : exRenumbered.Consistent := by
  have h : (["c", "a"].foldl (fun f v => f.append v) (CatFeature.new "C:t")).Consistent :=
    (cat_appends_reads _ (.new "C:t") [] (consistent_new _) ⟨rfl, fun i => by simp [CatFeature.new, CatFeature.getStr]⟩).1
  refine (cat_appends_reads _ { CatFeature.new "C:t" with cm := ((["c", "a"] : List String).foldl (fun f v => f.append v)
    (CatFeature.new "C:t")).cm } [] ⟨rfl, h.map, ?_, ?_⟩ ⟨rfl, fun i => ?_⟩).1
  · intro i k h; cases i <;> cases h
  · intro i h; cases i <;> cases h
  · simp [CatFeature.new, CatFeature.getStr]

theorem exReadAlike : ReadAlike exFitT exRenumbered [0, 1, 2, 3, 4, 5] where
  cons := exFitT_consistent
  cons' := exRenumbered_consistent
  known := by decide +kernel
  known' := by decide +kernel
  same := by decide +kernel

/-- The numbers. -/
example : exFitT.catData = [0, 1, 1, 0, 0, 1] ∧ exRenumbered.catData = [2, 1, 1, 2, 2, 1] := by decide +kernel

/-- The state before growing with counters for three classes. -/
def exRenumberedState : SplitState ℚ :=
  ⟨⟨[0, 0, 0], [0, 0, 0], [0, 0, 0], .fin 0, .fin 0, .fin 0, .fin 0, .fin 0, .fin 0⟩, fun k => 5 * k + 1, [0, 1, 2], [0, 3, 1]⟩

/-- The hypotheses of `c154_numbers_partial` are met. -/
example : ∃ root root' st1 st1', (∀ fuel, 5 < fuel →
      grow (treeGrower exFM3 (giniTarget exFitT) (catContrast exFitT) ⟨3, 1, true, false, false, false⟩
        (fun S => (exFitT.findPredicted S).getD "") 0 true) exFM3 fuel .fresh exState [0, 1, 2, 4, 5] 0 0 = some (root, st1) ∧
      grow (treeGrower exFM3 (giniTarget exRenumbered) (catContrast exRenumbered) ⟨3, 1, true, false, false, false⟩
        (fun S => (exRenumbered.findPredicted S).getD "") 0 true) exFM3 fuel .fresh exRenumberedState [0, 1, 2, 4, 5] 0 0 =
          some (root', st1')) ∧
    SameQuestions (fun _ _ => True) root root' := by
  obtain ⟨root, root', st1, st1', h, hq, -⟩ := c154_numbers_partial (good := fun _ => True) (good' := fun _ => True)
    (C := catContrast exFitT) (C' := catContrast exRenumbered) (o := ⟨3, 1, true, false, false, false⟩)
    exFM3_ok exFM3_ok (cases := [0, 1, 2, 4, 5]) (by decide) (by decide)
    exReadAlike (st := exState) (st' := exRenumberedState)
    ⟨exFM3_feats, (fun h => by cases h), (fun h => by cases h), trivial, by decide, by decide, by decide, by decide⟩
    ⟨exFM3_feats, (fun h => by cases h), (fun h => by cases h), trivial, by decide, by decide, by decide, by decide⟩
    ⟨rfl, rfl, rfl⟩ ⟨rfl, rfl, rfl⟩ rfl rfl rfl rfl (fun _ _ => rfl) 0 true
  exact ⟨root, root', st1, st1', h, hq⟩

/-- A number for six cases. -/
def exRealFM : FeatureMatrix ℝ :=
  ⟨[.num ⟨[.fin 3, .fin 1, .fin 2, .fin 5, .fin 4, .fin 2], List.replicate 6 false, "N:x", false⟩], fun s =>
    if s = "N:x" then some 0 else none, []⟩

theorem exRealFM_feats : ∀ f ∈ exRealFM.data, FeatOk f [0, 1, 2, 3, 4, 5] := by
  intro f hf
  simp only [exRealFM, List.mem_singleton] at hf
  subst hf
  refine ⟨fun c hc => ?_, fun c hc => ?_, fun c hc => ?_⟩
  · fin_cases hc <;> exact ⟨by show _ < 6; decide, by show _ < 6; decide⟩
  · simp only [Feature.isMissing, List.getElem?_replicate] at hc
    split at hc <;> cases hc
  · have := List.mem_of_mem_filter hc
    fin_cases this <;> exact ⟨_, rfl⟩

theorem exRealFM_ok : MatrixOk exRealFM [0, 1, 2, 3, 4, 5] where
  valid f hf := (exRealFM_feats f hf).valid
  sound f hf := (exRealFM_feats f hf).sound
  catwf := by
    intro f hf
    simp only [exRealFM, List.mem_singleton] at hf
    subst hf
    trivial
  named := by
    intro i f hf
    rcases i with _ | i <;> cases hf
    rfl

/-- The hypotheses of `c154_entropy_partial` are met. -/
example (a a' : Allocs ℝ) (h : countOk 2 a) (h' : countOk 3 a') (r : Rng) : ∃ root root' st1 st1', (∀ fuel, 5 < fuel →
      grow (treeGrower exRealFM (entropyTarget realLog exFitT) (catContrast exFitT) ⟨1, 1, true, false, false, false⟩
        (fun S => (exFitT.findPredicted S).getD "") 0 true) exRealFM fuel .fresh ⟨a, r, [0], []⟩ [0, 1, 2, 4, 5] 0 0 =
          some (root, st1) ∧
      grow (treeGrower exRealFM (entropyTarget realLog exRenumbered) (catContrast exRenumbered)
        ⟨1, 1, true, false, false, false⟩ (fun S => (exRenumbered.findPredicted S).getD "") 0 true) exRealFM fuel .fresh
          ⟨a', r, [0], []⟩ [0, 1, 2, 4, 5] 0 0 = some (root', st1')) ∧
    SameQuestions (fun _ _ => True) root root' := by
  obtain ⟨root, root', st1, st1', h, hq, -⟩ := c154_entropy_partial (good := fun _ => True) (good' := fun _ => True)
    (C := catContrast exFitT) (C' := catContrast exRenumbered) (o := ⟨1, 1, true, false, false, false⟩)
    exRealFM_ok exRealFM_ok (cases := [0, 1, 2, 4, 5]) (by decide)
    exReadAlike (st := ⟨a, r, [0], []⟩) (st' := ⟨a', r, [0], []⟩)
    ⟨exRealFM_feats, (fun h => by cases h), (fun h => by cases h), trivial, by decide, by show ∀ i ∈ [0], i < 1; decide,
      by show 1 ≤ 1; decide, by show ∀ c ∈ ([] : List Nat), c ∈ [0, 1, 2, 3, 4, 5]; decide⟩
    ⟨exRealFM_feats, (fun h => by cases h), (fun h => by cases h), trivial, by decide, by show ∀ i ∈ [0], i < 1; decide,
      by show 1 ≤ 1; decide, by show ∀ c ∈ ([] : List Nat), c ∈ [0, 1, 2, 3, 4, 5]; decide⟩
    h h' rfl rfl rfl rfl (fun _ _ => rfl) 0 true
  exact ⟨root, root', st1, st1', h, hq⟩

/-! ## Where it fails -/

/-- `exFitTwo` with class a first. -/
def exFitTwoR : CatFeature := ["b", "a"].foldl (fun f v => f.append v)
  { CatFeature.new "C:t" with cm := ((CatFeature.new "C:t").append "a").cm }

/-- **C154 is false of the code** for leaves in which several classes are equally frequent: what the tree predicts is the
class with the lowest number. -/
theorem c154_tie : (∀ c < 2, exFitTwoR.getStr c = exFitTwo.getStr c) ∧
    [exFitTwo, exFitTwoR].map (fun f => (grow (treeGrower ⟨[.num exGreedyTwo], fun _ => some 0, []⟩ (giniTarget f)
      (catContrast f) ⟨1, 1, false, false, false, false⟩ (fun S => (f.findPredicted S).getD "") 0 false)
      ⟨[.num exGreedyTwo], fun _ => some 0, []⟩ 4 .fresh ⟨exWork.allocs, fun _ => 0, [0], []⟩ [0, 1] 0 0).map fun r =>
        [0, 1].map fun c => landing ⟨[.num exGreedyTwo], fun _ => some 0, []⟩ r.1 c) =
    [some [some ([], "b"), some ([], "b")], some [some ([], "a"), some ([], "a")]] := by
  decide +kernel

end CloudForest
