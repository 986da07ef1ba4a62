import Verif.Lemmas.Driver
import Verif.Props.Splitter

/-!
# Property C93: which features may be used
-/

set_option linter.unusedSectionVars false

namespace CloudForest
variable {K : Type} [Field K] [LinearOrder K] [IsStrictOrderedRing K] {σ : Type} {τ : Type}

/-- **C93**, when names are unique: `growforest` finishes choosing if there is a target, and the
candidates are the allowed features, in their order. If the target is not itself in the blacklist
file, `nFeatures`, from which `mTry` is worked out, is their number. -/
theorem c93_candidates_partial (fm : FeatureMatrix K) (hI : fm.Indexed)
    (hN : ∀ i f, fm.data[i]? = some f → fm.map f.name = some i) (ids : List String)
    (target : String) (block incl : Option (String → Bool)) (ht : ∃ f ∈ fm.data, f.name = target) :
    ∃ targeti b, chooseFeatures fm ids target block incl = some (targeti, b) ∧
      (∀ i, i ∈ candidates fm targeti b.marks ↔
        ∃ f, fm.data[i]? = some f ∧ Allowed ids target block incl f.name) ∧
      (candidates fm targeti b.marks).Pairwise (· < ·) ∧
      (target ∉ ids → b.nFeatures fm = (candidates fm targeti b.marks).length) := by
  obtain ⟨tf, htf, htn⟩ := ht
  obtain ⟨targeti, hti⟩ := hI.complete tf htf
  rw [htn] at hti
  have hlt : ∀ n i, fm.map n = some i → i < fm.data.length := by
    intro n i hi
    obtain ⟨f, hf, -⟩ := hI.sound n i hi
    exact (List.getElem?_eq_some_iff.1 hf).1
  have hg0 : (⟨List.replicate fm.data.length false, 0⟩ : Blacklist).Good fm.data.length := by
    constructor
    · simp
    · simp [List.count_replicate]
  obtain ⟨b1, e1, g1, k1⟩ := Blacklist.byName_ok fm hlt hg0 ids
  obtain ⟨b2, e2, g2, k2⟩ : ∃ b2, (block.elim (some b1) fun p => b1.byTest fm targeti p) = some b2 ∧
      b2.Good fm.data.length ∧ ∀ j, b2.marks[j]? = if ∃ f, fm.data[j]? = some f ∧ targeti ≠ j ∧
        ∃ p, block = some p ∧ p f.name = true then some true else b1.marks[j]? := by
    cases block with
    | none => exact ⟨b1, rfl, g1, by simp⟩
    | some p =>
      obtain ⟨b', e, g, k⟩ := Blacklist.byTest_ok fm targeti p g1
      exact ⟨b', e, g, by simpa using k⟩
  obtain ⟨b3, e3, g3, k3⟩ : ∃ b3, (incl.elim (some b2) fun p =>
      b2.byTest fm targeti fun s => !p s) = some b3 ∧
      b3.Good fm.data.length ∧ ∀ j, b3.marks[j]? = if ∃ f, fm.data[j]? = some f ∧ targeti ≠ j ∧
        ∃ p, incl = some p ∧ p f.name = false then some true else b2.marks[j]? := by
    cases incl with
    | none => exact ⟨b2, rfl, g2, by simp⟩
    | some p =>
      obtain ⟨b', e, g, k⟩ := Blacklist.byTest_ok fm targeti (fun s => !p s) g2
      exact ⟨b', e, g, by simpa using k⟩
  have hmarks : ∀ j f, fm.data[j]? = some f → j ≠ targeti →
      (b3.marks[j]? = some false ↔ f.name ∉ ids ∧ (∀ p, block = some p → p f.name = false) ∧
        ∀ p, incl = some p → p f.name = true) := by
    intro j f hf hj
    have hjl := (List.getElem?_eq_some_iff.1 hf).1
    have hid : (∃ id ∈ ids, fm.map id = some j) ↔ f.name ∈ ids := by
      constructor
      · rintro ⟨id, h, e⟩
        obtain ⟨f', hf', hn'⟩ := hI.sound id j e
        rw [hf] at hf'; cases hf'
        rw [hn']; exact h
      · intro h; exact ⟨f.name, h, hN j f hf⟩
    rw [k3 j, k2 j, k1 j, List.getElem?_replicate, if_pos hjl]
    simp only [hf, Option.some.injEq, exists_eq_left', ne_eq, Ne.symm hj, not_false_eq_true,
      true_and, hid]
    constructor
    · intro h
      split at h
      · cases h
      · next h1 =>
        split at h
        · cases h
        · next h2 =>
          split at h
          · cases h
          · next h3 =>
            exact ⟨h3, fun p hp => by simpa [hp] using h2, fun p hp => by simpa [hp] using h1⟩
    · rintro ⟨h3, h2, h1⟩
      rw [if_neg, if_neg, if_neg h3]
      · rintro ⟨p, hp, e⟩; rw [h2 p hp] at e; cases e
      · rintro ⟨p, hp, e⟩; rw [h1 p hp] at e; cases e
  obtain ⟨tf', htf', htn'⟩ := hI.sound target targeti hti
  refine ⟨targeti, b3, ?_, ?_, ?_, ?_⟩
  · simp only [chooseFeatures, e1, Option.bind_some, hti, e2, e3]
  · intro i
    simp only [candidates, List.mem_filter, List.mem_range, Bool.and_eq_true, bne_iff_ne, ne_eq,
      beq_iff_eq]
    constructor
    · rintro ⟨hi, hne, hm⟩
      obtain ⟨f, hf⟩ : ∃ f, fm.data[i]? = some f := ⟨_, List.getElem?_eq_getElem hi⟩
      refine ⟨f, hf, ?_, (hmarks i f hf hne).1 hm⟩
      intro e
      have := hN i f hf
      rw [e, hti] at this
      cases this; exact hne rfl
    · rintro ⟨f, hf, hn, ha⟩
      have hne : i ≠ targeti := by
        rintro rfl
        rw [hf] at htf'; cases htf'
        exact hn htn'
      exact ⟨(List.getElem?_eq_some_iff.1 hf).1, hne, (hmarks i f hf hne).2 ha⟩
  · exact List.pairwise_lt_range.filter _
  · intro hnot
    have htl := hlt _ _ hti
    have hmt : b3.marks[targeti]? = some false := by
      rw [k3, k2, k1, if_neg (by simp), if_neg (by simp), if_neg]
      · simp [htl]
      · rintro ⟨id, h, e⟩
        obtain ⟨f', hf', hn'⟩ := hI.sound id targeti e
        rw [htf'] at hf'; cases hf'
        rw [htn'] at hn'
        exact hnot (hn' ▸ h)
    obtain ⟨hl, hc⟩ := g3
    have hcount : ∀ (l : List Bool), (List.range l.length).countP (fun i => l[i]? == some false) =
        l.count false := by
      intro l
      induction l using List.reverseRecOn with
      | nil => rfl
      | append_singleton l x ih =>
        rw [List.length_append, List.length_singleton, List.range_succ, List.countP_append,
          List.count_append, ← ih]
        congr 1
        · apply List.countP_congr
          intro i hi
          rw [List.getElem?_append_left (List.mem_range.1 hi)]
        · cases x <;> simp
    have hsplit : (candidates fm targeti b3.marks).length + 1 = b3.marks.count false := by
      rw [← hcount, hl, candidates, ← List.countP_eq_length_filter]
      have hperm : (List.range fm.data.length).Perm
          (targeti :: (List.range fm.data.length).erase targeti) :=
        List.perm_cons_erase (List.mem_range.2 htl)
      rw [hperm.countP_eq, hperm.countP_eq, List.countP_cons, List.countP_cons]
      simp only [bne_self_eq_false, Bool.false_and, Bool.false_eq_true, if_false, Nat.add_zero,
        hmt, beq_self_eq_true, if_true]
      congr 1
      apply List.countP_congr
      intro i hi
      have : i ≠ targeti := fun e => by
        rw [e] at hi
        exact (List.nodup_range.not_mem_erase) hi
      simp [this]
    have htot : b3.marks.count true + b3.marks.count false = b3.marks.length := by
      have := List.length_eq_countP_add_countP (fun x => x == true) (l := b3.marks)
      rw [this]
      congr 1
      apply List.countP_congr
      intro x _
      cases x <;> simp
    unfold Blacklist.nFeatures
    omega

/-- **C93**, for the trees: a tree grown with these candidates splits on allowed features only,
whatever the data, the target and the options, with or without regrowing a tree of that kind. -/
theorem c93_splits (fm : FeatureMatrix K) (hI : fm.Indexed)
    (hN : ∀ i f, fm.data[i]? = some f → fm.map f.name = some i) (ids : List String)
    (target : String) (block incl : Option (String → Bool)) (targeti : Nat) (b : Blacklist)
    (hc : chooseFeatures fm ids target block incl = some (targeti, b))
    (T : Target K) (C : Contrast K τ) (o : SplitOpts) (fp : List Nat → String) (md : Int) (sm : Bool)
    (fuel : Nat) (start : Node K) (hs : ∀ s ∈ start.splitNames, Allowed ids target block incl s)
    (st : SplitState K) (hst : st.cans.Perm (candidates fm targeti b.marks)) (cs : List Nat)
    (root : Node K) (st' : SplitState K)
    (h : grow (treeGrower fm T C o fp md sm) fm fuel start st cs 0 0 = some (root, st')) :
    (∀ s ∈ root.splitNames, Allowed ids target block incl s) ∧
      st'.cans.Perm (candidates fm targeti b.marks) := by
  obtain ⟨f0, hf0, hn0⟩ : ∃ f ∈ fm.data, f.name = target := by
    unfold chooseFeatures at hc
    obtain ⟨b1, -, hc⟩ := Option.bind_eq_some_iff.1 hc
    obtain ⟨ti, hti, -⟩ := Option.bind_eq_some_iff.1 hc
    obtain ⟨f, hf, hn⟩ := hI.sound _ _ hti
    exact ⟨f, List.mem_of_getElem? hf, hn⟩
  obtain ⟨ti, b', e, hcan, -⟩ := c93_candidates_partial fm hI hN ids target block incl ⟨f0, hf0, hn0⟩
  rw [hc] at e
  cases e
  have := grow_names (P := fun st : SplitState K => st.cans.Perm (candidates fm targeti b.marks))
    (R := Allowed ids target block incl) (g := treeGrower fm T C o fp md sm) (fm := fm) (by
      intro st cs nc st' res hP hb
      simp only [treeGrower, Option.bind_eq_bind] at hb
      obtain ⟨d, hd, hb⟩ := Option.bind_eq_some_iff.1 hb
      cases hb
      obtain ⟨k1, k2⟩ := bestSplitter_keeps hd
      refine ⟨k1.trans hP, fun hne f hf => ?_⟩
      obtain ⟨f', hf', ha⟩ := (hcan _).1 (hP.mem_iff.1 (k2 hne))
      rw [hf] at hf'; cases hf'
      exact ha) fuel start st cs 0 0 root st' hst hs h
  exact ⟨this.2, this.1⟩

/-- The example matrix is indexed by its names. -/
theorem exFM3_indexed : exFM3.Indexed := by
  constructor
  · intro n i h
    simp only [exFM3] at h
    split at h
    · next e => cases h; exact ⟨_, rfl, by rw [e]; rfl⟩
    · split at h
      · next e => cases h; exact ⟨_, rfl, by rw [e]; rfl⟩
      · split at h
        · next e => cases h; exact ⟨_, rfl, by rw [e]; rfl⟩
        · cases h
  · intro f hf
    simp only [exFM3, List.mem_cons, List.not_mem_nil, or_false] at hf
    rcases hf with rfl | rfl | rfl
    · exact ⟨0, rfl⟩
    · exact ⟨1, rfl⟩
    · exact ⟨2, rfl⟩

/-- Target "g", "k" blacklisted and also not included. -/
example : ∃ targeti b, chooseFeatures exFM3 ["k", "unknown"] "g" none (some fun s => s != "k") =
      some (targeti, b) ∧
    (∀ i, i ∈ candidates exFM3 targeti b.marks ↔ ∃ f, exFM3.data[i]? = some f ∧
      Allowed ["k", "unknown"] "g" none (some fun s => s != "k") f.name) := by
  obtain ⟨ti, b, h1, h2, -⟩ := c93_candidates_partial exFM3 exFM3_indexed exFM3_ok.named
    ["k", "unknown"] "g" none (some fun s => s != "k") ⟨.cat exCat3, by simp [exFM3], rfl⟩
  exact ⟨ti, b, h1, h2⟩

example : (chooseFeatures exFM3 ["k", "unknown"] "g" none none).map
    (fun r => (candidates exFM3 r.1 r.2.marks, r.2.nFeatures exFM3)) = some ([0], 1) := by
  decide +kernel

/-- Blacklisting "k", the tree of the example has a split, and its splits are allowed. -/
example : ∃ root st', grow (treeGrower exFM3 (giniTarget exSplitT) (catContrast exSplitT)
      ⟨1, 1, false, false, false, false⟩ (fun _ => "p") 0 true) exFM3 7 .fresh
      { exState with cans := [0] } [0, 1, 2, 3, 4, 5] 0 0 = some (root, st') ∧
    root.splitNames ≠ [] ∧ ∀ s ∈ root.splitNames, Allowed ["k"] "g" none none s := by
  have hs : ((grow (treeGrower exFM3 (giniTarget exSplitT) (catContrast exSplitT)
      ⟨1, 1, false, false, false, false⟩ (fun _ => "p") 0 true) exFM3 7 .fresh
      { exState with cans := [0] } [0, 1, 2, 3, 4, 5] 0 0).map fun r =>
        decide (r.1.splitNames = [])) = some false := by decide +kernel
  obtain ⟨⟨root, st'⟩, h, hd⟩ := Option.map_eq_some_iff.1 hs
  refine ⟨root, st', h, of_decide_eq_false hd, ?_⟩
  exact (c93_splits exFM3 exFM3_indexed exFM3_ok.named ["k"] "g" none none 2 ⟨[false, true, false], 1⟩
    (by decide +kernel) _ _ _ _ _ _ _ .fresh (by simp [Node.fresh, Node.splitNames]) _
    (by decide +kernel) _ root st' h).1

/-! ## Negations -/

/-- A data set in which two rows have the name "N:a" (the map finds the later one,
featurematrix.go:404), and the target. -/
def exTwins : FeatureMatrix ℚ :=
  (FeatureMatrix.push (FeatureMatrix.push ⟨[], fun _ => none, ["p", "q"]⟩
    (.num ⟨[.fin 1, .fin 2], [false, false], "N:a", false⟩))
    (.num ⟨[.fin 3, .fin 4], [false, false], "N:a", false⟩)).push
    (.num ⟨[.fin 5, .fin 6], [false, false], "N:t", false⟩)

/-- **C93 is false of the code.** Of two features with the same name the blacklist file excludes
one only. -/
theorem c93_twin_remains :
    exTwins.data.map Feature.name = ["N:a", "N:a", "N:t"] ∧
    (chooseFeatures exTwins ["N:a"] "N:t" none none).map (fun r => candidates exTwins r.1 r.2.marks) =
      some [0] := by
  decide +kernel

/-- Without tries there are no splits, whatever the data. -/
theorem c93_no_tries (fm : FeatureMatrix K) (T : Target K) (C : Contrast K τ) (o : SplitOpts)
    (hm : o.mTry = 0) (hf : o.force = false) (fp : List Nat → String) (md : Int) (sm : Bool)
    (fuel : Nat) (st : SplitState K) (cs : List Nat) (root : Node K) (st' : SplitState K)
    (h : grow (treeGrower fm T C o fp md sm) fm fuel .fresh st cs 0 0 = some (root, st')) :
    root.splitNames = [] := by
  have := grow_names (P := fun _ : SplitState K => True) (R := fun _ => False)
    (g := treeGrower fm T C o fp md sm) (fm := fm) (by
      intro st cs nc st' res _ hb
      simp only [treeGrower, Option.bind_eq_bind] at hb
      obtain ⟨d, hd, hb⟩ := Option.bind_eq_some_iff.1 hb
      cases hb
      refine ⟨trivial, fun hne => absurd ?_ hne⟩
      unfold bestSplitter at hd
      split at hd
      · cases hd
      · simp only at hd
        split at hd
        · cases hd; rfl
        · rw [hm, hf, bestLoop, if_neg (by simp)] at hd
          cases hd; rfl) fuel .fresh st cs 0 0 root st' trivial
      (by simp [Node.fresh, Node.splitNames]) h
  exact List.eq_nil_iff_forall_not_mem.2 this.2

/-- A data set with one feature and the target. -/
def exAlone : FeatureMatrix ℚ :=
  (FeatureMatrix.push ⟨[], fun _ => none, ["p", "q"]⟩
    (.num ⟨[.fin 1, .fin 2], [false, false], "N:a", false⟩)).push
    (.num ⟨[.fin 5, .fin 6], [false, false], "N:t", false⟩)

/-- **C93 is false of the code.** If the blacklist file lists the target, `nFeatures` is one too
small. With one feature besides, the default for `mTry` becomes 0, and no tree has a split
(`c93_no_tries`), though the feature is a candidate. -/
theorem c93_target_listed :
    (chooseFeatures exAlone ["N:t"] "N:t" none none).map (fun r =>
      (candidates exAlone r.1 r.2.marks, r.2.nFeatures exAlone,
        ceilSqrt (r.2.nFeatures exAlone).toNat)) = some ([0], 0, 0) ∧
    (chooseFeatures exAlone [] "N:t" none none).map (fun r =>
      (candidates exAlone r.1 r.2.marks, r.2.nFeatures exAlone,
        ceilSqrt (r.2.nFeatures exAlone).toNat)) = some ([0], 1, 1) := by
  decide +kernel

end CloudForest
