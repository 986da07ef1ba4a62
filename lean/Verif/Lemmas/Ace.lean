import Verif.Model.Ace
import Verif.Lemmas.Driver
import Verif.Props.Stats

/-! # Lemmas about runs with `-ace` -/

set_option linter.unusedSectionVars false

namespace CloudForest
variable {K : Type} [Field K] [LinearOrder K] [IsStrictOrderedRing K] {τ : Type}

/-! ## The trees of a run split on candidates -/

/-- As `bestSplitter_keeps`, in scratch space of any length. -/
theorem bestSplitterIn_keeps {size : Nat} {fm : FeatureMatrix K} {T : Target K} {C : Contrast K τ} {o : SplitOpts}
    {st : SplitState K} {cs : List Nat} {nc : Nat} {d : Draw K (Searching K τ)}
    (h : bestSplitterIn size fm T C o st cs nc = some d) :
    d.cans.Perm st.cans ∧ (d.split ≠ none → d.fi ∈ st.cans) := by
  unfold bestSplitterIn at h
  split at h
  · cases h
  · simp only at h
    split at h
    · cases h
      exact ⟨.refl _, fun h => absurd rfl h⟩
    · exact bestLoop_keeps _ _ _ _ (by exact .refl _) (fun h => absurd rfl h) h

theorem run_tree_names {r : RunSetup K τ} {cans : List Nat} {R : String → Prop}
    (hR : ∀ i ∈ cans, ∀ f, r.fm.data[i]? = some f → R f.name) {s s' : WorkerState K} {x : Tree K × List Nat}
    (hs : s.st.cans.Perm cans) (hn : ∀ n ∈ s.root.splitNames, R n) (h : r.tree r.grower s = some (x, s')) :
    s'.st.cans.Perm cans ∧ (∀ n ∈ s'.root.splitNames, R n) ∧ ∀ n ∈ x.1.root.splitNames, R n := by
  unfold RunSetup.tree at h
  simp only [Option.bind_eq_bind] at h
  obtain ⟨⟨bag, rng⟩, -, h⟩ := Option.bind_eq_some_iff.1 h
  obtain ⟨oob, -, h⟩ := Option.bind_eq_some_iff.1 h
  obtain ⟨⟨root, st⟩, hg, h⟩ := Option.bind_eq_some_iff.1 h
  cases h
  have := grow_names (P := fun st : SplitState K => st.cans.Perm cans) (R := R) (g := r.grower) (fm := r.fm) (by
      intro st cs nc st' res hP hb
      simp only [RunSetup.grower, treeGrowerIn, Option.bind_eq_bind] at hb
      obtain ⟨d, hd, hb⟩ := Option.bind_eq_some_iff.1 hb
      cases hb
      obtain ⟨k1, k2⟩ := bestSplitterIn_keeps hd
      exact ⟨k1.trans hP, fun hne f hf => hR _ (hP.mem_iff.1 (k2 hne)) f hf⟩) _ s.root _ bag 0 0 root st (by exact hs) hn hg
  exact ⟨this.1, this.2, this.2⟩

theorem run_trees_names {r : RunSetup K τ} {cans : List Nat} {R : String → Prop}
    (hR : ∀ i ∈ cans, ∀ f, r.fm.data[i]? = some f → R f.name) : ∀ (left started : Nat) (s : WorkerState K) (out : List (Tree K × List Nat)),
    s.st.cans.Perm cans → (∀ n ∈ s.root.splitNames, R n) → r.trees r.grower left started s = some out →
    out.length = left ∧ ∀ x ∈ out, ∀ n ∈ x.1.root.splitNames, R n := by
  intro left
  induction left with
  | zero => intro started s out _ _ h; cases h; exact ⟨rfl, fun x hx => by cases hx⟩
  | succ left ih =>
    intro started s out hs hn h
    unfold RunSetup.trees at h
    simp only [Option.bind_eq_bind] at h
    obtain ⟨⟨x, s1⟩, ht, h⟩ := Option.bind_eq_some_iff.1 h
    obtain ⟨rest, hr, h⟩ := Option.bind_eq_some_iff.1 h
    cases h
    obtain ⟨k1, k2, k3⟩ := run_tree_names hR hs hn ht
    obtain ⟨l1, l2⟩ := ih _ _ _ (by split <;> exact k1) (by
      split
      · intro n hn; simp [Node.fresh, Node.splitNames] at hn
      · exact k2) hr
    refine ⟨by simp [l1], fun y hy => ?_⟩
    rcases List.mem_cons.1 hy with rfl | hy
    · exact k3
    · exact l2 y hy

/-- The trees of a run split on candidates. -/
theorem run_names {r : RunSetup K τ} {cans : List Nat} {R : String → Prop}
    (hR : ∀ i ∈ cans, ∀ f, r.fm.data[i]? = some f → R f.name) {nNonMissing nCats : Nat} {own global : Rng} {out : List (Tree K × List Nat)}
    (h : r.run r.grower nNonMissing nCats cans own global = some out) :
    out.length = max 1 r.nTrees ∧ ∀ x ∈ out, ∀ n ∈ x.1.root.splitNames, R n := by
  unfold RunSetup.run at h
  simp only [Option.bind_eq_bind] at h
  obtain ⟨s, hs, h⟩ := Option.bind_eq_some_iff.1 h
  unfold RunSetup.start at hs
  have hs' : s.st.cans = cans ∧ s.root = .fresh := by
    split at hs
    · obtain ⟨cases, -, hs⟩ := Option.bind_eq_some_iff.1 hs
      cases hs
      exact ⟨rfl, rfl⟩
    · cases hs
      exact ⟨rfl, rfl⟩
  exact run_trees_names hR _ _ _ _ (by rw [hs'.1]) (by intro n hn; simp [hs'.2, Node.fresh, Node.splitNames] at hn) h

/-! ## The features stay -/

/-- Shuffling the contrasts leaves the features as they are. -/
theorem reshuffle_keeps {firstace : Nat} {marks : List Bool} {fm fm' : FeatureMatrix K} {rng rng' : Rng}
    (h : reshuffle firstace marks fm rng = some (fm', rng')) :
    fm'.data.length = fm.data.length ∧ ∀ i < firstace, fm'.data[i]? = fm.data[i]? := by
  unfold reshuffle at h
  suffices key : ∀ (l : List Nat) (s s' : FeatureMatrix K × Rng), l.foldlM (fun (s : FeatureMatrix K × Rng) i =>
      if firstace ≤ i ∧ marks[i]? = some false then do
        let f ← s.1.data[i]?
        let (g, rng) ← f.shuffle s.2
        some ({ s.1 with data := s.1.data.set i g }, rng)
      else some s) s = some s' → s'.1.data.length = s.1.data.length ∧ ∀ i < firstace, s'.1.data[i]? = s.1.data[i]? from key _ _ _ h
  intro l
  induction l with
  | nil => intro s s' h; cases h; exact ⟨rfl, fun _ _ => rfl⟩
  | cons i l ih =>
    intro s s' h
    rw [List.foldlM_cons] at h
    obtain ⟨s1, h1, h⟩ := Option.bind_eq_some_iff.1 h
    obtain ⟨k1, k2⟩ := ih _ _ h
    split at h1
    · next hi =>
      simp only [Option.bind_eq_bind] at h1
      obtain ⟨f, -, h1⟩ := Option.bind_eq_some_iff.1 h1
      obtain ⟨⟨g, rng⟩, -, h1⟩ := Option.bind_eq_some_iff.1 h1
      cases h1
      refine ⟨by simpa using k1, fun j hj => ?_⟩
      rw [k2 j hj]
      simp only
      rw [List.getElem?_set, if_neg (by omega)]
    · cases h1; exact ⟨k1, k2⟩

theorem aceForests_keeps {r : RunSetup K τ} {targeti firstace : Nat} {marks : List Bool} {nNonMissing nCats : Nat} {last : Bool}
    {own global shuf : Nat → Rng} : ∀ (left k : Nat) (fm fm' : FeatureMatrix K) (xs : List (List (Tree K × List Nat) × List (XF K))),
    r.aceForests targeti firstace marks nNonMissing nCats last own global shuf left k fm = some (xs, fm') →
    xs.length = left ∧ fm'.data.length = fm.data.length ∧ ∀ i < firstace, fm'.data[i]? = fm.data[i]? := by
  intro left
  induction left with
  | zero => intro k fm fm' xs h; cases h; exact ⟨rfl, rfl, fun _ _ => rfl⟩
  | succ left ih =>
    intro k fm fm' xs h
    unfold RunSetup.aceForests at h
    simp only [Option.bind_eq_bind] at h
    obtain ⟨x, -, h⟩ := Option.bind_eq_some_iff.1 h
    obtain ⟨⟨fm1, rng⟩, h1, h⟩ := Option.bind_eq_some_iff.1 h
    obtain ⟨⟨ys, fm2⟩, h2, h⟩ := Option.bind_eq_some_iff.1 h
    cases h
    obtain ⟨a1, a2⟩ := reshuffle_keeps h1
    obtain ⟨b1, b2, b3⟩ := ih _ _ _ _ h2
    exact ⟨by simp [b1], by rw [b2, a1], fun i hi => by rw [b3 i hi, a2 i hi]⟩

theorem mapM_some_getElem? {α β : Type} {f : α → Option β} : ∀ {l : List α} {l' : List β}, l.mapM f = some l' →
    l'.length = l.length ∧ ∀ (i : Nat) (a : α), l[i]? = some a → ∃ b, f a = some b ∧ l'[i]? = some b := by
  intro l
  induction l with
  | nil => intro l' h; rw [List.mapM_nil] at h; cases h; exact ⟨rfl, by simp⟩
  | cons a l ih =>
    intro l' h
    rw [List.mapM_cons] at h
    obtain ⟨b, hb, h⟩ := Option.bind_eq_some_iff.1 h
    obtain ⟨bs, hbs, h⟩ := Option.bind_eq_some_iff.1 h
    cases h
    obtain ⟨k1, k2⟩ := ih hbs
    refine ⟨by simp [k1], fun i x hx => ?_⟩
    cases i with
    | zero => simp only [List.getElem?_cons_zero, Option.some.injEq] at hx; subst hx; exact ⟨b, hb, rfl⟩
    | succ i => simpa using k2 i x (by simpa using hx)

/-- What `-ace` does with a cutoff: as many trees as asked for, each with splits on candidates that are significant by the tests reported. -/
theorem aceRun_names [FloorRing K] {nt : NumText K} {F : MathFns K} {r : RunSetup K τ} {mTry : Text} {targeti : Nat} {marks : List Bool}
    {nNonMissing nCats ace : Nat} {cutoff : XF K} {own global shuf : Nat → Rng} {res : AceResult K} (he : ∀ f ∈ r.fm.data, f.Even)
    (ht : targeti < r.fm.data.length) (hl : marks.length = r.fm.data.length) (hc : .fin 0 < cutoff)
    (h : r.aceRun nt F mTry targeti marks nNonMissing nCats ace cutoff own global shuf = some res) :
    res.tests.length = r.fm.data.length ∧ res.trees.length = max 1 r.nTrees ∧ ∀ x ∈ res.trees, ∀ n ∈ x.1.root.splitNames,
      ∃ i ∈ candidates r.fm targeti marks, ∃ f t, r.fm.data[i]? = some f ∧ f.name = n ∧ res.tests[i]? = some t ∧ t.1 < cutoff ∧ .fin 0 < t.2 := by
  unfold RunSetup.aceRun at h
  simp only [Option.bind_eq_bind] at h
  obtain ⟨fm', marks', rng', e, hml, hlen, hset⟩ := c96_setup r.fm he targeti ht marks hl (shuf 0)
  rw [e, Option.bind_some] at h
  simp only at h
  obtain ⟨⟨forests, fm2⟩, hF, h⟩ := Option.bind_eq_some_iff.1 h
  obtain ⟨tests, hT, h⟩ := Option.bind_eq_some_iff.1 h
  rw [if_pos hc] at h
  obtain ⟨m, -, h⟩ := Option.bind_eq_some_iff.1 h
  obtain ⟨ts, hrun, h⟩ := Option.bind_eq_some_iff.1 h
  cases h
  obtain ⟨-, k2, k3⟩ := aceForests_keeps _ _ _ _ _ hF
  obtain ⟨t1, -⟩ := mapM_some_getElem? hT
  rw [List.length_range] at t1
  have hcands : ∀ ms, candidates fm2 targeti ms = candidates fm' targeti ms := fun ms => by unfold candidates; rw [k2]
  obtain ⟨r1, r2⟩ := run_names (R := fun n => ∃ i ∈ candidates r.fm targeti marks, ∃ f t, r.fm.data[i]? = some f ∧ f.name = n ∧
    tests[i]? = some t ∧ t.1 < cutoff ∧ .fin 0 < t.2) (by
    intro i hi f hf
    simp only at hf
    rw [hcands] at hi
    obtain ⟨c1, c2, c3, c4⟩ := ((c96_selection fm' r.fm.data.length targeti cutoff _ marks' hml).1 i).1 hi
    obtain ⟨⟨f', g, d1, d2, -, -⟩, d3, -⟩ := hset i c2
    rw [k3 i c2, d2, Option.some.injEq] at hf
    subst hf
    refine ⟨i, d3.1 c1, f', tests[i], d1, rfl, List.getElem?_eq_getElem (by omega), ?_⟩
    rw [List.getElem?_eq_getElem (by omega)] at c3 c4
    exact ⟨c3, c4⟩) hrun
  exact ⟨t1, r1, r2⟩

end CloudForest
