import Verif.Lemmas.Run

/-!
# Properties C118 and C119: runs of growforest

C118: the scratch space made for a run is large enough for its searches. C119: a run grows as many trees as asked for,
each as if on its own, and the forest file holds these trees.
-/

set_option linter.unusedSectionVars false

namespace CloudForest
variable {K : Type} [Field K] [LinearOrder K] [IsStrictOrderedRing K] {τ : Type}

/-- All cases. -/
abbrev RunSetup.all (r : RunSetup K τ) : List Nat := List.range r.missing.length

/-- Growing without limits to the scratch space. -/
abbrev RunSetup.freeGrower (r : RunSetup K τ) : Grower K (SplitState K) :=
  treeGrower r.fm r.T r.C r.o r.findPredicted r.maxDepth r.splitmissing

/-- A run on a sound matrix: features and target are known or marked missing for all cases, the candidates exist, there
are at least `mTry` of them. Growing only rearranges the cases it is given. -/
structure RunSetup.Ok (r : RunSetup K τ) (L : TargetLaws r.T r.all) (good : τ → Prop) (cans : List Nat) : Prop where
  cases : r.fm.allCases = some r.all
  matrix : MatrixOk r.fm r.all
  setting : SplitSetting L r.fm r.C good r.o cans []
  fit : r.how.Fit r.missing
  order : ∀ bag, (r.order bag).Perm bag

/-- Plain bagging runs out of draws. -/
def RunSetup.Exhausted (r : RunSetup K τ) : Prop :=
  ∃ rng, r.how = .plain ∧ bagLoop (r.missing[·]?) r.missing.length r.nSamples r.draws [] rng = none

/-- The tree a run should have grown from `bag`: a new one, from some state of the searches. -/
def RunSetup.Grown (r : RunSetup K τ) (L : TargetLaws r.T r.all) (cans bag : List Nat) (root : Node K) : Prop :=
  ∃ st st', L.Ok st.allocs ∧ st.cans.Perm cans ∧ (∀ c ∈ st.oob, c ∈ r.all) ∧
    grow r.freeGrower r.fm (bag.length + 1) .fresh st bag 0 0 = some (root, st')

/-! ## Proof -/

/-- What should hold of a tree with its bag that a run has recorded: it is for the target and has no weight, the bag is of at most
`nSamples` cases with known target, with bagging of exactly as many, and the tree is the one newly grown from the bag, but for what
old trees leave below its leaves. -/
def RunSetup.Recorded (r : RunSetup K τ) (L : TargetLaws r.T r.all) (cans : List Nat) (x : Tree K × List Nat) : Prop :=
  x.1.target = r.target ∧ x.1.weight = .fin (-1) ∧
    (x.2.length ≤ r.nSamples ∧ (r.how.isNobag = false → x.2.length = r.nSamples)) ∧ (∀ c ∈ x.2, r.missing[c]? = some false) ∧
    r.Grown L cans x.2 (prune x.1.root)

/-- The worker between trees. -/
structure WorkerOk (r : RunSetup K τ) (L : TargetLaws r.T r.all) (cans : List Nat) (s : WorkerState K) : Prop where
  root : s.root ≠ .nil
  branches : r.splitmissing = true ∨ noMissing s.root
  allocs : L.Ok s.st.allocs
  cans : s.st.cans.Perm cans
  oob : ∀ c ∈ s.st.oob, c ∈ r.all
  cases : r.how.CasesOk r.missing s.cases

theorem WorkerOk.next {r : RunSetup K τ} {L : TargetLaws r.T r.all} {cans : List Nat} {s : WorkerState K} (b : Bool)
    (h : WorkerOk r L cans s) : WorkerOk r L cans (if b then { s with root := .fresh } else s) := by
  cases b with
  | false => exact h
  | true => exact ⟨by simp [Node.fresh], .inr ⟨rfl, trivial, trivial⟩, h.allocs, h.cans, h.oob, h.cases⟩

theorem RunSetup.mem_all {r : RunSetup K τ} {c : Nat} (h : r.missing[c]? = some false) : c ∈ r.all :=
  List.mem_range.2 (List.getElem?_eq_some_iff.1 h).1

theorem oobNow_ok (r : RunSetup K τ) {before bag : List Nat} (hb : ∀ c ∈ before, c ∈ r.all)
    (hc : ∀ c ∈ bag, r.missing[c]? = some false) : ∃ oob, r.oobNow before bag = some oob ∧ ∀ c ∈ oob, c ∈ r.all := by
  unfold RunSetup.oobNow
  split
  · obtain ⟨oob, h1, h2, -⟩ := c20_oob r.missing.length bag fun c h => List.mem_range.1 (r.mem_all (hc c h))
    exact ⟨oob, h1, fun c h => List.mem_range.2 ((h2 c).1 h).1⟩
  · exact ⟨before, rfl, hb⟩

theorem tree_ok {r : RunSetup K τ} {L : TargetLaws r.T r.all} {good : τ → Prop} {cans : List Nat} (hr : r.Ok L good cans)
    {s : WorkerState K} (hs : WorkerOk r L cans s) :
    (r.tree r.freeGrower s = none → r.Exhausted) ∧
    (∀ x s', r.tree r.freeGrower s = some (x, s') → WorkerOk r L cans s' ∧ r.Recorded L cans x) ∧
    (¬ (r.o.vet = true ∧ r.o.evaloob = true) → r.tree r.grower s = r.tree r.freeGrower s) := by
  cases hd : drawBag r.how r.missing r.nSamples r.draws s.cases s.rng with
  | none =>
    refine ⟨fun _ => ?_, fun x s' h => ?_, fun _ => ?_⟩
    · obtain ⟨rng, h⟩ := drawBag_total hr.fit hd
      exact ⟨rng, h⟩
    · simp [RunSetup.tree, hd] at h
    · simp [RunSetup.tree, hd]
  | some d =>
    obtain ⟨bag, rng⟩ := d
    obtain ⟨h1, h2, h3⟩ := drawBag_sound hr.fit hs.cases hd
    obtain ⟨oob, ho, hoa⟩ := oobNow_ok r hs.oob h2
    have hall : ∀ c ∈ bag, c ∈ r.all := fun c h => r.mem_all (h2 c h)
    obtain ⟨a1, a2, a3⟩ := treeGrower_search_any hr.setting r.findPredicted r.maxDepth r.splitmissing
    have hP : L.Ok ({ s.st with oob := oob } : SplitState K).allocs ∧
        ({ s.st with oob := oob } : SplitState K).cans.Perm cans ∧
        ∀ c ∈ ({ s.st with oob := oob } : SplitState K).oob, c ∈ r.all := ⟨hs.allocs, hs.cans, hoa⟩
    obtain ⟨⟨root, st'⟩, hg⟩ := c09_terminates (g := r.freeGrower) (hr.matrix.mono hall) (a1.mono hall) (a2.mono hall)
      hr.setting.leafSize (fun st cs nc hst hnc hcs _ => a3 st cs nc hst hnc fun c h => hall c (hcs c h))
      { s.st with oob := oob } hP (Nat.zero_le _)
    have hfresh := hg (bag.length + 1) (Nat.lt_succ_self _)
    have hagain := c42_pruned_partial r.freeGrower r.fm (bag.length + 1) s.root { s.st with oob := oob } bag 0 0 hs.root
      hs.branches
    rw [hfresh] at hagain
    obtain ⟨⟨n, st2⟩, hn, he⟩ := Option.map_eq_some_iff.1 hagain
    simp only [Prod.mk.injEq] at he
    obtain ⟨he, rfl⟩ := he
    have hst := (grow_grown (hr.matrix.mono hall) (a1.mono hall) _ 0 "" _ bag 0 0 root st2 hP (Nat.zero_le _)
      (fun _ h => h) hfresh).1
    have hw := grow_again _ _ _ _ _ _ _ _ _ _ hn
    have ht : r.tree r.freeGrower s = some ((⟨n, r.target, .fin (-1)⟩, bag), ⟨n, r.order bag, st2, rng⟩) := by
      simp only [RunSetup.tree, hd, ho, hn, Option.bind_eq_bind, Option.bind_some]
    refine ⟨fun h => absurd (ht.symm.trans h) (by simp), fun x s' h => ?_, fun hv => ?_⟩
    · rw [ht] at h
      cases h
      refine ⟨⟨hw.1, ?_, hst.1, hst.2.1, hst.2.2, fun hnb => ?_⟩, rfl, rfl, h1, h2, { s.st with oob := oob }, st2, hs.allocs,
        hs.cans, hoa, ?_⟩
      · rcases hs.branches with h | h
        · exact .inl h
        · cases hsm : r.splitmissing with
          | true => exact .inl rfl
          | false => exact .inr (hw.2 hsm h)
      · exact ⟨(hr.order bag).nodup_iff.2 (h3 hnb), fun c hc => h2 c ((hr.order bag).mem_iff.1 hc)⟩
      · rw [he]
        exact hfresh
    · have hgi := growIn_eq r.fm r.T r.C r.o r.findPredicted r.maxDepth r.splitmissing (bag.length + 1) s.root
        { s.st with oob := oob } bag 0 0 h1.1 fun h h' => absurd ⟨h, h'⟩ hv
      rw [ht]
      simp only [RunSetup.tree, hd, ho, Option.bind_eq_bind, Option.bind_some]
      unfold RunSetup.grower
      rw [hgi, hn]
      rfl

theorem trees_ok {r : RunSetup K τ} {L : TargetLaws r.T r.all} {good : τ → Prop} {cans : List Nat} (hr : r.Ok L good cans) :
    ∀ (left started : Nat) (s : WorkerState K), WorkerOk r L cans s →
      (r.trees r.freeGrower left started s = none → r.Exhausted) ∧
      (∀ out, r.trees r.freeGrower left started s = some out → out.length = left ∧ ∀ x ∈ out, r.Recorded L cans x) ∧
      (¬ (r.o.vet = true ∧ r.o.evaloob = true) →
        r.trees r.grower left started s = r.trees r.freeGrower left started s) := by
  intro left
  induction left with
  | zero =>
    intro started s _
    rw [RunSetup.trees, RunSetup.trees]
    refine ⟨fun h => (by cases h), fun out h => ?_, fun _ => rfl⟩
    cases h
    exact ⟨rfl, by simp⟩
  | succ left ih =>
    intro started s hs
    obtain ⟨h1, h2, h3⟩ := tree_ok hr hs
    rw [RunSetup.trees, RunSetup.trees]
    cases ht : r.tree r.freeGrower s with
    | none => exact ⟨fun _ => h1 ht, fun out h => (by cases h), fun hv => by
      rw [h3 hv, ht]
      simp only [Option.bind_eq_bind, Option.bind_none]⟩
    | some y =>
      obtain ⟨x, s'⟩ := y
      obtain ⟨hs', hx⟩ := h2 x s' ht
      simp only [Option.bind_eq_bind, Option.bind_some]
      obtain ⟨i1, i2, i3⟩ := ih (started + 1) _ (hs'.next (r.dotest && started + 1 < r.nTrees))
      refine ⟨fun h => ?_, fun out h => ?_, fun hv => ?_⟩
      · refine i1 (Option.eq_none_iff_forall_ne_some.2 fun a ha => ?_)
        rw [ha] at h
        cases h
      · obtain ⟨rest, e, h⟩ := Option.bind_eq_some_iff.1 h
        cases h
        obtain ⟨j1, j2⟩ := i2 rest e
        refine ⟨by simp [j1], fun y hy => ?_⟩
        rcases List.mem_cons.1 hy with rfl | hy
        · exact hx
        · exact j2 y hy
      · rw [h3 hv, ht]
        simp only [Option.bind_some]
        rw [i3 hv]

theorem start_ok {r : RunSetup K τ} {L : TargetLaws r.T r.all} {cans : List Nat} {nCats : Nat}
    (hok : L.Ok (newAllocs nCats)) (own global : Rng) :
    ∃ s, r.start (bagKnown r.missing).length nCats cans own global = some s ∧ WorkerOk r L cans s := by
  have key : ∀ cases, r.how.CasesOk r.missing cases →
      WorkerOk r L cans ⟨.fresh, cases, ⟨newAllocs nCats, own, cans, []⟩, global⟩ := fun cases hc =>
    ⟨by simp [Node.fresh], .inr ⟨rfl, trivial, trivial⟩, hok, List.Perm.refl _, by simp, hc⟩
  unfold RunSetup.start
  cases hh : r.how with
  | nobag =>
    have := nobagCases_eq r.missing (bagKnown r.missing).length (bagKnown_length _)
    simp only [this, Option.bind_eq_bind, Option.bind_some]
    refine ⟨_, rfl, key _ fun _ => ⟨List.nodup_range.filter _, fun c hc => ?_⟩⟩
    simpa using (List.mem_filter.1 hc).2
  | plain => exact ⟨_, rfl, key _ (by rw [hh]; exact fun h => by cases h)⟩
  | balanced b => exact ⟨_, rfl, key _ (by rw [hh]; exact fun h => by cases h)⟩
  | secondary b => exact ⟨_, rfl, key _ (by rw [hh]; exact fun h => by cases h)⟩

/-! ## C118 -/

/-- **C118**, what holds: in a run of growforest the scratch space made for `nSamples` cases is large enough. The trees
are those that searches with unlimited scratch space would give.

Missing from the full property: `-vet` together with `-evaloob`, `c118_vet_oob`. -/
theorem c118_scratch_partial {r : RunSetup K τ} {L : TargetLaws r.T r.all} {good : τ → Prop} {cans : List Nat}
    (hr : r.Ok L good cans) (hv : ¬ (r.o.vet = true ∧ r.o.evaloob = true)) {nCats : Nat} (hok : L.Ok (newAllocs nCats))
    (own global : Rng) :
    r.run r.grower (bagKnown r.missing).length nCats cans own global =
      r.run r.freeGrower (bagKnown r.missing).length nCats cans own global := by
  obtain ⟨s, e, hs⟩ := start_ok (r := r) hok own global
  unfold RunSetup.run
  rw [e]
  exact (trees_ok hr _ _ _ hs).2.2 hv

/-! ## C119 -/

/-- **C119**, growing: a run never panics (it can only go on drawing), and gives `nTrees` trees, at least one. Each
belongs to a bag of at most `nSamples` cases with known target, with bagging exactly as many, and is the tree newly grown from that bag, but for what
old trees leave below its leaves. -/
theorem c119_run {r : RunSetup K τ} {L : TargetLaws r.T r.all} {good : τ → Prop} {cans : List Nat}
    (hr : r.Ok L good cans) (hv : ¬ (r.o.vet = true ∧ r.o.evaloob = true)) {nCats : Nat} (hok : L.Ok (newAllocs nCats))
    (own global : Rng) :
    (r.run r.grower (bagKnown r.missing).length nCats cans own global = none → r.Exhausted) ∧
    ∀ out, r.run r.grower (bagKnown r.missing).length nCats cans own global = some out →
      out.length = max 1 r.nTrees ∧
      ∀ x ∈ out, (x.2.length ≤ r.nSamples ∧ (r.how.isNobag = false → x.2.length = r.nSamples)) ∧ (∀ c ∈ x.2, r.missing[c]? = some false) ∧
        r.Grown L cans x.2 (prune x.1.root) := by
  obtain ⟨s, e, hs⟩ := start_ok (r := r) hok own global
  rw [c118_scratch_partial hr hv hok]
  unfold RunSetup.run
  rw [e]
  obtain ⟨h1, h2, -⟩ := trees_ok hr (max 1 r.nTrees) 1 s hs
  exact ⟨h1, fun out h => ⟨(h2 out h).1, fun x hx => ((h2 out h).2 x hx).2.2⟩⟩

/-- **C119**, the limits hold for the trees of a run: every left or right child is reached by at least `leafSize` of the
cases in the bag, and no node lies deeper than a positive `maxDepth`. -/
theorem c119_limits {r : RunSetup K τ} {L : TargetLaws r.T r.all} {good : τ → Prop} {cans : List Nat}
    (hr : r.Ok L good cans) (hv : ¬ (r.o.vet = true ∧ r.o.evaloob = true)) {nCats : Nat} (hok : L.Ok (newAllocs nCats))
    (own global : Rng) {out : List (Tree K × List Nat)}
    (h : r.run r.grower (bagKnown r.missing).length nCats cans own global = some out) :
    ∀ x ∈ out, (∀ (p : List Dir) (d : Dir), d ≠ .M → subtreeAt (prune x.1.root) (p ++ [d]) ≠ .nil →
        r.o.leafSize ≤ (x.2.filter (reaches r.fm (prune x.1.root) (p ++ [d]))).length) ∧
      (0 < r.maxDepth → (height (prune x.1.root) : Int) ≤ r.maxDepth) := by
  intro x hx
  obtain ⟨-, h2, st, st', a, b, c, hg⟩ := ((c119_run hr hv hok own global).2 out h).2 x hx
  have hall : ∀ c ∈ x.2, c ∈ r.all := fun c h => r.mem_all (h2 c h)
  obtain ⟨a1, a2, -⟩ := treeGrower_search_any hr.setting r.findPredicted r.maxDepth r.splitmissing
  exact c09_limits (hr.matrix.mono hall) (a1.mono hall) (a2.mono hall) ⟨a, b, c⟩ (Nat.zero_le _) hg

/-- The trees without what old trees left below their leaves. -/
def cleaned (target : String) (out : List (Tree K × List Nat)) : Forest K :=
  ⟨target, out.map fun x => { x.1 with root := prune x.1.root }, .fin 0⟩

theorem recordTrees_prune (nt : NumText K) (ord : Splitter K → List String) (progress : Bool) (trees : List (Tree K)) :
    ∀ k, recordTrees nt ord progress k (trees.map fun t => { t with root := prune t.root }) =
      recordTrees nt ord progress k trees := by
  induction trees with
  | nil => intro k; rfl
  | cons t ts ih =>
    intro k
    rw [List.map_cons, recordTrees, recordTrees, ih]
    unfold writeTree
    rw [writeNodes_prune]

/-- The file of recorded trees: it is read again without a warning, and predicts as they do. -/
theorem recorded_file {r : RunSetup K τ} {L : TargetLaws r.T r.all} {good : τ → Prop} {cans : List Nat}
    (hr : r.Ok L good cans) (hsm : r.splitmissing = false) {nt : NumText K} (hnt : ∀ x, nt.Faithful x)
    (ht : ∀ f ∈ r.fm.data, f.Tidy) (hp : ∀ cs, Plain (r.findPredicted cs).toList) (htarget : Plain r.target.toList)
    (ord : Splitter K → List String) (hord : ∀ s : Splitter K, (ord s).Perm s.left) (progress : Bool)
    {out : List (Tree K × List Nat)} (hne : out ≠ []) (hx : ∀ x ∈ out, r.Recorded L cans x) :
    ∃ text f', growforestFile nt ord progress r.target none (out.map (·.1)) = some text ∧
      readForest nt text = some ⟨some f', .ok, []⟩ ∧ f'.target = r.target ∧ f'.intercept = .fin 0 ∧ f'.trees.length = out.length ∧
      (∀ o, applyForest nt o f' r.fm = applyForest nt o (cleaned r.target out) r.fm) ∧
      ∀ fm2 o, applyForest nt o f' fm2 = applyForest nt o (cleaned r.target out).named fm2 := by
  have hg : r.freeGrower = treeGrower r.fm r.T r.C r.o r.findPredicted r.maxDepth false := by
    unfold RunSetup.freeGrower
    rw [hsm]
  obtain ⟨text, f', b1, b2, b3, b4, b5, b6, b7⟩ := c111_growforest hr.cases hr.matrix hr.setting r.findPredicted r.maxDepth hnt
    ht hp ord hord r.target none (out.map fun x => { x.1 with root := prune x.1.root }) (by simpa using hne) htarget (by
      intro t h
      obtain ⟨x, hx', rfl⟩ := List.mem_map.1 h
      obtain ⟨c1, c2, c3, c4, st, st', c5, c6, c7, c8⟩ := hx x hx'
      exact ⟨c1, _, st, st', x.2, c5, c6, c7, fun c h => r.mem_all (c4 c h), hg ▸ c8⟩) progress
  refine ⟨text, f', ?_, b2, b3, b4, by rw [b5, List.length_map], b6, b7⟩
  rw [← b1]
  unfold growforestFile
  have e2 := recordTrees_prune nt ord progress (out.map (·.1)) 0
  rw [List.map_map] at e2
  exact congrArg (Option.bind · _) e2.symm

/-- What one worker records. -/
theorem run_recorded {r : RunSetup K τ} {L : TargetLaws r.T r.all} {good : τ → Prop} {cans : List Nat}
    (hr : r.Ok L good cans) (hv : ¬ (r.o.vet = true ∧ r.o.evaloob = true)) {nCats : Nat} (hok : L.Ok (newAllocs nCats))
    (own global : Rng) {out : List (Tree K × List Nat)}
    (h : r.run r.grower (bagKnown r.missing).length nCats cans own global = some out) :
    out.length = max 1 r.nTrees ∧ ∀ x ∈ out, r.Recorded L cans x := by
  obtain ⟨s, e, hs⟩ := start_ok (r := r) hok own global
  rw [c118_scratch_partial hr hv hok] at h
  unfold RunSetup.run at h
  rw [e] at h
  exact (trees_ok hr (max 1 r.nTrees) 1 s hs).2.1 out h

/-- **C119**, the file: it can be read again, and holds as many trees as were asked for. On the training data and on
other data it predicts as the newly grown trees do. -/
theorem c119_file {r : RunSetup K τ} {L : TargetLaws r.T r.all} {good : τ → Prop} {cans : List Nat}
    (hr : r.Ok L good cans) (hv : ¬ (r.o.vet = true ∧ r.o.evaloob = true)) (hsm : r.splitmissing = false) {nCats : Nat}
    (hok : L.Ok (newAllocs nCats)) (own global : Rng) {nt : NumText K} (hnt : ∀ x, nt.Faithful x)
    (ht : ∀ f ∈ r.fm.data, f.Tidy) (hp : ∀ cs, Plain (r.findPredicted cs).toList) (htarget : Plain r.target.toList)
    (ord : Splitter K → List String) (hord : ∀ s : Splitter K, (ord s).Perm s.left) (progress : Bool)
    {out : List (Tree K × List Nat)} (h : r.run r.grower (bagKnown r.missing).length nCats cans own global = some out) :
    ∃ text f', growforestFile nt ord progress r.target none (out.map (·.1)) = some text ∧
      readForest nt text = some ⟨some f', .ok, []⟩ ∧ f'.target = r.target ∧ f'.intercept = .fin 0 ∧ f'.trees.length = max 1 r.nTrees ∧
      (∀ o, applyForest nt o f' r.fm = applyForest nt o (cleaned r.target out) r.fm) ∧
      ∀ fm2 o, applyForest nt o f' fm2 = applyForest nt o (cleaned r.target out).named fm2 := by
  obtain ⟨hl, hx⟩ := run_recorded hr hv hok own global h
  obtain ⟨text, f', b1, b2, b3, b4, b5, b6, b7⟩ := recorded_file hr hsm hnt ht hp htarget ord hord progress (out := out) (by
    rintro rfl
    simp at hl
    omega) hx
  exact ⟨text, f', b1, b2, b3, b4, by rw [b5, hl], b6, b7⟩

/-! ## Examples, and where the properties fail -/

/-- A run of two trees from six cases, with or without vetting by the out-of-bag cases. -/
def exRun (vet : Bool) (nSamples : Nat) : RunSetup ℚ CatFeature where
  fm := exFM3
  T := giniTarget exSplitT
  C := catContrast exSplitT
  o := ⟨2, 1, true, vet, vet, false⟩
  findPredicted cs := if cs.all (fun c => exSplitT.catData[c]? == some 0) then "a" else "b"
  maxDepth := 0
  splitmissing := false
  oob := true
  dotest := false
  how := .plain
  target := "C:y"
  missing := List.replicate 6 false
  nSamples := nSamples
  nTrees := 2
  draws := nSamples
  order := id

theorem exRun_inRange (vet : Bool) (k : Nat) : exSplitT.InRange 2 (exRun vet k).all := exSplitT_inRange

/-- Gini impurity of the classes of all cases. -/
def exRunLaws (vet : Bool) (k : Nat) : TargetLaws (exRun vet k).T (exRun vet k).all :=
  giniLaws exSplitT 2 _ (exRun_inRange vet k)

theorem exRun_ok (vet : Bool) (k : Nat) : (exRun vet k).Ok (exRunLaws vet k) (fun g =>
    g.InRange 2 [0, 1, 2, 3, 4, 5] ∧ g.missing.length = g.catData.length ∧
      g.catData.length = exSplitT.catData.length) [0, 1, 2] where
  cases := rfl
  matrix := exFM3_ok
  setting :=
    { feats := exFM3_feats
      total3 := fun _ => countLaws_total3 _ _ _ _ (exRun_inRange vet k)
      contrast := fun _ => catContrast_ok exSplitT 2 _ (exRun_inRange vet k) rfl giniFromCounts
      start := ⟨exSplitT_inRange, rfl, rfl⟩
      leafSize := le_refl 1
      exist := show ∀ i ∈ [0, 1, 2], i < 3 by decide
      mTry := show 2 ≤ 3 by decide
      oobs := by simp }
  fit := by
    show 0 < (List.replicate 6 false).length
    decide
  order _ := List.Perm.refl _

/-- The draws: cases 0, 1 and 4, then 1, 2 and 5, which are of one class. -/
def exGlobal : Rng := fun k => [0, 1, 4, 1, 2, 5].getD k 0

/-- A run that meets the conditions: two trees, from the bags drawn. -/
example : (exRun false 3).Ok (exRunLaws false 3) (fun g => g.InRange 2 [0, 1, 2, 3, 4, 5] ∧
      g.missing.length = g.catData.length ∧ g.catData.length = exSplitT.catData.length) [0, 1, 2] ∧
    (exRunLaws false 3).Ok (newAllocs 2) ∧
    ((exRun false 3).run (exRun false 3).grower 6 2 [0, 1, 2] (fun k => 5 * k + 1) exGlobal).map (fun out =>
      out.map (·.2)) = some [[0, 1, 4], [1, 2, 5]] :=
  ⟨exRun_ok false 3, ⟨rfl, rfl, rfl⟩, by decide +kernel⟩

/-- Its file is read again and predicts as newly grown trees do. -/
example : ∃ out text f', (exRun false 3).run (exRun false 3).grower 6 2 [0, 1, 2] (fun k => 5 * k + 1) exGlobal =
      some out ∧
    growforestFile exExact (fun s => s.left) false "C:y" none (out.map (·.1)) = some text ∧
    readForest exExact text = some ⟨some f', .ok, []⟩ ∧ f'.trees.length = 2 ∧
    ∀ o, applyForest exExact o f' exFM3 = applyForest exExact o (cleaned "C:y" out) exFM3 := by
  have h : ((exRun false 3).run (exRun false 3).grower 6 2 [0, 1, 2] (fun k => 5 * k + 1) exGlobal).isSome = true := by
    decide +kernel
  obtain ⟨out, h⟩ := Option.isSome_iff_exists.1 h
  obtain ⟨text, f', h1, h2, -, -, h3, h4, -⟩ := c119_file (exRun_ok false 3) (by decide) rfl (nCats := 2) ⟨rfl, rfl, rfl⟩ _ _
    exExact_faithful (by
      intro f hf
      simp only [exRun, exFM3, List.mem_cons, List.not_mem_nil, or_false] at hf
      rcases hf with rfl | rfl | rfl
      · show Plain _; decide +kernel
      · show Plain _; decide +kernel
      · exact ⟨by decide +kernel, by decide +kernel⟩) (fun cs => by
        show Plain (if _ then "a" else "b").toList
        split <;> decide +kernel) (show Plain "C:y".toList by decide +kernel) (fun s => s.left)
    (fun s => List.Perm.refl _) false h
  exact ⟨out, text, f', h, h1, h2, h3, h4⟩

/-- **C118 is false of the code** with `-vet` and `-evaloob`: the splits of the shuffled target are searched among the
out-of-bag cases, of which there may be more than `nSamples`. Here two of six cases are in the bag, and writing the
third of the four others panics; with room for all of them the run goes through. -/
theorem c118_vet_oob :
    ((exRun true 2).run (exRun true 2).grower 6 2 [0, 1, 2] (fun k => 5 * k + 1) exGlobal).isSome = false ∧
    ((exRun true 2).run (exRun true 2).freeGrower 6 2 [0, 1, 2] (fun k => 5 * k + 1) exGlobal).isSome = true := by
  decide +kernel

/-- How many votes a tree casts on the cases out of its bag. -/
def oobVoteCount (fm : FeatureMatrix K) (nCases : Nat) (t : Tree K) (bag : List Nat) : Option Nat := do
  let oob ← oobCases nCases bag
  let v ← t.voteCases fm oob
  some v.1.length

/-- **C119 is false of the code** for the out-of-bag votes. They are cast by the tree as it is in memory: here the second
tree is a single leaf on top of the first tree, and none of its three out-of-bag cases gets a vote. -/
theorem c119_oob_votes_lost :
    ((exRun false 3).run (exRun false 3).grower 6 2 [0, 1, 2] (fun k => 5 * k + 1) exGlobal).map (fun out =>
      out.map fun x => (oobVoteCount exFM3 6 x.1 x.2,
        oobVoteCount exFM3 6 { x.1 with root := prune x.1.root } x.2)) =
      some [(some 3, some 3), (some 0, some 3)] := by
  decide +kernel

end CloudForest
