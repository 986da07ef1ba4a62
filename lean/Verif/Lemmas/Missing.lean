import Verif.Spec.Missing
import Verif.Model.Missing
import Verif.Props.Commands

/-!
Trees with a branch for missing values, from the run to the file and back.
-/

set_option linter.unusedSectionVars false

namespace CloudForest
variable {K : Type} [Field K] [LinearOrder K] [IsStrictOrderedRing K] {σ τ : Type} {P : σ → Prop} {Q : Nat → Prop}

theorem Grown.branch_not_nil {g : Grower K σ} {fm : FeatureMatrix K} (hsm : g.splitmissing = true) {b : Bool} {n : Node K}
    {cs : List Nat} {d : Nat} (h : Grown g fm P Q b n cs d) : n.isNil = false := by
  cases h with
  | absent h => rw [hsm] at h; cases h
  | empty _ => rfl
  | leaf _ => rfl
  | split => rfl

/-- Read from the file, a case with a missing value goes right. -/
theorem Grown.landing_righted {g : Grower K σ} {fm : FeatureMatrix K} (hsm : g.splitmissing = true) {b : Bool} {n : Node K}
    {cs : List Nat} {d : Nat} (h : Grown g fm P Q b n cs d) (c : Nat) :
    (landing fm n.missingIsRight c).map (·.2) = (landingRight fm n c).map (·.2) := by
  induction h with
  | absent h => rw [hsm] at h; cases h
  | empty _ => rfl
  | leaf _ => rfl
  | split hd hlen hP hQ hb hs hf hfit hdec hsp hl hr hm ihl ihr ihm =>
    rw [Node.missingIsRight, hm.branch_not_nil hsm, if_neg (by simp), landing, landingRight, if_pos (by simp [splits]),
      if_pos (by simp [splits])]
    split
    · rename_i e
      simp only [e, Option.map_map]
      exact ihl
    · rename_i e
      simp only [e, Option.map_map]
      exact ihr
    · rename_i e
      simp only [e, Option.map_map]
      exact ihr
    · rename_i e
      simp only [e]

theorem righted_usable {fm : FeatureMatrix K} {cases : List Nat} : ∀ {n : Node K}, Usable fm cases n → Usable fm cases n.missingIsRight := by
  intro n
  induction n with
  | nil => exact id
  | mk coded fi l r m pred spl ihl ihr ihm =>
    intro h
    rw [Node.missingIsRight]
    cases hs : splits coded spl with
    | true =>
      obtain ⟨h1, hl, hr, -⟩ := (usable_split hs).1 h
      refine (usable_split hs).2 ⟨h1, ihl hl, ihr hr, ?_⟩
      split
      · exact .inl rfl
      · exact .inr (ihr hr)
    | false =>
      cases coded with
      | some _ => cases hs
      | none =>
        cases spl with
        | some _ => cases hs
        | none =>
          obtain ⟨rfl, rfl⟩ := h
          exact ⟨rfl, rfl⟩

theorem righted_decoded {fm : FeatureMatrix K} : ∀ {n : Node K}, CodesDecoded fm n → CodesDecoded fm n.missingIsRight := by
  intro n
  induction n with
  | nil => exact id
  | mk coded fi l r m pred spl ihl ihr ihm =>
    rintro ⟨h1, hl, hr, -⟩
    refine ⟨h1, ihl hl, ihr hr, ?_⟩
    split
    · trivial
    · exact ihr hr

theorem landingRight_exists {fm : FeatureMatrix K} {cases : List Nat} {c : Nat} (hc : c ∈ cases) : ∀ {n : Node K}, Usable fm cases n →
    ∃ x, landingRight fm n c = some x := by
  intro n
  induction n with
  | nil => intro hu; exact hu.elim
  | mk coded fi l r m pred spl ihl ihr ihm =>
    intro hu
    rw [landingRight]
    split
    · rename_i hs
      obtain ⟨h1, hl, hr, -⟩ := (usable_split hs).1 hu
      obtain ⟨d, e⟩ := caseDir_exists h1 hc
      obtain ⟨x, ex⟩ := ihl hl
      obtain ⟨y, ey⟩ := ihr hr
      rw [e]
      cases d with
      | L => exact ⟨_, by simp only [ex, Option.map_some]; rfl⟩
      | R => exact ⟨_, by simp only [ey, Option.map_some]; rfl⟩
      | M => exact ⟨_, by simp only [ey, Option.map_some]; rfl⟩
    · exact ⟨_, rfl⟩

theorem landingRight_leaf {fm : FeatureMatrix K} {c : Nat} : ∀ {n : Node K} {x : List Dir × String}, landingRight fm n c = some x →
    x ∈ leavesOf n ∧ Dir.M ∉ x.1 := by
  intro n
  induction n with
  | nil => intro x h; cases h
  | mk coded fi l r m pred spl ihl ihr ihm =>
    intro x h
    rw [landingRight] at h
    rw [leavesOf]
    split at h
    · rename_i hs
      rw [if_pos hs]
      simp only [List.mem_append, List.mem_map]
      split at h
      · obtain ⟨y, hy, rfl⟩ := Option.map_eq_some_iff.1 h
        exact ⟨.inl (.inl ⟨y, (ihl hy).1, rfl⟩), by simpa using (ihl hy).2⟩
      · obtain ⟨y, hy, rfl⟩ := Option.map_eq_some_iff.1 h
        exact ⟨.inl (.inr ⟨y, (ihr hy).1, rfl⟩), by simpa using (ihr hy).2⟩
      · cases h
    · rename_i hs
      rw [if_neg hs]
      cases h
      exact ⟨List.mem_singleton_self _, by simp⟩

/-- In memory a case always finds a branch. -/
theorem Grown.landing_exists {g : Grower K σ} {fm : FeatureMatrix K} (hsm : g.splitmissing = true) {all : List Nat} {b : Bool} {n : Node K}
    {cs : List Nat} {d : Nat} (h : Grown g fm P Q b n cs d) (hM : MatrixOk fm all) {c : Nat} (hc : c ∈ all) :
    ∃ x, landing fm n c = some x := by
  induction h with
  | absent h => rw [hsm] at h; cases h
  | empty _ => exact ⟨_, rfl⟩
  | leaf _ => exact ⟨_, rfl⟩
  | @split b cs d nc st st' res code f spl sp l r m hd hlen hP hQ hb hs hf hfit hdec hsp hl hr hm ihl ihr ihm =>
    rw [landing, if_pos (by simp [splits])]
    obtain ⟨d, e⟩ := caseDir_exists (nodeOk_of hM (some spl) hf hfit) hc
    obtain ⟨x, ex⟩ := ihl
    obtain ⟨y, ey⟩ := ihr
    obtain ⟨z, ez⟩ := ihm
    rw [e]
    cases d with
    | L => exact ⟨_, by simp only [ex, Option.map_some]; rfl⟩
    | R => exact ⟨_, by simp only [ey, Option.map_some]; rfl⟩
    | M => exact ⟨_, by simp only [ez, Option.map_some]; rfl⟩

/-- A tree as the file keeps it. -/
def rightedOf (x : Tree K × List Nat) : Tree K × List Nat := ({ x.1 with root := (prune x.1.root).missingIsRight }, x.2)

/-- The forest as the file keeps it. -/
def righted (target : String) (out : List (Tree K × List Nat)) : Forest K :=
  ⟨target, (out.map rightedOf).map (·.1), .fin 0⟩

/-- The file of recorded trees with branches for missing values. -/
theorem recorded_righted {r : RunSetup K τ} {L : TargetLaws r.T r.all} {good : τ → Prop} {cans : List Nat}
    (hr : r.Ok L good cans) {nt : NumText K} (hnt : ∀ x, nt.Faithful x)
    (ht : ∀ f ∈ r.fm.data, f.Tidy) (hp : ∀ cs, Plain (r.findPredicted cs).toList) (htarget : Plain r.target.toList)
    (ord : Splitter K → List String) (hord : ∀ s : Splitter K, (ord s).Perm s.left) (progress : Bool)
    {out : List (Tree K × List Nat)} (hne : out ≠ []) (hx : ∀ x ∈ out, r.Recorded L cans x) :
    ∃ text f', growforestFile nt ord progress r.target none (out.map (·.1)) = some text ∧
      readForest nt text = some ⟨some f', .ok, []⟩ ∧ f'.target = r.target ∧ f'.intercept = .fin 0 ∧
      ∀ o, applyForest nt o f' r.fm = applyForest nt o (righted r.target out) r.fm := by
  obtain ⟨a1, a2, -⟩ := treeGrower_search_any hr.setting r.findPredicted r.maxDepth r.splitmissing
  have hgrown : ∀ x ∈ out, x.1.target = r.target ∧ ({ x.1 with root := prune x.1.root } : Tree K).Writable nt ∧
      Usable r.fm r.all (prune x.1.root) ∧ CodesDecoded r.fm (prune x.1.root) := by
    intro x hxm
    obtain ⟨c1, c2, -, c4, st, st', c5, c6, c7, c8⟩ := hx x hxm
    have hall : ∀ c ∈ x.2, c ∈ r.all := fun c h => r.mem_all (c4 c h)
    have hg := (grow_grown hr.matrix a1 _ 0 "" _ x.2 0 0 _ _ ⟨c5, c6, c7⟩ (Nat.zero_le _) hall c8).2 false
    refine ⟨c1, ⟨hg.writable hr.matrix a2 hr.setting.leafSize hnt ht hp hall, ?_, ?_, fun _ => hnt _⟩,
      (hg.usable hr.matrix).resolve_left hg.not_nil, hg.codesDecoded hr.matrix⟩
    · have := hg.not_nil
      cases e : prune x.1.root with
      | nil => exact absurd e this
      | mk _ _ _ _ _ _ _ => rfl
    · show Plain x.1.target.toList
      rw [c1]
      exact htarget
  obtain ⟨text, b1, b2⟩ := readForest_growforestFile hord progress r.target none (out.map fun x => { x.1 with root := prune x.1.root })
    (fun t h => by
      obtain ⟨x, hxm, rfl⟩ := List.mem_map.1 h
      exact ⟨(hgrown x hxm).2.1, (hgrown x hxm).1⟩) (by simpa using hne) htarget (by nofun)
  refine ⟨text, _, ?_, b2, rfl, rfl, fun o => ?_⟩
  · rw [← b1]
    unfold growforestFile
    have e2 := recordTrees_prune nt ord progress (out.map (·.1)) 0
    rw [List.map_map] at e2
    exact congrArg (Option.bind · _) e2.symm
  · have hvote : ∀ x ∈ out, (backTree ord { x.1 with root := prune x.1.root }).vote r.fm = (rightedOf x).1.vote r.fm := by
      intro x hxm
      obtain ⟨-, h1, h2, h3⟩ := hgrown x hxm
      unfold Tree.vote
      rw [hr.cases]
      simp only [Option.bind_eq_bind, Option.bind_some]
      rw [← c02_stripCodes (rightedOf x).1 r.fm r.all (righted_usable h2) (righted_decoded h3),
        ← voteCases_same (rightedOf x).1 (backTree ord { x.1 with root := prune x.1.root }) ⟨back_same hord _ h1.root, rfl, rfl⟩]
      congr 1
      show _ = Tree.voteCases (Tree.mk (back ord (prune x.1.root)).stripCodes _ _) _ _
      rw [back_strip]
      rfl
    unfold applyForest righted
    simp only
    congr 1
    funext f0
    have hfold : ∀ (l : List (Tree K × List Nat)), (∀ x ∈ l, x ∈ out) → ∀ bb : Box K,
        ((l.map fun x => ({ x.1 with root := prune x.1.root } : Tree K)).map (backTree ord)).foldlM (fun bb t => do
          let votes ← t.vote r.fm
          bb.castVotes nt votes) bb =
        ((l.map rightedOf).map (·.1)).foldlM (fun bb t => do
          let votes ← t.vote r.fm
          bb.castVotes nt votes) bb := by
      intro l
      induction l with
      | nil => intro _ bb; rfl
      | cons x l ih =>
        intro hl bb
        simp only [List.map_cons, List.foldlM_cons, hvote x (hl x List.mem_cons_self)]
        congr 1
        funext bb'
        exact ih (fun y hy => hl y (List.mem_cons_of_mem _ hy)) bb'
    exact hfold out (fun x h => h) _

/-- What the trees of a run answer, in memory and from the file. -/
theorem recorded_righted_voters {r : RunSetup K τ} {L : TargetLaws r.T r.all} {good : τ → Prop} {cans : List Nat}
    (hr : r.Ok L good cans) (hsm : r.splitmissing = true) {out : List (Tree K × List Nat)} (hx : ∀ x ∈ out, r.Recorded L cans x) :
    (righted r.target out).Fits r.fm ∧
    ∀ x ∈ out, x.1.weight = .fin (-1) ∧
      (x.2.length ≤ r.nSamples ∧ (r.how.isNobag = false → x.2.length = r.nSamples)) ∧ (∀ c ∈ x.2, r.missing[c]? = some false) ∧
      ∀ c ∈ r.all, (∃ p, (voterOf x).1.opinion r.fm c = some p ∧ (neighbours r.fm (voterOf x).1 x.2 c ≠ [] →
          ∃ S, S.Perm (neighbours r.fm (voterOf x).1 x.2 c) ∧ p = r.findPredicted S)) ∧
        (rightedOf x).1.opinion r.fm c = (voterOf x).1.opinionRight r.fm c ∧
        ∃ p S, (voterOf x).1.opinionRight r.fm c = some p ∧ S.Perm (neighboursRight r.fm (voterOf x).1 x.2 c) ∧
          p = r.findPredicted S ∧ (x.2 ≠ [] → S ≠ []) := by
  obtain ⟨a1, a2, -⟩ := treeGrower_search_any hr.setting r.findPredicted r.maxDepth r.splitmissing
  refine ⟨?_, ?_⟩
  · intro t ht
    unfold righted at ht
    simp only [List.map_map] at ht
    obtain ⟨x, hxm, rfl⟩ := List.mem_map.1 ht
    obtain ⟨-, c2, -, c4, st, st', c5, c6, c7, c8⟩ := hx x hxm
    refine ⟨⟨-1, c2⟩, fun cases hc => ?_⟩
    rw [hr.cases] at hc
    cases hc
    have hg := (grow_grown hr.matrix a1 _ 0 "" _ x.2 0 0 _ _ ⟨c5, c6, c7⟩ (Nat.zero_le _) (fun c h => r.mem_all (c4 c h)) c8).2 false
    exact righted_usable ((hg.usable hr.matrix).resolve_left hg.not_nil)
  · intro x hxm
    obtain ⟨-, c2, c3, c4, st, st', c5, c6, c7, c8⟩ := hx x hxm
    refine ⟨c2, c3, c4, fun c hc => ?_⟩
    have hall : ∀ c ∈ x.2, c ∈ r.all := fun c h => r.mem_all (c4 c h)
    have hg := (grow_grown hr.matrix a1 _ 0 "" _ x.2 0 0 _ _ ⟨c5, c6, c7⟩ (Nat.zero_le _) hall c8).2 false
    have hu := (hg.usable hr.matrix).resolve_left hg.not_nil
    have hsm' : r.freeGrower.splitmissing = true := hsm
    refine ⟨?_, hg.landing_righted hsm' c, ?_⟩
    · obtain ⟨y, hy⟩ := hg.landing_exists hsm' hr.matrix hc
      have hy' : landing r.fm (voterOf x).1.root c = some y := hy
      refine ⟨y.2, by unfold Tree.opinion; rw [hy']; rfl, fun hne => ?_⟩
      have he : neighbours r.fm (voterOf x).1 x.2 c =
          x.2.filter fun d => (landing r.fm (prune x.1.root) d).map (·.1) == some y.1 := by
        unfold neighbours
        rw [hy']
        rfl
      rcases hg.leaves y (landing_in_leaves hy) with ⟨S, hS, hp⟩ | ⟨-, -, -, h4⟩
      · exact ⟨S, he ▸ hS, hp⟩
      · refine absurd ?_ hne
        rw [he, List.filter_eq_nil_iff]
        intro d hd h
        exact h4 d hd (by simpa using h)
    · obtain ⟨y, hy⟩ := landingRight_exists hc hu
      obtain ⟨hleaf, hM⟩ := landingRight_leaf hy
      have hy' : landingRight r.fm (voterOf x).1.root c = some y := hy
      have he : neighboursRight r.fm (voterOf x).1 x.2 c =
          x.2.filter fun d => (landing r.fm (prune x.1.root) d).map (·.1) == some y.1 := by
        unfold neighboursRight
        rw [hy']
        rfl
      rcases hg.leaves y hleaf with ⟨S, hS, hp⟩ | ⟨-, h2, -, -⟩
      · refine ⟨y.2, S, by unfold Tree.opinionRight; rw [hy']; rfl, he ▸ hS, hp, fun hne => ?_⟩
        have key : ∃ d ∈ x.2, landing r.fm (prune x.1.root) d = some y := by
          rcases List.eq_nil_or_concat y.1 with h0 | ⟨q, d, h0⟩
          · obtain ⟨d, hd⟩ := List.exists_mem_of_ne_nil _ hne
            refine ⟨d, hd, reaches_landing hleaf ?_⟩
            rw [h0]
            cases hroot : prune x.1.root with
            | nil => rw [hroot] at hg; exact absurd rfl hg.not_nil
            | mk => rfl
          · have hlim := (c09_limits (hr.matrix.mono hall) (a1.mono hall) (a2.mono hall) ⟨c5, c6, c7⟩ (Nat.zero_le _) c8).1 q d
              (by rintro rfl; rw [h0] at hM; simp at hM) (by
                have := leaf_subtree hleaf
                rw [h0] at this
                simpa using this)
            have h1 : 1 ≤ r.o.leafSize := hr.setting.leafSize
            obtain ⟨d', hd'⟩ := List.exists_mem_of_length_pos (Nat.lt_of_lt_of_le h1 hlim)
            obtain ⟨hd1, hd2⟩ := List.mem_filter.1 hd'
            refine ⟨d', hd1, reaches_landing hleaf ?_⟩
            rw [h0]
            simpa using hd2
        obtain ⟨d, hd, e⟩ := key
        have : d ∈ S := hS.mem_iff.2 (List.mem_filter.2 ⟨hd, by rw [e]; simp⟩)
        exact List.ne_nil_of_mem this
      · rcases h2 with ⟨h2, -⟩ | h2
        · cases h2
        · exact absurd (List.mem_of_mem_getLast? h2) hM

/-- The file of a run with `-splitmissing`, read again. -/
theorem run_read_righted {r : RunSetup K τ} {L : TargetLaws r.T r.all} {good : τ → Prop} {cans : List Nat}
    (hr : r.Ok L good cans) (hv : ¬ (r.o.vet = true ∧ r.o.evaloob = true)) {nCores nCats : Nat}
    (hcores : 1 ≤ nCores) (hok : L.Ok (newAllocs nCats)) (own global : Nat → Rng) (pick : Nat → Nat) {nt : NumText K}
    (hnt : ∀ x, nt.Faithful x)
    (ht : ∀ f ∈ r.fm.data, f.Tidy) (hp : ∀ cs, Plain (r.findPredicted cs).toList) (htarget : Plain r.target.toList)
    (ord : Splitter K → List String) (hord : ∀ s : Splitter K, (ord s).Perm s.left) (progress : Bool) :
    let cmd := (r.runCores r.grower nCores (nKnown r.missing) nCats cans own global pick).bind fun out =>
      growforestFile nt ord progress r.target none (out.map (·.1))
    (cmd = none → r.Exhausted) ∧
    ∀ file, cmd = some file → ∃ out forest, out.length = max nCores r.nTrees ∧ (∀ x ∈ out, r.Recorded L cans x) ∧
      readForest nt file = some ⟨some forest, .ok, []⟩ ∧ forest.target = r.target ∧ forest.intercept = .fin 0 ∧
      ∀ o, applyForest nt o forest r.fm = applyForest nt o (righted r.target out) r.fm := by
  intro cmd
  obtain ⟨k1, k2, k3⟩ := runCores_ok hr (nCores := nCores) hok own global pick
  have hcmd : cmd = (r.runCores r.freeGrower nCores (bagKnown r.missing).length nCats cans own global pick).bind fun out =>
      growforestFile nt ord progress r.target none (out.map (·.1)) := by rw [← k3 hv, ← nKnown_eq]
  rw [hcmd]
  cases hrun : r.runCores r.freeGrower nCores (bagKnown r.missing).length nCats cans own global pick with
  | none => exact ⟨fun _ => k1 hrun, fun file h => by cases h⟩
  | some out =>
    obtain ⟨hl, hx⟩ := k2 out hrun
    rw [if_neg (by omega)] at hl
    obtain ⟨text, f', b1, b2, b3, b4, b6⟩ := recorded_righted hr hnt ht hp htarget ord hord progress (out := out) (by
      rintro rfl
      simp at hl
      omega) hx
    simp only [Option.bind_some, b1]
    refine ⟨fun h => (by cases h), fun file h => ?_⟩
    cases h
    exact ⟨out, f', hl, hx, b2, b3, b4, b6⟩

theorem votesFor_righted (fm : FeatureMatrix K) (c : Nat) (p : String) (out : List (Tree K × List Nat))
    (h : ∀ x ∈ out, (rightedOf x).1.opinion fm c = (voterOf x).1.opinionRight fm c) :
    votesFor fm (out.map rightedOf) c p = votesForRight fm (out.map voterOf) c p := by
  unfold votesFor votesForRight
  rw [List.filter_map, List.filter_map, List.length_map, List.length_map]
  congr 1
  refine List.filter_congr fun x hx => ?_
  simp only [Function.comp, h x hx]

/-- All trees answer with numbers. -/
theorem numbersOf_all {nt : NumText K} (hnt : ∀ x, nt.Faithful x) (fm : FeatureMatrix K) (c : Nat) {α : Type} (t : α → Tree K) (v : α → K) :
    ∀ (l : List α), (∀ x ∈ l, (t x).weight = .fin (-1)) →
      (∀ x ∈ l, (t x).opinion fm c = some (String.ofList (nt.fmt (.fin (v x))))) →
      numbersOf nt fm (l.map t) c = (l.map v).map fun y => (y, 1) := by
  intro l
  induction l with
  | nil => intro _ _; rfl
  | cons x l ih =>
    intro hw ho
    have ih := ih (fun y hy => hw y (List.mem_cons_of_mem _ hy)) (fun y hy => ho y (List.mem_cons_of_mem _ hy))
    unfold numbersOf at ih ⊢
    rw [List.map_cons, List.filterMap_cons]
    have : nt.parse (String.ofList (nt.fmt (.fin (v x)))).toList = some (.fin (v x)) := by
      rw [String.toList_ofList]
      exact (hnt _).2
    simp only [ho x List.mem_cons_self, Option.bind_some, this, List.map_cons]
    rw [ih, say_one (hw x List.mem_cons_self)]

end CloudForest
