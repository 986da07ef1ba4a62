import Mathlib.Data.Rat.Encodable
import Verif.Lemmas.TreeFile
import Verif.Props.Sf
import Verif.Props.Apply
import Verif.Props.Splitter

/-!
# C111: a forest that is grown, saved, read and applied
-/

set_option linter.unusedSectionVars false

namespace CloudForest
variable {K : Type} [Field K] [LinearOrder K] [IsStrictOrderedRing K] {σ : Type} {P : σ → Prop} {Q : Nat → Prop}

/-! ## Specification -/

/-- A feature whose name and categories contain none of the marks of the file format. -/
def Feature.Tidy : Feature K → Prop
  | .cat f => Plain f.name.toList ∧ ∀ s ∈ f.cm.back, Plain s.toList ∧ ':' ∉ s.toList
  | .num f => Plain f.name.toList

/-- The forest without the codes of its splits, which are of use only with the matrix it was grown on. -/
def Forest.named (f : Forest K) : Forest K :=
  { f with trees := f.trees.map fun t => { t with root := t.root.stripCodes } }

/-- A tree grown from some of the cases `all`. -/
def GrownTree (g : Grower K σ) (fm : FeatureMatrix K) (P : σ → Prop) (all : List Nat) (root : Node K) : Prop :=
  ∃ fuel st st' bag, P st ∧ (∀ c ∈ bag, c ∈ all) ∧ grow g fm fuel .fresh st bag 0 0 = some (root, st')

/-! ## Proof -/

theorem plain_empty : Plain ([] : Text) := by
  refine ⟨by simp, by simp, by simp, ?_⟩
  intro piece hp
  simp only [splitC, List.mem_singleton] at hp
  subst hp
  unfold NoEdgeSpace
  simp

/-- What is decoded from an admissible split can be written. -/
theorem decodeSplit_writable {nt : NumText K} (hnt : ∀ x, nt.Faithful x) {f : Feature K} (ht : f.Tidy) {code : Coded K}
    (hfit : f.CodeFits code) {cs all : List Nat} (hcs : ∀ c ∈ cs, c ∈ all) (hv : ∀ c ∈ all, f.ValidCase c)
    (hleft : 1 ≤ leftCount f code cs) {spl : Splitter K} (hdec : f.decodeSplit code = some spl) : spl.Writable nt := by
  have hbit : ∀ (f : CatFeature) (b : Nat), Feature.Tidy (K := K) (.cat f) →
      (∀ c ∈ all, Feature.ValidCase (K := K) (.cat f) c) →
      (∃ c ∈ cs, f.missing[c]? = some false ∧ ∃ k, f.catData[c]? = some k ∧ b.testBit k = true) →
      Splitter.Writable nt ⟨f.name, false, .fin 0,
        (List.range f.cm.nCats).filterMap fun j => if b.testBit j then f.cm.back[j]? else none⟩ := by
    rintro f b ht hv ⟨c, hc, hm, k, hk, hb⟩
    obtain ⟨-, -, h⟩ := hv c (hcs c hc)
    have hlt := h k hm hk
    refine ⟨ht.1, fun h => (by cases h), fun _ => ⟨rfl, ?_, ?_⟩⟩
    · refine List.ne_nil_of_mem (a := f.cm.back[k]) ?_
      rw [List.mem_filterMap]
      refine ⟨k, by simpa [CatMap.nCats] using hlt, ?_⟩
      rw [if_pos hb, List.getElem?_eq_getElem hlt]
    · intro s hs
      obtain ⟨j, -, hj⟩ := List.mem_filterMap.1 hs
      split at hj
      · exact ht.2 s (List.mem_of_getElem? hj)
      · cases hj
  have hex : ∃ c ∈ cs, f.isMissing c = some false ∧ f.codedLeft code c = some true := by
    unfold leftCount at hleft
    obtain ⟨c, hc⟩ := List.exists_mem_of_length_pos hleft
    rw [List.mem_filter] at hc
    exact ⟨c, hc.1, by simpa using hc.2⟩
  obtain ⟨c, hc, hm, hl⟩ := hex
  cases f with
  | num f =>
    cases code with
    | num v =>
      cases hdec
      exact ⟨ht, fun _ => ⟨rfl, hnt v⟩, fun h => by cases h⟩
    | int b => cases hdec
    | big b => cases hdec
  | cat f =>
    cases code with
    | num v => exact absurd hfit (by simp [Feature.CodeFits])
    | int b =>
      cases hdec
      obtain ⟨k, hk, hb⟩ := Option.bind_eq_some_iff.1 hl
      exact hbit f b ht hv ⟨c, hc, hm, k, hk, by simpa using hb⟩
    | big b =>
      cases hdec
      obtain ⟨k, hk, hb⟩ := Option.bind_eq_some_iff.1 hl
      exact hbit f b ht hv ⟨c, hc, hm, k, hk, by simpa using hb⟩

/-- A grown tree can be written. -/
theorem Grown.writable {g : Grower K σ} {fm : FeatureMatrix K} {all : List Nat} {nt : NumText K}
    (hM : MatrixOk fm all) (hA : Admissible g fm P Q all) (hl : 1 ≤ g.leafSize)
    (hnt : ∀ x, nt.Faithful x) (ht : ∀ f ∈ fm.data, f.Tidy) (hp : ∀ cs, Plain (g.findPredicted cs).toList) {b : Bool}
    {n : Node K} {cs : List Nat} {d : Nat} (h : Grown g fm P Q b n cs d) (hcs : ∀ c ∈ cs, c ∈ all) :
    n.Writable nt := by
  induction h with
  | absent => trivial
  | empty h => exact ⟨plain_empty, trivial, trivial, trivial, fun _ => rfl, rfl, rfl, rfl⟩
  | leaf _ => exact ⟨hp _, trivial, trivial, trivial, fun _ => rfl, rfl, rfl, rfl⟩
  | @split b cs d nc st st' res code f spl sp l r m hd hlen hP hQ hb hs hf hfit hdec hsp hl' hr hm ihl ihr ihm =>
    have hmem : ∀ c, c ∈ sp.left ++ sp.missing ++ sp.right → c ∈ all := fun c hc => hcs c (hsp.perm.mem_iff.1 hc)
    have hfm := List.mem_of_getElem? hf
    refine ⟨plain_empty, ihl fun c hc => hmem c (by simp [hc]), ihr fun c hc => hmem c (by simp [hc]),
      ihm fun c hc => hmem c (by simp [hc]), fun h => ?_, ?_⟩
    · have := hr.not_nil
      cases r with
      | nil => exact absurd rfl this
      | mk _ _ _ _ _ _ _ => cases h
    · exact decodeSplit_writable hnt (ht f hfm) hfit hcs (hM.valid f hfm)
        (hl.trans (hA st cs nc st' res code f hP hQ hcs hb hs hf).1) hdec

/-- Without `splitmissing` no missing branches are grown. -/
theorem grow_noMissing {g : Grower K σ} {fm : FeatureMatrix K} (hsm : g.splitmissing = false) :
    ∀ (fuel fi0 : Nat) (p0 : String) (st : σ) (cs : List Nat) (d nc : Nat) (n : Node K) (st' : σ),
      grow g fm fuel (.mk none fi0 .nil .nil .nil p0 none) st cs d nc = some (n, st') → n.NoMissing := by
  intro fuel
  induction fuel with
  | zero => intro fi0 p0 st cs d nc n st' h; simp [grow] at h
  | succ fuel ih =>
    intro fi0 p0 st cs d nc n st' h
    rw [grow] at h
    split at h
    · simp only [Option.bind_eq_bind, Option.bind_eq_some_iff] at h
      obtain ⟨⟨st1, res⟩, hb, h⟩ := h
      cases hres : res.split with
      | none =>
        simp only [hres, Option.some.injEq, Prod.mk.injEq] at h
        rw [← h.1]
        exact ⟨rfl, trivial, trivial⟩
      | some code =>
        simp only [hres, Option.bind_eq_some_iff] at h
        obtain ⟨f, hf, spl, hdec, ⟨cs', li, ri⟩, hpt, h⟩ := h
        rw [hsm, show growChildren false (.nil : Node K) .nil .nil = (.fresh, .fresh, .nil) from rfl] at h
        obtain ⟨⟨nl, st2⟩, hl, ⟨nr, st3⟩, hr, h⟩ := h
        simp [Node.isNil] at h
        rw [← h.1]
        exact ⟨rfl, ih _ _ _ _ _ _ _ _ hl, ih _ _ _ _ _ _ _ _ hr⟩
    · simp only [Option.some.injEq, Prod.mk.injEq] at h
      rw [← h.1]
      exact ⟨rfl, trivial, trivial⟩

/-- Such trees can be written, and read back they vote as before. -/
theorem saved_core {g : Grower K σ} {fm : FeatureMatrix K} {all : List Nat} {nt : NumText K}
    (hall : fm.allCases = some all) (hM : MatrixOk fm all) (hS : SearchOk g fm P Q all) (hA : Admissible g fm P Q all)
    (hQ : Q 0) (hl : 1 ≤ g.leafSize) (hsm : g.splitmissing = false) (hnt : ∀ x, nt.Faithful x)
    (ht : ∀ f ∈ fm.data, f.Tidy) (hp : ∀ cs, Plain (g.findPredicted cs).toList)
    (ord : Splitter K → List String) (hord : ∀ s : Splitter K, (ord s).Perm s.left) (f : Forest K)
    (hf : Plain f.target.toList) (hg : ∀ t ∈ f.trees, t.target = f.target ∧ GrownTree g fm P all t.root) :
    (∀ t ∈ f.trees, t.Writable nt ∧ t.root.NoMissing) ∧
      (∀ o, applyForest nt o ⟨f.target, f.trees.map (backTree ord), f.intercept⟩ fm = applyForest nt o f fm) ∧
      ∀ fm2 o, applyForest nt o ⟨f.target, f.trees.map (backTree ord), f.intercept⟩ fm2 = applyForest nt o f.named fm2 := by
  have hgrown : ∀ t ∈ f.trees, ∃ cs, Grown g fm P Q false t.root cs 0 ∧ (∀ c ∈ cs, c ∈ all) ∧ t.root.NoMissing := by
    intro t h
    obtain ⟨-, fuel, st, st', bag, h1, h2, h3⟩ := hg t h
    exact ⟨bag, (grow_grown hM hS fuel 0 "" st bag 0 0 _ st' h1 hQ h2 h3).2 false, h2,
      grow_noMissing hsm fuel 0 "" st bag 0 0 _ st' h3⟩
  have hw : ∀ t ∈ f.trees, t.Writable nt ∧ t.root.NoMissing := by
    intro t h
    obtain ⟨cs, h1, h2, h3⟩ := hgrown t h
    refine ⟨⟨h1.writable hM hA hl hnt ht hp h2, ?_, ?_, fun _ => hnt _⟩, h3⟩
    · have := h1.not_nil
      cases e : t.root with
      | nil => exact absurd e this
      | mk _ _ _ _ _ _ _ => rfl
    · rw [(hg t h).1]
      exact hf
  have hvote : ∀ t ∈ f.trees, ∀ fm2 cs, (backTree ord t).voteCases fm2 cs =
      Tree.voteCases { t with root := t.root.stripCodes } fm2 cs := by
    intro t h fm2 cs
    rw [← voteCases_same t (backTree ord t) (backTree_same hord (hw t h).1 (hw t h).2) fm2 cs]
    congr 1
    show _ = Tree.mk (back ord t.root).stripCodes _ _
    rw [back_strip]
    rfl
  have hfold : ∀ (fm2 : FeatureMatrix K) (a b : Tree K → Tree K),
      (∀ t ∈ f.trees, (a t).vote fm2 = (b t).vote fm2) → ∀ bb : Box K,
      (f.trees.map a).foldlM (fun bb t => do
        let votes ← t.vote fm2
        bb.castVotes nt votes) bb =
      (f.trees.map b).foldlM (fun bb t => do
        let votes ← t.vote fm2
        bb.castVotes nt votes) bb := by
    intro fm2 a b
    generalize f.trees = ts
    intro hab
    induction ts with
    | nil => intro bb; rfl
    | cons t ts ih =>
      intro bb
      simp only [List.map_cons, List.foldlM_cons, hab t (by simp)]
      congr 1
      funext bb'
      exact ih (fun t h => hab t (by simp [h])) bb'
  refine ⟨hw, fun o => ?_, fun fm2 o => ?_⟩
  · unfold applyForest
    simp only
    congr 1
    funext f0
    have := hfold fm (backTree ord) id (by
      intro t h
      obtain ⟨cs, hg1, -, -⟩ := hgrown t h
      unfold Tree.vote
      rw [hall]
      simp only [Option.bind_eq_bind, Option.bind_some]
      rw [hvote t h, c02_stripCodes t fm all ((hg1.usable hM).resolve_left hg1.not_nil) (hg1.codesDecoded hM)]
      rfl) (chooseBox o f.target f0.length)
    rw [List.map_id] at this
    exact this
  · unfold applyForest Forest.named
    simp only
    congr 1
    funext f0
    exact hfold fm2 (backTree ord) (fun t => { t with root := t.root.stripCodes }) (by
      intro t h
      unfold Tree.vote
      congr 1
      funext cs
      rw [hvote t h]) (chooseBox o f.target f0.length)

/-- **C111** for any search that keeps to its contract. A forest grown without missing branches from a sound matrix whose
strings contain no marks of the format can be written; what is read has the same target and intercept, and applied to the
matrix it gives every case the votes that the forest in memory gives, whatever the options. On any other matrix it votes
as the forest in memory does by the names of features and categories. -/
theorem c111_search {g : Grower K σ} {fm : FeatureMatrix K} {all : List Nat} {nt : NumText K}
    (hall : fm.allCases = some all) (hM : MatrixOk fm all) (hS : SearchOk g fm P Q all) (hA : Admissible g fm P Q all)
    (hQ : Q 0) (hl : 1 ≤ g.leafSize) (hsm : g.splitmissing = false) (hnt : ∀ x, nt.Faithful x)
    (ht : ∀ f ∈ fm.data, f.Tidy) (hp : ∀ cs, Plain (g.findPredicted cs).toList)
    (ord : Splitter K → List String) (hord : ∀ s : Splitter K, (ord s).Perm s.left) (f : Forest K) (hne : f.trees ≠ [])
    (hf : Plain f.target.toList) (hg : ∀ t ∈ f.trees, t.target = f.target ∧ GrownTree g fm P all t.root) :
    ∃ text f', writeForest nt ord f = some text ∧ readForest nt text = some ⟨some f', .ok, []⟩ ∧
      f'.target = f.target ∧ f'.intercept = f.intercept ∧ f'.trees.length = f.trees.length ∧
      (∀ o, applyForest nt o f' fm = applyForest nt o f fm) ∧
      ∀ fm2 o, applyForest nt o f' fm2 = applyForest nt o f.named fm2 := by
  obtain ⟨hw, ha, hb⟩ := saved_core hall hM hS hA hQ hl hsm hnt ht hp ord hord f hf hg
  obtain ⟨text, h1, h2⟩ := readForest_written hord f ⟨hw, hf, fun _ => hnt _⟩ (.inr (by
    obtain ⟨t, ts, e⟩ := List.exists_cons_of_ne_nil hne
    exact ⟨t, ts, e, (hg t (by simp [e])).1⟩)) [] (.inl rfl)
  rw [List.append_nil] at h2
  exact ⟨text, _, h1, h2, rfl, rfl, by simp, ha, hb⟩

/-- **C111** for the file that growforest writes while the trees are grown, whatever numbers they get. -/
theorem c111_file {g : Grower K σ} {fm : FeatureMatrix K} {all : List Nat} {nt : NumText K}
    (hall : fm.allCases = some all) (hM : MatrixOk fm all) (hS : SearchOk g fm P Q all) (hA : Admissible g fm P Q all)
    (hQ : Q 0) (hl : 1 ≤ g.leafSize) (hsm : g.splitmissing = false) (hnt : ∀ x, nt.Faithful x)
    (ht : ∀ f ∈ fm.data, f.Tidy) (hp : ∀ cs, Plain (g.findPredicted cs).toList)
    (ord : Splitter K → List String) (hord : ∀ s : Splitter K, (ord s).Perm s.left) (target : String)
    (intercept : Option (XF K)) (trees : List (Tree K)) (hne : trees ≠ []) (hf : Plain target.toList)
    (hg : ∀ t ∈ trees, t.target = target ∧ GrownTree g fm P all t.root) (progress : Bool) :
    ∃ text f', growforestFile nt ord progress target intercept trees = some text ∧
      readForest nt text = some ⟨some f', .ok, []⟩ ∧
      f'.target = target ∧ f'.intercept = intercept.getD (.fin 0) ∧ f'.trees.length = trees.length ∧
      (∀ o, applyForest nt o f' fm = applyForest nt o ⟨target, trees, intercept.getD (.fin 0)⟩ fm) ∧
      ∀ fm2 o, applyForest nt o f' fm2 =
        applyForest nt o (Forest.named ⟨target, trees, intercept.getD (.fin 0)⟩) fm2 := by
  obtain ⟨hw, ha, hb⟩ := saved_core hall hM hS hA hQ hl hsm hnt ht hp ord hord
    ⟨target, trees, intercept.getD (.fin 0)⟩ hf hg
  obtain ⟨text, h1, h2⟩ := readForest_growforestFile hord progress target intercept trees
    (fun t h => ⟨(hw t h).1, (hg t h).1⟩) hne hf fun y _ => hnt y
  exact ⟨text, _, h1, h2, rfl, rfl, by simp, ha, hb⟩

/-- The contract holds whatever cases are out of bag. -/
theorem treeGrower_search_any {τ : Type} {fm : FeatureMatrix K} {T : Target K} {C : Contrast K τ} {good : τ → Prop}
    {o : SplitOpts} {all : List Nat} {L : TargetLaws T all} {cans : List Nat} (hS : SplitSetting L fm C good o cans [])
    (fp : List Nat → String) (md : Int) (sm : Bool) :
    let P := fun st : SplitState K => L.Ok st.allocs ∧ st.cans.Perm cans ∧ ∀ c ∈ st.oob, c ∈ all
    SearchOk (treeGrower fm T C o fp md sm) fm P (· ≤ cans.length) all ∧
      Admissible (treeGrower fm T C o fp md sm) fm P (· ≤ cans.length) all ∧
      ∀ st cs nc, P st → nc ≤ cans.length → (∀ c ∈ cs, c ∈ all) → (treeGrower fm T C o fp md sm).best st cs nc ≠ none := by
  have key : ∀ oob : List Nat, (∀ c ∈ oob, c ∈ all) →
      SearchOk (treeGrower fm T C o fp md sm) fm (StateOk L fm cans oob) (· ≤ cans.length) all ∧
      Admissible (treeGrower fm T C o fp md sm) fm (StateOk L fm cans oob) (· ≤ cans.length) all ∧
      ∀ st cs nc, StateOk L fm cans oob st → nc ≤ cans.length → (∀ c ∈ cs, c ∈ all) →
        (treeGrower fm T C o fp md sm).best st cs nc ≠ none := by
    intro oob ho
    obtain ⟨h1, h2, h3⟩ := treeGrower_searchOk (fp := fp) (md := md) (sm := sm)
      (⟨hS.feats, hS.total3, hS.contrast, hS.start, hS.leafSize, hS.exist, hS.mTry, ho⟩ : SplitSetting L fm C good o cans oob)
    exact ⟨h1, h2, h3⟩
  have hP : ∀ st : SplitState K, (L.Ok st.allocs ∧ st.cans.Perm cans ∧ ∀ c ∈ st.oob, c ∈ all) →
      StateOk L fm cans st.oob st := fun st h => ⟨h.1, h.2.1, List.Perm.refl _⟩
  refine ⟨⟨?_, ?_, ?_⟩, ?_, ?_⟩
  · intro st cs nc st' res h hn hcs hb
    exact (key st.oob h.2.2).1.perm st cs nc st' res (hP st h) hn hcs hb
  · intro st cs nc st' res code h hn hcs hb hs
    exact (key st.oob h.2.2).1.fits st cs nc st' res code (hP st h) hn hcs hb hs
  · intro st cs nc st' res h hn hcs hb
    obtain ⟨h1, h2⟩ := (key st.oob h.2.2).1.keeps st cs nc st' res (hP st h) hn hcs hb
    exact ⟨⟨h1.allocs, h1.cans_, fun c hc => h.2.2 c (h1.oob_.mem_iff.1 hc)⟩, h2⟩
  · intro st cs nc st' res code f h hn hcs hb hs hf
    exact (key st.oob h.2.2).2.1 st cs nc st' res code f (hP st h) hn hcs hb hs hf
  · intro st cs nc h hn hcs
    exact (key st.oob h.2.2).2.2 st cs nc (hP st h) hn hcs

/-- **C111** for the search of `BestSplitter`: nothing is left to assume of it. The state `st` before each tree is any with
the candidates in some order: any numbers from the random generator, any cases out of bag, the scratch space as other
trees left it. -/
theorem c111_saved {τ : Type} {fm : FeatureMatrix K} {T : Target K} {C : Contrast K τ} {good : τ → Prop} {o : SplitOpts}
    {all : List Nat} (hall : fm.allCases = some all) (hM : MatrixOk fm all) {L : TargetLaws T all} {cans : List Nat}
    (hS : SplitSetting L fm C good o cans []) (findPredicted : List Nat → String) (maxDepth : Int)
    {nt : NumText K} (hnt : ∀ x, nt.Faithful x) (ht : ∀ f ∈ fm.data, f.Tidy)
    (hp : ∀ cs, Plain (findPredicted cs).toList) (ord : Splitter K → List String)
    (hord : ∀ s : Splitter K, (ord s).Perm s.left) (f : Forest K) (hne : f.trees ≠ []) (hf : Plain f.target.toList)
    (hg : ∀ t ∈ f.trees, t.target = f.target ∧ ∃ fuel st st' bag, L.Ok st.allocs ∧ st.cans.Perm cans ∧
      (∀ c ∈ st.oob, c ∈ all) ∧ (∀ c ∈ bag, c ∈ all) ∧
      grow (treeGrower fm T C o findPredicted maxDepth false) fm fuel .fresh st bag 0 0 = some (t.root, st')) :
    ∃ text f', writeForest nt ord f = some text ∧ readForest nt text = some ⟨some f', .ok, []⟩ ∧
      f'.target = f.target ∧ f'.intercept = f.intercept ∧ f'.trees.length = f.trees.length ∧
      (∀ o, applyForest nt o f' fm = applyForest nt o f fm) ∧
      ∀ fm2 o, applyForest nt o f' fm2 = applyForest nt o f.named fm2 := by
  obtain ⟨h1, h2, -⟩ := treeGrower_search_any hS findPredicted maxDepth false
  refine c111_search hall hM h1 h2 (Nat.zero_le _) hS.leafSize rfl hnt ht hp ord hord f hne hf fun t h => ?_
  obtain ⟨e, fuel, st, st', bag, a1, a2, a3, a4, a5⟩ := hg t h
  exact ⟨e, fuel, st, st', bag, ⟨a1, a2, a3⟩, a4, a5⟩

/-- **C111** for the search of `BestSplitter` and the file that growforest writes. -/
theorem c111_growforest {τ : Type} {fm : FeatureMatrix K} {T : Target K} {C : Contrast K τ} {good : τ → Prop}
    {o : SplitOpts} {all : List Nat} (hall : fm.allCases = some all) (hM : MatrixOk fm all) {L : TargetLaws T all}
    {cans : List Nat} (hS : SplitSetting L fm C good o cans []) (findPredicted : List Nat → String) (maxDepth : Int)
    {nt : NumText K} (hnt : ∀ x, nt.Faithful x) (ht : ∀ f ∈ fm.data, f.Tidy)
    (hp : ∀ cs, Plain (findPredicted cs).toList) (ord : Splitter K → List String)
    (hord : ∀ s : Splitter K, (ord s).Perm s.left) (target : String) (intercept : Option (XF K)) (trees : List (Tree K))
    (hne : trees ≠ []) (hf : Plain target.toList)
    (hg : ∀ t ∈ trees, t.target = target ∧ ∃ fuel st st' bag, L.Ok st.allocs ∧ st.cans.Perm cans ∧
      (∀ c ∈ st.oob, c ∈ all) ∧ (∀ c ∈ bag, c ∈ all) ∧
      grow (treeGrower fm T C o findPredicted maxDepth false) fm fuel .fresh st bag 0 0 = some (t.root, st'))
    (progress : Bool) :
    ∃ text f', growforestFile nt ord progress target intercept trees = some text ∧
      readForest nt text = some ⟨some f', .ok, []⟩ ∧
      f'.target = target ∧ f'.intercept = intercept.getD (.fin 0) ∧ f'.trees.length = trees.length ∧
      (∀ o, applyForest nt o f' fm = applyForest nt o ⟨target, trees, intercept.getD (.fin 0)⟩ fm) ∧
      ∀ fm2 o, applyForest nt o f' fm2 =
        applyForest nt o (Forest.named ⟨target, trees, intercept.getD (.fin 0)⟩) fm2 := by
  obtain ⟨h1, h2, -⟩ := treeGrower_search_any hS findPredicted maxDepth false
  refine c111_file hall hM h1 h2 (Nat.zero_le _) hS.leafSize rfl hnt ht hp ord hord target intercept trees hne hf
    (fun t h => ?_) progress
  obtain ⟨e, fuel, st, st', bag, a1, a2, a3, a4, a5⟩ := hg t h
  exact ⟨e, fuel, st, st', bag, ⟨a1, a2, a3⟩, a4, a5⟩

/-! ## Example -/

/-- Every number as text, by counting the fractions. -/
def exExact : NumText ℚ where
  fmt x := match x with
    | .nan => ['N']
    | .pinf => ['P']
    | .ninf => ['M']
    | .fin q => List.replicate (Encodable.encode q + 1) '1'
  parse s := match s with
    | ['N'] => some .nan
    | ['P'] => some .pinf
    | ['M'] => some .ninf
    | s => (Encodable.decode (s.length - 1)).map .fin

theorem splitC_ones (k : Nat) : splitC ',' (List.replicate k '1') = [List.replicate k '1'] := by
  induction k with
  | zero => rfl
  | succ k ih => rw [List.replicate_succ, splitC, if_neg (by decide), ih]

theorem exExact_faithful (x : XF ℚ) : exExact.Faithful x := by
  cases x with
  | nan => exact ⟨by decide +kernel, rfl⟩
  | pinf => exact ⟨by decide +kernel, rfl⟩
  | ninf => exact ⟨by decide +kernel, rfl⟩
  | fin q =>
    have hmem : ∀ k (c : Char), c ∈ List.replicate k '1' → c = '1' := fun k c h => (List.mem_replicate.1 h).2
    refine ⟨⟨fun h => absurd (hmem _ _ h) (by decide), fun h => absurd (hmem _ _ h) (by decide),
      fun h => absurd (hmem _ _ h) (by decide), ?_⟩, ?_⟩
    · intro piece hp
      have hp' : piece ∈ splitC ',' (List.replicate (Encodable.encode q + 1) '1') := hp
      rw [splitC_ones, List.mem_singleton] at hp'
      subst hp'
      refine ⟨fun c h => ?_, fun c h => ?_⟩
      · rw [hmem _ c (List.mem_of_mem_head? h)]
        decide
      · rw [hmem _ c (List.mem_of_mem_getLast? h)]
        decide
    · show exExact.parse (List.replicate (Encodable.encode q + 1) '1') = _
      generalize hk : Encodable.encode q = k
      have : exExact.parse (List.replicate (k + 1) '1') =
          (Encodable.decode ((List.replicate (k + 1) '1').length - 1)).map .fin := by
        cases k with
        | zero => rfl
        | succ k => rfl
      rw [this, List.length_replicate, Nat.add_sub_cancel, ← hk, Encodable.encodek]
      rfl

/-- A forest of two trees grown from the example matrix, one from cases drawn with replacement, is saved. -/
example : ∃ (f : Forest ℚ) (text : Text) (f' : Forest ℚ), f.trees.length = 2 ∧
    writeForest exExact (fun s => s.left) f = some text ∧ readForest exExact text = some ⟨some f', .ok, []⟩ ∧
    ∀ o, applyForest exExact o f' exFM3 = applyForest exExact o f exFM3 := by
  have hset : SplitSetting (giniLaws (K := ℚ) exSplitT 2 _ exSplitT_inRange) exFM3 (catContrast exSplitT) _ exOpts
      [0, 1, 2] [] :=
    ⟨exSetting.feats, exSetting.total3, exSetting.contrast, exSetting.start, exSetting.leafSize, exSetting.exist,
      exSetting.mTry, by simp⟩
  obtain ⟨r1, s1, h1, -⟩ := c09_grow exFM3_ok (cases := [0, 1, 2, 3, 4, 5]) (fun _ h => h) exSetting ⟨rfl, rfl, rfl⟩ (fun _ => "p") 0 false
  have h2 : (grow (treeGrower exFM3 (giniTarget exSplitT) (catContrast exSplitT) exOpts (fun _ => "p") 0 false) exFM3 7
      .fresh exState [4, 1, 5, 0, 1, 1] 0 0).isSome = true := by decide +kernel
  obtain ⟨⟨r2, s2⟩, h2⟩ := Option.isSome_iff_exists.1 h2
  obtain ⟨text, f', a, b, -, -, -, c, -⟩ := c111_saved (all := [0, 1, 2, 3, 4, 5]) rfl exFM3_ok hset (fun _ => "p") 0
    exExact_faithful (by
      intro f hf
      simp only [exFM3, List.mem_cons, List.not_mem_nil, or_false] at hf
      rcases hf with rfl | rfl | rfl
      · show Plain _; decide +kernel
      · show Plain _; decide +kernel
      · exact ⟨by decide +kernel, by decide +kernel⟩) (fun _ => by decide +kernel) (fun s => s.left)
    (fun s => List.Perm.refl _) ⟨"C:y", [⟨r1, "C:y", .fin (-1)⟩, ⟨r2, "C:y", .fin (-1)⟩], .fin 0⟩ (by simp)
    (show Plain "C:y".toList by decide +kernel) (by
      intro t ht
      simp only [List.mem_cons, List.not_mem_nil, or_false] at ht
      rcases ht with rfl | rfl
      · exact ⟨rfl, 7, exState, s1, [0, 1, 2, 3, 4, 5], ⟨rfl, rfl, rfl⟩, List.Perm.refl _, by decide, fun c h => h,
          h1 7 (by decide)⟩
      · exact ⟨rfl, 7, exState, s2, [4, 1, 5, 0, 1, 1], ⟨rfl, rfl, rfl⟩, List.Perm.refl _, by decide, by decide, h2⟩)
  exact ⟨_, text, f', rfl, a, b, c⟩

end CloudForest
