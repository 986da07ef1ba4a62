import Verif.Model.BoostCommand
import Verif.Spec.BoostCommand
import Verif.Lemmas.BoostRun
import Verif.Lemmas.Commands2
import Verif.Lemmas.OtherData

/-!
Pieces of the way from a data file to the predictions of a boosted forest.
-/

set_option linter.unusedSectionVars false

namespace CloudForest
variable {K : Type} [Field K] [LinearOrder K] [IsStrictOrderedRing K] {τ σ : Type}

/-! ## Tree objects used again -/

theorem prune_grown {g : Grower K σ} {fm : FeatureMatrix K} {fuel : Nat} {st st' : σ} {cs : List Nat} {d nc : Nat} {n : Node K}
    (h : grow g fm fuel .fresh st cs d nc = some (n, st')) : prune n = n := by
  have := c42_pruned_partial g fm fuel .fresh st cs d nc (by simp [Node.fresh]) (.inr ⟨rfl, trivial, trivial⟩)
  rw [h, Option.map_some, Option.some.injEq, Prod.mk.injEq] at this
  exact this.1

theorem prune_pred (n : Node K) : (prune n).predOf = n.predOf := by
  cases n with
  | nil => rfl
  | mk coded fi l r m p s =>
    rw [prune]
    split <;> rfl

theorem prune_leaf {n : Node K} (h : n.isLeaf = true) : (prune n).isLeaf = true := by
  cases n with
  | nil => cases h
  | mk coded fi l r m p s =>
    rw [Node.isLeaf, Bool.and_eq_true] at h
    rw [prune]
    split
    · rw [Node.isLeaf, prune_isNil, prune_isNil, h.1, h.2]
      rfl
    · rfl

theorem splits_none {coded : Option (Coded K)} {spl : Option (Splitter K)} (h : ¬ splits coded spl = true) (fm : FeatureMatrix K)
    (fi : Nat) (cs : List Nat) : nodeSplit fm coded fi spl cs = some none := by
  unfold splits at h
  cases coded with
  | some _ => simp at h
  | none =>
    cases spl with
    | some _ => simp at h
    | none => rfl

/-- Walks through a tree do not see what hangs below its leaves. -/
theorem recurse_prune (fm : FeatureMatrix K) : ∀ (n : Node K) (cs : List Nat) (d : Nat),
    (prune n).recurse fm cs d = (n.recurse fm cs d).map fun r => (r.1.map fun v => { v with node := prune v.node }, r.2) := by
  intro n
  induction n with
  | nil => intro cs d; rfl
  | mk coded fi l r m p s ihl ihr ihm =>
    intro cs d
    by_cases hs : splits coded s = true
    · have e : prune (.mk coded fi l r m p s) = .mk coded fi (prune l) (prune r) (prune m) p s := by rw [prune, if_pos hs]
      rw [e, Node.recurse, Node.recurse]
      simp only [Option.bind_eq_bind]
      cases hsp : nodeSplit fm coded fi s cs with
      | none => rfl
      | some o =>
        cases o with
        | none => simp [e]
        | some sp =>
          simp only [Option.bind_some]
          rw [ihl, ihr, prune_isNil]
          cases l.recurse fm sp.left (d + 1) with
          | none => rfl
          | some vl =>
            simp only [Option.map_some, Option.bind_some]
            cases r.recurse fm sp.right (d + 1) with
            | none => rfl
            | some vr =>
              simp only [Option.map_some, Option.bind_some]
              split
              · rw [ihm]
                cases m.recurse fm sp.missing (d + 1) with
                | none => rfl
                | some vm => simp [e]
              · simp [e]
    · have e : prune (.mk coded fi l r m p s) = .mk coded 0 .nil .nil .nil p s := by rw [prune, if_neg hs]
      rw [e, Node.recurse, Node.recurse, splits_none hs, splits_none hs]
      simp [e]

/-- The round after a tree, of which something may hang below its leaves. -/
theorem round_reused (parse : String → Option (XF K)) (fm : FeatureMatrix K) (ti n : Nat) (f : NumFeature K)
    (lr : K) (mean : XF K) (v : Nat → K) (t : Tree K) (hti : fm.data[ti]? = some (.num f))
    (hc : fm.allCases = some (List.range n)) (hf : (Feature.num f).length = n)
    (hu : Usable fm (List.range n) (prune t.root)) (ha : (prune t.root).Avoids fm ti)
    (hp : Tree.FiniteFor parse fm n { t with root := prune t.root }) :
    ∃ v' : Nat → K, GradBoost.round parse ti ({ fm with data := fm.data.set ti (.num (withValues f n v)) },
        ⟨withValues f n v, .fin lr, mean⟩) t =
      some (({ fm with data := fm.data.set ti (.num (withValues f n v')) }, ⟨withValues f n v', .fin lr, mean⟩),
        { t with weight := .fin lr }) ∧
      (prune t.root = t.root → ∀ i, v' i = v i - lr * treeValue parse fm t i) := by
  by_cases hpr : prune t.root = t.root
  · rw [hpr] at hu ha hp
    exact ⟨_, round_withValues parse fm ti n f lr mean v t hti hc hf hu ha hp, fun _ _ => rfl⟩
  obtain ⟨groups, preds, votes, h1, -, h3, h4, h5, h6⟩ := tree_votes parse fm n { t with root := prune t.root } hc hu hp
  have hw : (Feature.num (withValues f n v)).length = (Feature.num f).length := by
    rw [hf]; simp [Feature.length, withValues]
  obtain ⟨fmR, hR⟩ : ∃ x, x = ({ fm with data := fm.data.set ti (.num (withValues f n v)) } : FeatureMatrix K) := ⟨_, rfl⟩
  have hcR : fmR.allCases = some (List.range n) := by
    rw [hR, allCases_set fm ti _ _ hti hw]
    exact hc
  have hrec : (prune t.root).recurse fmR (List.range n) 0 = (prune t.root).recurse fm (List.range n) 0 := by
    rw [hR, recurse_avoids fm ti _ _ ha]
  unfold Tree.partition at h1
  rw [hc] at h1
  simp only [Option.bind_eq_bind, Option.bind_some] at h1
  obtain ⟨⟨pv, pcs⟩, e1, h1⟩ := Option.bind_eq_some_iff.1 h1
  rw [← hrec, recurse_prune] at e1
  obtain ⟨⟨vs, vcs⟩, e2, e3⟩ := Option.map_eq_some_iff.1 e1
  simp only [Prod.mk.injEq] at e3
  obtain ⟨rfl, rfl⟩ := e3
  simp only [Option.some.injEq, Prod.mk.injEq] at h1
  obtain ⟨rfl, rfl⟩ := h1
  have hpart : t.partition fmR = some ((vs.filter fun v => v.node.isLeaf).map (·.cases),
      (vs.filter fun v => v.node.isLeaf).map (·.node.predOf)) := by
    unfold Tree.partition
    rw [hcR]
    simp only [Option.bind_eq_bind, Option.bind_some]
    rw [e2]
    rfl
  have hzip : ∀ (l : List (Visit K)), (l.map (·.cases)).zip (l.map (·.node.predOf)) = l.map fun v => (v.cases, v.node.predOf) := by
    intro l
    induction l with
    | nil => rfl
    | cons a l ih => simp [ih]
  have hgood : ∀ g ∈ ((vs.filter fun v => v.node.isLeaf).map (·.cases)).zip ((vs.filter fun v => v.node.isLeaf).map (·.node.predOf)),
      (∀ c ∈ g.1, c < n) ∧ (g.1 ≠ [] → ∀ y, parse g.2 = some y → ∃ z, y = .fin z) := by
    intro g hg
    rw [hzip] at hg
    obtain ⟨w, hwm, rfl⟩ := List.mem_map.1 hg
    obtain ⟨hw1, hw2⟩ := List.mem_filter.1 hwm
    refine h5 (w.cases, w.node.predOf) ?_
    rw [hzip]
    refine List.mem_map.2 ⟨{ w with node := prune w.node }, List.mem_filter.2 ⟨List.mem_map.2 ⟨w, hw1, rfl⟩, prune_leaf hw2⟩, ?_⟩
    rw [prune_pred]
  have hset : ∀ g : NumFeature K, ({ fmR with data := fmR.data.set ti (.num g) } : FeatureMatrix K) =
      { fm with data := fm.data.set ti (.num g) } := by
    intro g; rw [hR]; simp only [List.set_set]
  obtain ⟨v', hb⟩ : ∃ v', GradBoost.boost parse ⟨withValues f n v, .fin lr, mean⟩
      ((vs.filter fun v => v.node.isLeaf).map (·.cases)) ((vs.filter fun v => v.node.isLeaf).map (·.node.predOf)) =
      some (⟨withValues f n v', .fin lr, mean⟩, .fin lr) := ⟨_, boost_withValues parse f lr mean _ _ (.fin lr) (by simp) hgood v⟩
  refine ⟨v', ?_, fun h => absurd h hpr⟩
  rw [← hR, GradBoost.round]
  simp only
  rw [hpart]
  simp only [Option.bind_eq_bind, Option.bind_some]
  rw [hb]
  simp only [Option.bind_some, hset]

/-! ## Files of trees grown in different ways -/

/-- Trees that can be written and vote by their splitters as by their codes: the file votes as they do. -/
theorem written_forest {fm : FeatureMatrix K} {all : List Nat} {nt : NumText K} (hall : fm.allCases = some all)
    (hnt : ∀ x, nt.Faithful x) {ord : Splitter K → List String} (hord : ∀ s : Splitter K, (ord s).Perm s.left) {target : String}
    (intercept : Option (XF K)) {trees : List (Tree K)} (hne : trees ≠ []) (hf : Plain target.toList)
    (hg : ∀ t ∈ trees, t.target = target ∧ t.root.Writable nt ∧ t.root.NoMissing ∧ Usable fm all t.root ∧ CodesDecoded fm t.root)
    (progress : Bool) :
    ∃ text f', growforestFile nt ord progress target intercept trees = some text ∧
      readForest nt text = some ⟨some f', .ok, []⟩ ∧
      f'.target = target ∧ f'.intercept = intercept.getD (.fin 0) ∧
      (∀ o, applyForest nt o f' fm = applyForest nt o ⟨target, trees, intercept.getD (.fin 0)⟩ fm) ∧
      ∀ o fm2, applyForest nt o f' fm2 = applyForest nt o ⟨target, trees.map Tree.named, intercept.getD (.fin 0)⟩ fm2 := by
  have hw : ∀ t ∈ trees, t.Writable nt := by
    intro t h
    obtain ⟨h1, h2, h3, h4, h5⟩ := hg t h
    refine ⟨h2, ?_, by rw [h1]; exact hf, fun _ => hnt _⟩
    cases e : t.root with
    | nil => rw [e] at h4; exact h4.elim
    | mk _ _ _ _ _ _ _ => rfl
  have hnamed : ∀ t ∈ trees, ∀ fm2, (backTree ord t).vote fm2 = t.named.vote fm2 := by
    intro t h fm2
    obtain ⟨h1, h2, h3, h4, h5⟩ := hg t h
    unfold Tree.vote
    cases fm2.allCases with
    | none => rfl
    | some cs =>
      have hb : (backTree ord t).voteCases fm2 cs = Tree.voteCases { t with root := t.root.stripCodes } fm2 cs := by
        rw [← voteCases_same t (backTree ord t) (backTree_same hord (hw t h) h3) fm2 cs]
        congr 1
        show _ = Tree.mk (back ord t.root).stripCodes _ _
        rw [back_strip]
        rfl
      simp only [Option.bind_eq_bind, Option.bind_some]
      rw [hb]
      rfl
  have hvote : ∀ t ∈ trees, (backTree ord t).vote fm = t.vote fm := by
    intro t h
    obtain ⟨h1, h2, h3, h4, h5⟩ := hg t h
    rw [hnamed t h fm]
    unfold Tree.vote
    rw [hall]
    simp only [Option.bind_eq_bind, Option.bind_some]
    rw [show t.named.voteCases fm all = t.voteCases fm all from c02_stripCodes t fm all h4 h5]
  obtain ⟨text, h1, h2⟩ := readForest_growforestFile hord progress target intercept trees
    (fun t h => ⟨hw t h, (hg t h).1⟩) hne hf fun y _ => hnt y
  have key : ∀ (F : Tree K → Tree K) (fm2 : FeatureMatrix K) (ts : List (Tree K)), (∀ t ∈ ts, (backTree ord t).vote fm2 = (F t).vote fm2) →
      ∀ bb : Box K, (ts.map (backTree ord)).foldlM (fun (bb : Box K) t => do
        let votes ← t.vote fm2
        bb.castVotes nt votes) bb = (ts.map F).foldlM (fun (bb : Box K) t => do
        let votes ← t.vote fm2
        bb.castVotes nt votes) bb := by
    intro F fm2 ts
    induction ts with
    | nil => intro _ bb; rfl
    | cons t ts ih =>
      intro hv bb
      simp only [List.map_cons, List.foldlM_cons, hv t List.mem_cons_self]
      congr 1
      funext bb'
      exact ih (fun t h => hv t (List.mem_cons_of_mem _ h)) bb'
  refine ⟨text, _, h1, h2, rfl, rfl, fun o => ?_, fun o fm2 => ?_⟩
  · unfold applyForest
    simp only
    congr 1
    funext f0
    have := key id fm trees hvote (chooseBox o target f0.length)
    rw [List.map_id] at this
    exact this
  · unfold applyForest
    simp only
    congr 1
    funext f0
    exact key Tree.named fm2 trees (fun t h => hnamed t h fm2) (chooseBox o target f0.length)

theorem codesDecoded_avoids (fm : FeatureMatrix K) (ti : Nat) (F : Feature K) (n : Node K)
    (h : n.Avoids fm ti) (hu : CodesDecoded { fm with data := fm.data.set ti F } n) : CodesDecoded fm n := by
  induction n with
  | nil => trivial
  | mk coded fi l r m pred spl ihl ihr ihm =>
    obtain ⟨h1, h2, hl, hr, hm⟩ := h
    obtain ⟨d1, d2, d3, d4⟩ := hu
    refine ⟨fun code hc => ?_, ihl hl d2, ihr hr d3, ihm hm d4⟩
    obtain ⟨f, s, e1, e2, e3, e4, e5⟩ := d1 code hc
    rw [List.getElem?_set_ne (Ne.symm (h1 (by rw [hc]; simp)))] at e1
    rw [featureOf_set (h2 s e2)] at e5
    exact ⟨f, s, e1, e2, e3, e4, e5⟩

/-! ## One tree -/

theorem gradLaws_total3 (f : NumFeature K) (cases : List Nat) (h : f.Finite cases) : (gradLaws f cases h).Total3 := by
  rintro a l r m - hcs
  show ∃ x a', (gradTarget f).splitImpurity a l r (some m) = some (x, a') ∧ True
  simp only [gradTarget]
  rw [sum_eq f l (fun c hc => h c (hcs c (by simp [hc]))), sum_eq f r (fun c hc => h c (hcs c (by simp [hc])))]
  exact ⟨_, _, rfl, trivial⟩

/-- The table with residuals in place of the target. -/
def residualMatrix (fm : FeatureMatrix K) (ti : Nat) (f : NumFeature K) (n : Nat) (v : Nat → K) : FeatureMatrix K :=
  { fm with data := fm.data.set ti (.num (withValues f n v)) }

theorem boost_ready {nt : NumText K} {fm : FeatureMatrix K} {a : GrowArgs} {f : NumFeature K} {ti : Nat} {b : Blacklist}
    (hP : Prepared fm a (.num f) ti b) {m l s : Nat} (hm : m ≤ (allowedFeatures fm a.blacklist a.target a.block a.incl).length)
    (hl : 1 ≤ l) {order : List Nat → List Nat} (horder : ∀ bag, (order bag).Perm bag) (draws : Nat) {n : Nat}
    (hn : fm.caseLabels.length = n) (hn0 : 0 < n) (v : Nat → K) :
    ∃ (L : TargetLaws (a.boostRun nt m l s draws order (residualMatrix fm ti f n v) (withValues f n v)).T
        (a.boostRun nt m l s draws order (residualMatrix fm ti f n v) (withValues f n v)).all) (good : NumFeature K → Prop),
      (a.boostRun nt m l s draws order (residualMatrix fm ti f n v) (withValues f n v)).Ok L good (candidates fm ti b.marks) ∧
      L.Ok = fun _ => True := by
  subst hn
  obtain ⟨n, hn⟩ : ∃ n, n = fm.caseLabels.length := ⟨_, rfl⟩
  have hfin : (withValues f n v).Finite (List.range (withValues f n v).missing.length) := fun c hcc =>
    ⟨_, finList_get v (by simpa [withValues] using hcc)⟩
  have hfin' : (withValues f n v).Finite (List.range n) := fun c hcc => ⟨_, finList_get v (List.mem_range.1 hcc)⟩
  have hall : List.range (withValues f n v).missing.length = List.range n := by simp [withValues]
  have hmem : ∀ F ∈ (residualMatrix fm ti f n v).data, F ∈ fm.data ∨ F = .num (withValues f n v) := fun F hF =>
    List.mem_or_eq_of_mem_set hF
  have hnew : FeatOk (.num (withValues f n v)) (List.range n) := by
    refine ⟨fun c hcc => ?_, fun c hcc => ?_, fun c hcc => ?_⟩
    · have := List.mem_range.1 hcc
      exact ⟨by simpa [withValues] using this, by simpa [withValues] using this⟩
    · simp only [Feature.isMissing, withValues, List.getElem?_replicate] at hcc
      split at hcc <;> cases hcc
    · exact hfin' c (List.mem_of_mem_filter hcc)
  have hfeats : ∀ F ∈ (residualMatrix fm ti f n v).data, FeatOk F (List.range n) := by
    intro F hF
    rcases hmem F hF with h | rfl
    · rw [hn]; exact hP.feats F h
    · exact hnew
  rw [← hn]
  have hlen : (withValues f n v).missing.length = (withValues f n v).numData.length := by simp [withValues]
  refine ⟨gradLaws (withValues f n v) _ hfin, fun g => g.Finite (List.range (withValues f n v).missing.length) ∧
    g.missing.length = g.numData.length, ⟨?_, ?_, ?_, ?_, horder⟩, rfl⟩
  · show (residualMatrix fm ti f n v).allCases = some (List.range (withValues f n v).missing.length)
    rw [hall, residualMatrix, allCases_set fm ti _ _ hP.target (by
      rw [hP.length, ← hn]
      simp [Feature.length, withValues]), hn]
    exact hP.cases
  · show MatrixOk (residualMatrix fm ti f n v) (List.range (withValues f n v).missing.length)
    rw [hall]
    refine ⟨fun F hF => (hfeats F hF).valid, fun F hF => (hfeats F hF).sound, ?_, ?_⟩
    · intro F hF
      rcases hmem F hF with h | rfl
      · exact hP.matrix.catwf F h
      · trivial
    · intro i F hF
      simp only [residualMatrix, List.getElem?_set] at hF
      split at hF
      · next e =>
        subst e
        split at hF
        · cases hF
          exact hP.matrix.named ti (.num f) hP.target
        · cases hF
      · exact hP.matrix.named i F hF
  · have hC := numContrast_any (withValues f n v) _ hfin hlen (gradLaws (withValues f n v) _ hfin) rfl
    exact
    { feats := fun g hg => by
        show FeatOk g (List.range (withValues f n v).missing.length)
        rw [hall]
        exact hfeats g hg
      total3 := fun _ => gradLaws_total3 _ _ _
      contrast := fun _ => hC
      start := hC.start
      leafSize := hl
      exist := fun i hi => by
        show i < (fm.data.set ti _).length
        rw [List.length_set]
        exact hP.exist i hi
      mTry := by rw [hP.cans]; exact hm
      oobs := by simp }
  · show (if a.nobag then Bagging.nobag else .plain).Fit (List.replicate n false)
    split
    · trivial
    · show 0 < (List.replicate n false).length
      rw [List.length_replicate, hn]
      exact hn0

/-- The worker between trees, whatever the residuals. -/
structure BoostWorker (a : GrowArgs) (s n : Nat) (cans : List Nat) (w : WorkerState K) : Prop where
  root : w.root ≠ .nil
  branches : noMissing w.root
  cans : w.st.cans.Perm cans
  oob : ∀ c ∈ w.st.oob, c < n
  cases : a.nobag = true → w.cases.Nodup ∧ (∀ c ∈ w.cases, c < n) ∧ (s = n → w.cases.length = n)

/-- What should hold of a tree with its bag, grown from the numbers `v`. -/
structure BoostedTree (nt : NumText K) (fm : FeatureMatrix K) (a : GrowArgs) (s n ti : Nat) (v : Nat → K) (x : Tree K × List Nat) : Prop where
  target : x.1.target = a.target
  length : x.2.length = if a.nobag then min s n else s
  nodup : a.nobag = true → x.2.Nodup
  range : ∀ c ∈ x.2, c < n
  usable : Usable fm (List.range n) (prune x.1.root)
  avoids : (prune x.1.root).Avoids fm ti
  writable : (prune x.1.root).Writable nt
  noMissing : (prune x.1.root).NoMissing
  codes : CodesDecoded fm (prune x.1.root)
  answers : x.2 ≠ [] → ∀ c < n, AnswersBy fm (fun S p => S ≠ [] ∧ p = String.ofList (nt.fmt (.fin (meanBy v S)))) (voterOf x) c
  leaves : x.2 ≠ [] → ∀ y ∈ leavesOf (prune x.1.root), ∃ S,
    S.Perm (x.2.filter fun d => (landing fm (prune x.1.root) d).map (·.1) == some y.1) ∧ S ≠ [] ∧
    y.2 = String.ofList (nt.fmt (.fin (meanBy v S)))
  names : ∀ s ∈ (prune x.1.root).splitNames, ∃ b i g, chooseFeatures fm a.blacklist a.target a.block a.incl = some (ti, b) ∧
    i ∈ candidates fm ti b.marks ∧ fm.data[i]? = some g ∧ g.name = s

theorem boost_step {nt : NumText K} (hnt : ∀ x, nt.Faithful x) {fm : FeatureMatrix K} {a : GrowArgs} {f : NumFeature K} {ti : Nat}
    {b : Blacklist} (hP : Prepared fm a (.num f) ti b) (htidy : ∀ g ∈ fm.data, g.Tidy)
    {m l s : Nat} (hm : m ≤ (allowedFeatures fm a.blacklist a.target a.block a.incl).length)
    (hl : 1 ≤ l) {order : List Nat → List Nat} (horder : ∀ bag, (order bag).Perm bag) (draws : Nat) {n : Nat}
    (hn : fm.caseLabels.length = n) (hn0 : 0 < n) (hvet : ¬ (a.vet = true ∧ a.evaloob = true)) (v : Nat → K) {w : WorkerState K}
    (hw : BoostWorker a s n (candidates fm ti b.marks) w) :
    let r := a.boostRun nt m l s draws order (residualMatrix fm ti f n v) (withValues f n v)
    (r.tree r.grower w = none → a.nobag = false ∧
      ∃ rng, bagLoop ((List.replicate n false)[·]?) n s draws [] rng = none) ∧
    ∀ x w', r.tree r.grower w = some (x, w') → BoostWorker a s n (candidates fm ti b.marks) w' ∧
      BoostedTree nt fm a s n ti v x ∧ (w.root = .fresh → prune x.1.root = x.1.root) := by
  intro r
  obtain ⟨L, good, hr, hL⟩ := boost_ready (nt := nt) (s := s) hP hm hl horder draws hn hn0 v
  have hmiss : r.missing = List.replicate n false := rfl
  have hall : r.all = List.range n := by
    show List.range (List.replicate n false).length = _
    rw [List.length_replicate]
  have hget : ∀ c, r.missing[c]? = some false ↔ c < n := by
    intro c
    rw [hmiss, List.getElem?_replicate]
    by_cases h : c < n <;> simp [h]
  have hwk : WorkerOk r L (candidates fm ti b.marks) w := by
    refine ⟨hw.root, .inr hw.branches, by rw [hL]; trivial, hw.cans, fun c hc => by rw [hall]; exact List.mem_range.2 (hw.oob c hc), ?_⟩
    intro h
    have hnb : a.nobag = true := by
      have h : (if a.nobag then Bagging.nobag else .plain).isNobag = true := h
      cases e : a.nobag with
      | true => rfl
      | false => rw [e] at h; cases h
    obtain ⟨h1, h2, -⟩ := hw.cases hnb
    exact ⟨h1, fun c hc => (hget c).2 (h2 c hc)⟩
  obtain ⟨t1, t2, t3⟩ := tree_ok hr hwk
  have hg := t3 hvet
  refine ⟨fun h => ?_, fun x w' h => ?_⟩
  · obtain ⟨rng, h1, h2⟩ := t1 (hg.symm.trans h)
    have h1 : (if a.nobag then Bagging.nobag else .plain) = .plain := h1
    refine ⟨?_, rng, ?_⟩
    · cases e : a.nobag with
      | false => rfl
      | true => rw [e] at h1; cases h1
    · have h2 : bagLoop ((List.replicate n false)[·]?) (List.replicate n false).length s draws [] rng = none := h2
      rw [List.length_replicate] at h2
      exact h2
  · obtain ⟨w1, r1⟩ := t2 x w' (hg.symm.trans h)
    have hx := h
    simp only [RunSetup.tree, Option.bind_eq_bind] at hx
    obtain ⟨⟨bag, rng⟩, hd, hx⟩ := Option.bind_eq_some_iff.1 hx
    obtain ⟨oob, ho, hx⟩ := Option.bind_eq_some_iff.1 hx
    obtain ⟨⟨root, st⟩, hgr, hx⟩ := Option.bind_eq_some_iff.1 hx
    cases hx
    have hdraw : bag.length = (if a.nobag then min s n else s) ∧ (a.nobag = true → bag.Nodup) ∧ ∀ c ∈ bag, c < n := by
      obtain ⟨d1, d2, d3⟩ := drawBag_sound hr.fit hwk.cases hd
      have d1 : bag.length ≤ s ∧ ((if a.nobag then Bagging.nobag else .plain).isNobag = false → bag.length = s) := d1
      have d3 : (if a.nobag then Bagging.nobag else .plain).isNobag = true → bag.Nodup := d3
      have hd : drawBag (if a.nobag then Bagging.nobag else .plain) (List.replicate n false) s draws w.cases w.rng = some (bag, rng) := hd
      refine ⟨?_, fun hnb => d3 (by rw [hnb]; rfl), fun c hc => (hget c).1 (d2 c hc)⟩
      cases hnb : a.nobag with
      | false => exact d1.2 (by rw [hnb]; rfl)
      | true =>
        rw [hnb] at hd
        have hd : nobagTree ((List.replicate n false)[·]?) (List.replicate n false).length s w.cases w.rng = some (bag, rng) := hd
        by_cases hsn : s = n
        · rw [nobagTree, if_neg (by simpa using hsn)] at hd
          cases hd
          rw [(hw.cases hnb).2.2 hsn, hsn]
          simp
        · obtain ⟨out, rng', e1, e2, -⟩ := c103_some_partial (List.replicate n false) w.rng s (by simpa using hsn) w.cases
          rw [hd] at e1
          cases e1
          have hk : (bagKnown (List.replicate n false)).length = n := by
            unfold bagKnown
            rw [List.filter_eq_self.2, List.length_range, List.length_replicate]
            intro c hc
            have hc : c < n := by simpa using hc
            simp [hc]
          rw [e2, hk]
          rfl
    obtain ⟨c1, c2, c3, c4, st0, st1, c5, c6, c7, c8⟩ := r1
    simp only at c3 c4 c8
    have hcases : ∀ c ∈ bag, c ∈ r.all := fun c h => r.mem_all (c4 c h)
    -- the tree
    obtain ⟨a1, a2, -⟩ := treeGrower_search_any hr.setting r.findPredicted r.maxDepth r.splitmissing
    have hgrown := (grow_grown hr.matrix a1 _ 0 "" _ bag 0 0 _ _ ⟨c5, c6, c7⟩ (Nat.zero_le _) hcases c8).2 false
    have hav : (prune root).Avoids fm ti := by
      obtain ⟨b1, -, -⟩ := treeGrower_searchOk (fp := r.findPredicted) (md := r.maxDepth) (sm := r.splitmissing)
        (⟨hr.setting.feats, hr.setting.total3, hr.setting.contrast, hr.setting.start, hr.setting.leafSize, hr.setting.exist,
          hr.setting.mTry, c7⟩ : SplitSetting L r.fm r.C good r.o (candidates fm ti b.marks) st0.oob)
      have := (grow_grown hr.matrix b1 _ 0 "" _ bag 0 0 _ _ ⟨c5, c6, List.Perm.refl _⟩ (Nat.zero_le _) hcases c8).2 false
      refine avoids_set fm ti _ _ (this.avoids hr.matrix.named (fun h => ?_))
      simp [candidates] at h
    have hu : Usable r.fm r.all (prune root) := (hgrown.usable hr.matrix).resolve_left hgrown.not_nil
    have hnm : (prune root).NoMissing := grow_noMissing (g := r.freeGrower) rfl _ 0 "" _ _ 0 0 _ _ c8
    have hpl : ∀ cs, Plain (r.findPredicted cs).toList := by
      intro cs
      show Plain (((withValues f n v).findPredicted nt cs).getD "").toList
      cases hfp : (withValues f n v).findPredicted nt cs with
      | none => exact plain_empty
      | some p =>
        unfold NumFeature.findPredicted at hfp
        obtain ⟨m, -, hb⟩ := Option.bind_eq_some_iff.1 hfp
        cases hb
        rw [Option.getD_some, String.toList_ofList]
        exact (hnt m).1
    have htidyR : ∀ g ∈ r.fm.data, g.Tidy := by
      intro g hg
      rcases List.mem_or_eq_of_mem_set (show g ∈ fm.data.set ti (.num (withValues f n v)) from hg) with h | rfl
      · exact htidy g h
      · exact htidy (.num f) (List.mem_of_getElem? hP.target)
    have huf : Usable fm (List.range n) (prune root) := usable_avoids fm ti _ _ _ hav (by rw [hall] at hu; exact hu)
    have hland : ∀ c, landing r.fm (prune root) c = landing fm (prune root) c := fun c => landing_avoids fm ti _ _ hav c
    have hfin : (withValues f n v).Finite (List.range n) := fun c hcc => ⟨_, finList_get v (List.mem_range.1 hcc)⟩
    obtain ⟨-, hvot⟩ := recorded_voters hr rfl (out := [(⟨root, r.target, .fin (-1)⟩, bag)]) (by
      intro x hx
      rw [List.mem_singleton.1 hx]
      exact ⟨rfl, rfl, c3, c4, st0, st1, c5, c6, c7, c8⟩)
    obtain ⟨-, -, -, hleaves⟩ := recorded_leaves hr rfl (out := [(⟨root, r.target, .fin (-1)⟩, bag)]) (by
      intro x hx
      rw [List.mem_singleton.1 hx]
      exact ⟨rfl, rfl, c3, c4, st0, st1, c5, c6, c7, c8⟩) _ (by rw [List.map_cons]; exact List.mem_cons_self)
    have hval : ∀ d < n, (withValues f n v).value d = v d := fun d hd => by
      unfold NumFeature.value
      rw [show (withValues f n v).numData[d]? = some (.fin (v d)) from finList_get v hd]
    have hfp : ∀ S : List Nat, (∀ d ∈ S, d < n) → S ≠ [] → r.findPredicted S = String.ofList (nt.fmt (.fin (meanBy v S))) := by
      intro S hSn hne
      have hk : knownOf (withValues f n v).missing S = S := by
        unfold knownOf
        rw [List.filter_eq_self]
        intro d hd
        simp [withValues, hSn d hd]
      have hme := mean_eq (withValues f n v) S (fun d hd => by simpa [withValues] using hSn d hd)
        (by simp [withValues]) (by rw [hk]; exact fun d hd => hfin d (List.mem_range.2 (hSn d hd))) (by rw [hk]; exact hne)
      rw [hk] at hme
      have hmv : (withValues f n v).meanOf S = meanBy v S := by
        unfold NumFeature.meanOf meanBy
        rw [List.map_congr_left fun d hd => hval d (hSn d hd)]
      show ((withValues f n v).findPredicted nt S).getD "" = _
      unfold NumFeature.findPredicted
      rw [hme, hmv]
      rfl
    have hnames : ∀ s ∈ (prune root).splitNames, ∃ b i g, chooseFeatures fm a.blacklist a.target a.block a.incl = some (ti, b) ∧
        i ∈ candidates fm ti b.marks ∧ fm.data[i]? = some g ∧ g.name = s := by
      refine (grow_names (P := fun st : SplitState K => st.cans.Perm (candidates fm ti b.marks)) (g := r.freeGrower) (fm := r.fm) (by
        intro st cs nc st' res hP' hb
        simp only [RunSetup.freeGrower, RunSetup.grower, treeGrower, Option.bind_eq_bind] at hb
        obtain ⟨d, hd, hb⟩ := Option.bind_eq_some_iff.1 hb
        cases hb
        obtain ⟨k1, k2⟩ := bestSplitter_keeps hd
        refine ⟨k1.trans hP', fun hne g hg => ?_⟩
        have hi := hP'.mem_iff.1 (k2 hne)
        refine ⟨b, _, g, hP.chosen, hi, ?_, rfl⟩
        have hg : (fm.data.set ti (.num (withValues f n v)))[d.fi]? = some g := hg
        rw [List.getElem?_set_ne] at hg
        · exact hg
        · rintro rfl
          simp [candidates] at hi) _ .fresh st0 bag 0 0 _ st1 c6 (by simp [Node.fresh, Node.splitNames]) c8).2
    obtain ⟨-, -, -, hans⟩ := hvot _ (by rw [List.map_cons]; exact List.mem_cons_self)
    refine ⟨⟨w1.root, ?_, w1.cans, fun c hc => ?_, fun hnb => ?_⟩, ⟨c1, hdraw.1, hdraw.2.1, hdraw.2.2, huf, hav,
      hgrown.writable hr.matrix a2 hr.setting.leafSize hnt htidyR hpl hcases, hnm,
      codesDecoded_avoids fm ti _ _ hav (hgrown.codesDecoded hr.matrix), ?_, ?_, hnames⟩, ?_⟩
    · rcases w1.branches with h | h
      · cases h
      · exact h
    · have := w1.oob c hc
      rw [hall] at this
      exact List.mem_range.1 this
    · have hp : (order bag).Perm bag := horder bag
      refine ⟨hp.nodup_iff.2 (hdraw.2.1 hnb), fun c hc => hdraw.2.2 c (hp.mem_iff.1 hc), fun hsn => ?_⟩
      show (order bag).length = n
      rw [hp.length_eq, hdraw.1, hnb, hsn]
      simp
    · intro hne c hc
      obtain ⟨e1, e2⟩ := hans c (by rw [hall]; exact List.mem_range.2 hc)
      have hop : ∀ c, (voterOf ((⟨root, r.target, .fin (-1)⟩, bag) : Tree K × List Nat)).1.opinion r.fm c =
          (voterOf ((⟨root, r.target, .fin (-1)⟩, bag) : Tree K × List Nat)).1.opinion fm c := fun c => by
        unfold Tree.opinion voterOf
        simp only [hland]
      have hnei : neighbours r.fm (voterOf ((⟨root, r.target, .fin (-1)⟩, bag) : Tree K × List Nat)).1 bag c =
          neighbours fm (voterOf ((⟨root, r.target, .fin (-1)⟩, bag) : Tree K × List Nat)).1 bag c := by
        unfold neighbours voterOf
        simp only [hland]
      unfold AnswersBy
      rw [hop] at e1 e2
      cases ho : (voterOf ((⟨root, r.target, .fin (-1)⟩, bag) : Tree K × List Nat)).1.opinion fm c with
      | none =>
        exact landing_none (List.mem_range.2 hc) huf (by simpa [voterOf, Tree.opinion] using ho)
      | some p =>
        obtain ⟨S, g1, g2, g3⟩ := e2 p ho
        have g1 : S.Perm (neighbours fm (voterOf ((⟨root, r.target, .fin (-1)⟩, bag) : Tree K × List Nat)).1 bag c) := hnei ▸ g1
        have hSn : ∀ d ∈ S, d < n := fun d hd => hdraw.2.2 d (List.mem_filter.1 (g1.mem_iff.1 hd)).1
        refine ⟨fun h0 => g3 hne ?_, ?_⟩
        · have h0 : neighbours fm (voterOf ((⟨root, r.target, .fin (-1)⟩, bag) : Tree K × List Nat)).1 bag c = [] := h0
          rw [h0] at g1
          exact List.perm_nil.1 g1
        · rw [g2, hfp S hSn (g3 hne), meanBy, meanBy, g1.length_eq, (g1.map v).sum_eq]
          rfl
    · intro hne y hy
      obtain ⟨S, g1, g2, g3⟩ := hleaves y hy
      have g1 : S.Perm (bag.filter fun d => (landing fm (prune root) d).map (·.1) == some y.1) := by
        have g1 : S.Perm (bag.filter fun d => (landing r.fm (prune root) d).map (·.1) == some y.1) := g1
        simpa only [hland] using g1
      refine ⟨S, g1, g3 hne, ?_⟩
      rw [g2, hfp S (fun d hd => hdraw.2.2 d (List.mem_filter.1 (g1.mem_iff.1 hd)).1) (g3 hne)]
    · intro hf
      have hfree := hg.symm.trans h
      simp only [RunSetup.tree, Option.bind_eq_bind] at hfree
      obtain ⟨⟨bag', rng'⟩, hd', hx⟩ := Option.bind_eq_some_iff.1 hfree
      obtain ⟨oob', ho', hx⟩ := Option.bind_eq_some_iff.1 hx
      obtain ⟨⟨root', st'⟩, hgr', hx⟩ := Option.bind_eq_some_iff.1 hx
      cases hx
      rw [hf] at hgr'
      exact prune_grown hgr'

/-! ## All trees -/

theorem boostedSum_snoc (nt : NumText K) (fm : FeatureMatrix K) (start lr : K) (trees : List (Tree K)) (t : Tree K) (c : Nat) :
    boostedSum nt fm start lr (trees ++ [t]) c =
      boostedSum nt fm start lr trees c + lr * treeValue (fun p => nt.parse p.toList) fm t c := by
  unfold boostedSum
  rw [List.map_append, List.sum_append]
  simp only [List.map_cons, List.map_nil, List.sum_cons, List.sum_nil, add_zero]
  ring

/-- The numbers that a tree says are finite. -/
theorem BoostedTree.finite {nt : NumText K} (hnt : ∀ x, nt.Faithful x) {fm : FeatureMatrix K} {a : GrowArgs} {s n ti : Nat}
    {v : Nat → K} {x : Tree K × List Nat} (h : BoostedTree nt fm a s n ti v x) (hs : 1 ≤ s) (hn : 0 < n) :
    x.2 ≠ [] ∧ Tree.FiniteFor (fun p => nt.parse p.toList) fm n (voterOf x).1 := by
  have hne : x.2 ≠ [] := by
    apply List.ne_nil_of_length_pos
    rw [h.length]
    split <;> omega
  refine ⟨hne, fun i hi y hy z hz => ?_⟩
  have ha := h.answers hne i hi
  have ho : (voterOf x).1.opinion fm i = some y.2 := by
    unfold Tree.opinion
    rw [hy]
    rfl
  unfold AnswersBy at ha
  rw [ho] at ha
  have ha := ha.2
  have hz : nt.parse y.2.toList = some z := hz
  rw [ha, String.toList_ofList, (hnt _).2] at hz
  exact ⟨_, (Option.some.inj hz).symm⟩

theorem boostTrees_ok {nt : NumText K} (hnt : ∀ x, nt.Faithful x) {fm : FeatureMatrix K} {a : GrowArgs} {f : NumFeature K} {ti : Nat}
    {b : Blacklist} (hP : Prepared fm a (.num f) ti b) (htidy : ∀ g ∈ fm.data, g.Tidy)
    {m l s : Nat} (hm : m ≤ (allowedFeatures fm a.blacklist a.target a.block a.incl).length)
    (hl : 1 ≤ l) (hs : 1 ≤ s) {order : List Nat → List Nat} (horder : ∀ bag, (order bag).Perm bag) (draws : Nat) {n : Nat}
    (hn : fm.caseLabels.length = n) (hn0 : 0 < n) (hvet : ¬ (a.vet = true ∧ a.evaloob = true)) (y : Nat → K) (mean lr : K) :
    ∀ (left started : Nat) (v : Nat → K) (w : WorkerState K) (pre : List (Tree K)),
      BoostWorker a s n (candidates fm ti b.marks) w → (left ≤ 1 ∨ w.root = .fresh) → left + started ≤ max 1 a.nTrees + 1 →
      (a.dotest = true ∨ left ≤ 2) → (left = 0 ∨ v = fun d => y d - boostedSum nt fm mean lr pre d) →
      (a.boostTrees nt m l s draws order ti left started (residualMatrix fm ti f n v, ⟨withValues f n v, .fin lr, .fin mean⟩) w = none →
        a.nobag = false ∧ ∃ rng, bagLoop ((List.replicate n false)[·]?) n s draws [] rng = none) ∧
      ∀ out, a.boostTrees nt m l s draws order ti left started (residualMatrix fm ti f n v, ⟨withValues f n v, .fin lr, .fin mean⟩) w = some out →
        out.length = left ∧ ∀ (k : Nat) x, out[k]? = some x → x.1.weight = .fin lr ∧
          BoostedTree nt fm a s n ti (fun d => y d - boostedSum nt fm mean lr (pre ++ (out.take k).map fun x => (voterOf x).1) d) x := by
  intro left
  induction left with
  | zero =>
    intro started v w pre _ _ _ _ _
    rw [GrowArgs.boostTrees]
    refine ⟨fun h => (by cases h), fun out h => ?_⟩
    cases h
    exact ⟨rfl, fun k x h => by simp at h⟩
  | succ left ih =>
    intro started v w pre hw hroot hsum hdo hv
    have hv : v = fun d => y d - boostedSum nt fm mean lr pre d := hv.resolve_left (by omega)
    obtain ⟨s1, s2⟩ := boost_step hnt hP htidy hm hl horder draws hn hn0 hvet v hw
    rw [GrowArgs.boostTrees]
    simp only [Option.bind_eq_bind]
    cases ht : (a.boostRun nt m l s draws order (residualMatrix fm ti f n v) (withValues f n v)).tree
        (a.boostRun nt m l s draws order (residualMatrix fm ti f n v) (withValues f n v)).grower w with
    | none => exact ⟨fun _ => s1 ht, fun out h => by cases h⟩
    | some z =>
      obtain ⟨x, w'⟩ := z
      obtain ⟨hw', hx, hfresh⟩ := s2 x w' ht
      obtain ⟨hne, hfin⟩ := hx.finite hnt hs hn0
      obtain ⟨v', hround, hv'⟩ := round_reused (fun p => nt.parse p.toList) fm ti n f lr (.fin mean) v x.1 hP.target
        (by rw [← hn]; exact hP.cases) (by rw [← hn]; exact hP.length) hx.usable hx.avoids hfin
      simp only [Option.bind_some]
      rw [show GradBoost.round (fun p => nt.parse p.toList) ti (residualMatrix fm ti f n v, ⟨withValues f n v, .fin lr, .fin mean⟩) x.1 =
        some ((residualMatrix fm ti f n v', ⟨withValues f n v', .fin lr, .fin mean⟩), { x.1 with weight := .fin lr }) from hround]
      simp only [Option.bind_some]
      have hwn : BoostWorker a s n (candidates fm ti b.marks)
          (if a.dotest && decide (started + 1 < a.nTrees) then { w' with root := .fresh } else w') := by
        split
        · exact ⟨by simp [Node.fresh], ⟨rfl, trivial, trivial⟩, hw'.cans, hw'.oob, hw'.cases⟩
        · exact hw'
      have hrn : left ≤ 1 ∨ (if a.dotest && decide (started + 1 < a.nTrees) then { w' with root := .fresh } else w').root = .fresh := by
        by_cases h1 : left ≤ 1
        · exact .inl h1
        · have hd : a.dotest = true := hdo.resolve_right (by omega)
          have : started + 1 < a.nTrees := by omega
          refine .inr ?_
          simp [hd, this]
      obtain ⟨i1, i2⟩ := ih (started + 1) v' (if a.dotest && decide (started + 1 < a.nTrees) then { w' with root := .fresh } else w')
        (pre ++ [(voterOf (({ x.1 with weight := .fin lr } : Tree K), x.2)).1]) hwn hrn (by omega) (hdo.imp_right fun h => by omega) (by
          rcases hroot with h | h
          · exact .inl (by omega)
          · refine .inr (funext fun d => ?_)
            have hp := hfresh h
            rw [hv' hp d, hv, boostedSum_snoc]
            have : treeValue (fun p => nt.parse p.toList) fm (voterOf (({ x.1 with weight := .fin lr } : Tree K), x.2)).1 d = treeValue (fun p => nt.parse p.toList) fm x.1 d := by
              unfold treeValue voterOf
              simp only [hp]
            rw [this]
            ring)
      cases hrest : a.boostTrees nt m l s draws order ti left (started + 1)
          (residualMatrix fm ti f n v', ⟨withValues f n v', .fin lr, .fin mean⟩)
          (if a.dotest && decide (started + 1 < a.nTrees) then { w' with root := .fresh } else w') with
      | none => exact ⟨fun _ => i1 hrest, fun out h => by cases h⟩
      | some rest =>
        refine ⟨fun h => (by cases h), fun out h => ?_⟩
        cases h
        obtain ⟨j1, j2⟩ := i2 rest hrest
        refine ⟨by simp [j1], fun k z hz => ?_⟩
        cases k with
        | zero =>
          cases hz
          refine ⟨rfl, ?_⟩
          rw [List.take_zero, List.map_nil, List.append_nil, ← hv]
          exact ⟨hx.target, hx.length, hx.nodup, hx.range, hx.usable, hx.avoids, hx.writable, hx.noMissing, hx.codes, hx.answers, hx.leaves, hx.names⟩
        | succ k =>
          rw [List.getElem?_cons_succ] at hz
          have := j2 k z hz
          rw [List.append_assoc] at this
          exact this

end CloudForest
