import Verif.Spec.ClassBoostCommand
import Verif.Model.ClassBoostCommand
import Verif.Lemmas.BoostCommand
import Verif.Lemmas.ClassBoost
import Verif.Props.ClassBoost

/-!
# Lemmas for boosting of two classes, from the data file to predictions
-/

set_option linter.unusedSectionVars false

namespace CloudForest
variable {K : Type} [Field K] [LinearOrder K] [IsStrictOrderedRing K]

theorem probabilityOf_eq (T : K → K) (x : K) : expitOf T x = probabilityOf T x := by
  unfold expitOf probabilityOf
  rw [show 1 / 2 * x = x / 2 by ring]
  ring

theorem probabilityOf_bounds {T : K → K} (hT : ∀ x, -1 < T x ∧ T x < 1) (x : K) : 0 < probabilityOf T x ∧ probabilityOf T x < 1 := by
  obtain ⟨h1, h2⟩ := hT (x / 2)
  unfold probabilityOf
  constructor <;> linarith

/-- What the leaves of a tree predict, of which something may hang below its leaves. -/
theorem partition_reused (parse : String → Option (XF K)) (fm : FeatureMatrix K) (n : Nat) (t : Tree K)
    (hc : fm.allCases = some (List.range n)) (hu : Usable fm (List.range n) (prune t.root))
    (hp : Tree.FiniteFor parse fm n { t with root := prune t.root }) :
    ∃ groups preds, t.partition fm = some (groups, preds) ∧ groups.length = preds.length ∧
      (∀ g ∈ groups.zip preds, (∀ c ∈ g.1, c < n) ∧ (g.1 ≠ [] → ∀ y, parse g.2 = some y → ∃ z, y = .fin z)) ∧
      (prune t.root = t.root → ∀ i < n, votedSum parse ((groups.zip preds).flatMap fun g => g.1.map fun c => ⟨c, g.2, t.voteWeight⟩) i =
        treeValue parse fm t i) := by
  by_cases hpr : prune t.root = t.root
  · rw [hpr] at hu hp
    obtain ⟨groups, preds, votes, h1, -, h3, h4, h5, h6⟩ := tree_votes parse fm n t hc hu hp
    exact ⟨groups, preds, h1, h4, h5, fun _ i hi => by rw [← h3]; exact h6 i hi⟩
  obtain ⟨groups, preds, votes, h1, -, h3, h4, h5, h6⟩ := tree_votes parse fm n { t with root := prune t.root } hc hu hp
  unfold Tree.partition at h1
  rw [hc] at h1
  simp only [Option.bind_eq_bind, Option.bind_some] at h1
  obtain ⟨⟨pv, pcs⟩, e1, h1⟩ := Option.bind_eq_some_iff.1 h1
  rw [recurse_prune] at e1
  obtain ⟨⟨vs, vcs⟩, e2, e3⟩ := Option.map_eq_some_iff.1 e1
  simp only [Prod.mk.injEq] at e3
  obtain ⟨rfl, rfl⟩ := e3
  simp only [Option.some.injEq, Prod.mk.injEq] at h1
  obtain ⟨rfl, rfl⟩ := h1
  have hzip : ∀ (l : List (Visit K)), (l.map (·.cases)).zip (l.map (·.node.predOf)) = l.map fun v => (v.cases, v.node.predOf) := by
    intro l
    induction l with
    | nil => rfl
    | cons a l ih => simp [ih]
  refine ⟨(vs.filter fun v => v.node.isLeaf).map (·.cases), (vs.filter fun v => v.node.isLeaf).map (·.node.predOf), ?_, by simp, ?_,
    fun h => absurd h hpr⟩
  · unfold Tree.partition
    rw [hc]
    simp only [Option.bind_eq_bind, Option.bind_some]
    rw [e2]
    rfl
  · intro g hg
    rw [hzip] at hg
    obtain ⟨w, hwm, rfl⟩ := List.mem_map.1 hg
    obtain ⟨hw1, hw2⟩ := List.mem_filter.1 hwm
    refine h5 (w.cases, w.node.predOf) ?_
    rw [hzip]
    refine List.mem_map.2 ⟨{ w with node := prune w.node }, List.mem_filter.2 ⟨List.mem_map.2 ⟨w, hw1, rfl⟩, prune_leaf hw2⟩, ?_⟩
    rw [prune_pred]

/-- The round after a tree. -/
theorem classRound_reused {tanh : XF K → XF K} {T : K → K} (hT : ∀ x, tanh (.fin x) = .fin (T x)) (parse : String → Option (XF K))
    (fm : FeatureMatrix K) (n : Nat) (fr fa fp : NumFeature K) (y v : Nat → K) (lr : K) (prior : XF K) (pos : String) (t : Tree K)
    (hc : fm.allCases = some (List.range n)) (hu : Usable fm (List.range n) (prune t.root))
    (hp : Tree.FiniteFor parse fm n { t with root := prune t.root }) :
    ∃ (groups : List (List Nat)) (preds : List String) (v' : Nat → K), t.partition fm = some (groups, preds) ∧
      (classState T fr fa fp n y v lr prior pos).boost tanh parse groups preds =
        some (classState T fr fa fp n y v' lr prior pos, .fin lr) ∧
      (prune t.root = t.root → ∀ i, v' i = v i + lr * treeValue parse fm t i) := by
  obtain ⟨groups, preds, h1, h2, h3, h4⟩ := partition_reused parse fm n t hc hu hp
  have hb := classBoost_eq hT parse fr fa fp y lr prior pos groups preds t.voteWeight h2 h3 v
  by_cases hpr : prune t.root = t.root
  · refine ⟨groups, preds, fun i => v i + lr * treeValue parse fm t i, h1, ?_, fun _ _ => rfl⟩
    rw [hb]
    congr 2
    unfold classState withValues
    have : ∀ i < n, v i + lr * votedSum parse ((groups.zip preds).flatMap fun g => g.1.map fun c => ⟨c, g.2, t.voteWeight⟩) i =
        v i + lr * treeValue parse fm t i := fun i hi => by rw [h4 hpr i hi]
    congr 2
    · apply finList_congr
      intro i hi
      exact congrArg (fun z => y i - expitOf T z) (this i hi)
    · exact finList_congr this
  · exact ⟨groups, preds, _, h1, hb, fun h => absurd h hpr⟩

/-! ## One tree -/

theorem classBoost_ready {nt : NumText K} {fm : FeatureMatrix K} {a : GrowArgs} {F : Feature K} {ti : Nat} {b : Blacklist}
    (hP : Prepared fm a F ti b) {m l s : Nat} (hm : m ≤ (allowedFeatures fm a.blacklist a.target a.block a.incl).length)
    (hl : 1 ≤ l) {order : List Nat → List Nat} (horder : ∀ bag, (order bag).Perm bag) (draws : Nat) {n : Nat}
    (hn : fm.caseLabels.length = n) {how : Bagging} (hfit : how.Fit (List.replicate n false)) (T : K → K) (fr fa fp : NumFeature K)
    (y v : Nat → K) (lr : K) (prior : XF K) (pos : String) :
    ∃ (L : TargetLaws (a.classBoostRun nt m l s draws order fm how (classState T fr fa fp n y v lr prior pos)).T
        (a.classBoostRun nt m l s draws order fm how (classState T fr fa fp n y v lr prior pos)).all) (good : NumFeature K → Prop),
      (a.classBoostRun nt m l s draws order fm how (classState T fr fa fp n y v lr prior pos)).Ok L good (candidates fm ti b.marks) ∧
      L.Ok = fun _ => True := by
  subst hn
  obtain ⟨n, hn⟩ : ∃ n, n = fm.caseLabels.length := ⟨_, rfl⟩
  rw [← hn] at hfit ⊢
  obtain ⟨u, hu⟩ : ∃ u : Nat → K, u = fun i => y i - expitOf T (v i) := ⟨_, rfl⟩
  have hres : (classState T fr fa fp n y v lr prior pos).res = withValues fr n u := by rw [hu]; rfl
  have hfin : (withValues fr n u).Finite (List.range (withValues fr n u).missing.length) := fun c hcc =>
    ⟨_, finList_get u (by simpa [withValues] using hcc)⟩
  have hall : List.range (withValues fr n u).missing.length = List.range n := by simp [withValues]
  have hlen : (withValues fr n u).missing.length = (withValues fr n u).numData.length := by simp [withValues]
  unfold GrowArgs.classBoostRun
  rw [hres]
  refine ⟨gradLaws (withValues fr n u) _ hfin, fun g => g.Finite (List.range (withValues fr n u).missing.length) ∧
    g.missing.length = g.numData.length, ⟨?_, ?_, ?_, hfit, horder⟩, rfl⟩
  · show fm.allCases = some (List.range (withValues fr n u).missing.length)
    rw [hall, hn]
    exact hP.cases
  · show MatrixOk fm (List.range (withValues fr n u).missing.length)
    rw [hall, hn]
    exact hP.matrix
  · have hC := numContrast_any (withValues fr n u) _ hfin hlen (gradLaws (withValues fr n u) _ hfin) rfl
    exact
    { feats := fun g hg => by
        show FeatOk g (List.range (withValues fr n u).missing.length)
        rw [hall, hn]
        exact hP.feats g hg
      total3 := fun _ => gradLaws_total3 _ _ _
      contrast := fun _ => hC
      start := hC.start
      leafSize := hl
      exist := hP.exist
      mTry := by rw [hP.cans]; exact hm
      oobs := by simp }

/-- What should hold of a tree with its bag that answers for its neighbours in the bag with the number `ans`. -/
structure AnsweringTree (nt : NumText K) (fm : FeatureMatrix K) (a : GrowArgs) (s n : Nat) (ans : List Nat → K) (x : Tree K × List Nat) : Prop where
  target : x.1.target = a.target
  length : x.2.length = if a.nobag then min s n else s
  nodup : a.nobag = true → x.2.Nodup
  range : ∀ c ∈ x.2, c < n
  usable : Usable fm (List.range n) (prune x.1.root)
  writable : (prune x.1.root).Writable nt
  noMissing : (prune x.1.root).NoMissing
  codes : CodesDecoded fm (prune x.1.root)
  answers : x.2 ≠ [] → ∀ c < n, AnswersBy fm (fun S p => S ≠ [] ∧ p = String.ofList (nt.fmt (.fin (ans S)))) (voterOf x) c
  leaves : x.2 ≠ [] → ∀ y ∈ leavesOf (prune x.1.root), ∃ S,
    S.Perm (x.2.filter fun d => (landing fm (prune x.1.root) d).map (·.1) == some y.1) ∧ S ≠ [] ∧
    y.2 = String.ofList (nt.fmt (.fin (ans S)))
  names : ∀ s ∈ (prune x.1.root).splitNames, ∃ ti b i g, chooseFeatures fm a.blacklist a.target a.block a.incl = some (ti, b) ∧
    i ∈ candidates fm ti b.marks ∧ fm.data[i]? = some g ∧ g.name = s

theorem newtonStep_perm (y p : Nat → K) {S S' : List Nat} (h : S.Perm S') : newtonStep y p S = newtonStep y p S' := by
  unfold newtonStep
  rw [(h.map _).sum_eq, (h.map fun d => p d * (1 - p d)).sum_eq]

theorem classFind_eq {T : K → K} (hT1 : ∀ x, -1 < T x ∧ T x < 1) (nt : NumText K) (fr fa fp : NumFeature K) {n : Nat} (y v : Nat → K) (lr : K)
    (prior : XF K) (pos : String) {S : List Nat} (hS : ∀ d ∈ S, d < n) (hne : S ≠ []) :
    (classState T fr fa fp n y v lr prior pos).findPredicted nt S =
      some (String.ofList (nt.fmt (.fin (newtonStep y (fun d => probabilityOf T (v d)) S)))) := by
  have e : (S.map fun c => (y c - (y c - expitOf T (v c))) * (1 - y c + (y c - expitOf T (v c)))).sum =
      (S.map fun d => probabilityOf T (v d) * (1 - probabilityOf T (v d))).sum := by
    congr 1
    refine List.map_congr_left fun c _ => ?_
    rw [probabilityOf_eq]
    ring
  have hpos : 0 < (S.map fun d => probabilityOf T (v d) * (1 - probabilityOf T (v d))).sum := by
    refine List.sum_pos _ (fun x hx => ?_) (by simpa using hne)
    obtain ⟨d, -, rfl⟩ := List.mem_map.1 hx
    obtain ⟨h1, h2⟩ := probabilityOf_bounds hT1 (v d)
    exact mul_pos h1 (sub_pos.2 h2)
  unfold ClassBoost.findPredicted
  rw [predicted_eq (classState T fr fa fp n y v lr prior pos) S y (fun d => y d - expitOf T (v d))
    (fun c hc => finList_get y (hS c hc)) (fun c hc => finList_get _ (hS c hc)) (by rw [e]; exact hpos.ne'), e]
  unfold newtonStep
  simp only [probabilityOf_eq]
  rfl

theorem classBoost_step {nt : NumText K} (hnt : ∀ x, nt.Faithful x) {fm : FeatureMatrix K} {a : GrowArgs} {F : Feature K} {ti : Nat}
    {b : Blacklist} (hP : Prepared fm a F ti b) (htidy : ∀ g ∈ fm.data, g.Tidy)
    {m l s : Nat} (hm : m ≤ (allowedFeatures fm a.blacklist a.target a.block a.incl).length)
    (hl : 1 ≤ l) {order : List Nat → List Nat} (horder : ∀ bag, (order bag).Perm bag) (draws : Nat) {n : Nat}
    (hn : fm.caseLabels.length = n) (hvet : ¬ (a.vet = true ∧ a.evaloob = true)) {how : Bagging}
    (hfit : how.Fit (List.replicate n false)) (hnob : how.isNobag = a.nobag)
    {T : K → K} (hT1 : ∀ x, -1 < T x ∧ T x < 1) (fr fa fp : NumFeature K)
    (y v : Nat → K) (lr : K) (prior : XF K) (pos : String) {w : WorkerState K}
    (hw : BoostWorker a s n (candidates fm ti b.marks) w) :
    let r := a.classBoostRun nt m l s draws order fm how (classState T fr fa fp n y v lr prior pos)
    (r.tree r.grower w = none → how = .plain ∧ ∃ rng, bagLoop ((List.replicate n false)[·]?) n s draws [] rng = none) ∧
    ∀ x w', r.tree r.grower w = some (x, w') → BoostWorker a s n (candidates fm ti b.marks) w' ∧
      AnsweringTree nt fm a s n (newtonStep y fun d => probabilityOf T (v d)) x ∧ (w.root = .fresh → prune x.1.root = x.1.root) := by
  intro r
  obtain ⟨L, good, hr, hL⟩ := classBoost_ready (nt := nt) (s := s) hP hm hl horder draws hn hfit T fr fa fp y v lr prior pos
  have hmiss : r.missing = List.replicate n false := rfl
  have hall : r.all = List.range n := by
    show List.range (List.replicate n false).length = _
    rw [List.length_replicate]
  have hget : ∀ c, r.missing[c]? = some false ↔ c < n := by
    intro c
    rw [hmiss, List.getElem?_replicate]
    by_cases h : c < n <;> simp [h]
  have hwk : WorkerOk r L (candidates fm ti b.marks) w := by
    refine ⟨hw.root, .inr hw.branches, by rw [hL]; trivial, hw.cans, fun c hc => by rw [hall]; exact List.mem_range.2 (hw.oob c hc), ?_⟩
    intro h
    have hnb : a.nobag = true := hnob ▸ h
    obtain ⟨h1, h2, -⟩ := hw.cases hnb
    exact ⟨h1, fun c hc => (hget c).2 (h2 c hc)⟩
  obtain ⟨t1, t2, t3⟩ := tree_ok hr hwk
  have hg := t3 hvet
  refine ⟨fun h => ?_, fun x w' h => ?_⟩
  · obtain ⟨rng, h1, h2⟩ := t1 (hg.symm.trans h)
    refine ⟨h1, rng, ?_⟩
    have h2 : bagLoop ((List.replicate n false)[·]?) (List.replicate n false).length s draws [] rng = none := h2
    rw [List.length_replicate] at h2
    exact h2
  · obtain ⟨w1, r1⟩ := t2 x w' (hg.symm.trans h)
    have hx := h
    simp only [RunSetup.tree, Option.bind_eq_bind] at hx
    obtain ⟨⟨bag, rng⟩, hd, hx⟩ := Option.bind_eq_some_iff.1 hx
    obtain ⟨oob, ho, hx⟩ := Option.bind_eq_some_iff.1 hx
    obtain ⟨⟨root, st⟩, hgr, hx⟩ := Option.bind_eq_some_iff.1 hx
    cases hx
    have hdraw : bag.length = (if a.nobag then min s n else s) ∧ (a.nobag = true → bag.Nodup) ∧ ∀ c ∈ bag, c < n := by
      obtain ⟨d1, d2, d3⟩ := drawBag_sound hr.fit hwk.cases hd
      have d1 : bag.length ≤ s ∧ (how.isNobag = false → bag.length = s) := d1
      have d3 : how.isNobag = true → bag.Nodup := d3
      have hd : drawBag how (List.replicate n false) s draws w.cases w.rng = some (bag, rng) := hd
      refine ⟨?_, fun hnb => d3 (hnob.trans hnb), fun c hc => (hget c).1 (d2 c hc)⟩
      cases hnb : a.nobag with
      | false => exact d1.2 (hnob.trans hnb)
      | true =>
        have hh : how = .nobag := by
          have := hnob.trans hnb
          cases how <;> first | rfl | cases this
        rw [hh] at hd
        have hd : nobagTree ((List.replicate n false)[·]?) (List.replicate n false).length s w.cases w.rng = some (bag, rng) := hd
        by_cases hsn : s = n
        · rw [nobagTree, if_neg (by simpa using hsn)] at hd
          cases hd
          rw [(hw.cases hnb).2.2 hsn, hsn]
          simp
        · obtain ⟨out, rng', e1, e2, -⟩ := c103_some_partial (List.replicate n false) w.rng s (by simpa using hsn) w.cases
          rw [hd] at e1
          cases e1
          have hk : (bagKnown (List.replicate n false)).length = n := by
            unfold bagKnown
            rw [List.filter_eq_self.2, List.length_range, List.length_replicate]
            intro c hc
            have hc : c < n := by simpa using hc
            simp [hc]
          rw [e2, hk]
          rfl
    obtain ⟨c1, c2, c3, c4, st0, st1, c5, c6, c7, c8⟩ := r1
    simp only at c3 c4 c8
    have hcases : ∀ c ∈ bag, c ∈ r.all := fun c h => r.mem_all (c4 c h)
    obtain ⟨a1, a2, -⟩ := treeGrower_search_any hr.setting r.findPredicted r.maxDepth r.splitmissing
    have hgrown := (grow_grown hr.matrix a1 _ 0 "" _ bag 0 0 _ _ ⟨c5, c6, c7⟩ (Nat.zero_le _) hcases c8).2 false
    have hu : Usable r.fm r.all (prune root) := (hgrown.usable hr.matrix).resolve_left hgrown.not_nil
    have hnm : (prune root).NoMissing := grow_noMissing (g := r.freeGrower) rfl _ 0 "" _ _ 0 0 _ _ c8
    have hpl : ∀ cs, Plain (r.findPredicted cs).toList := by
      intro cs
      show Plain (((classState T fr fa fp n y v lr prior pos).findPredicted nt cs).getD "").toList
      unfold ClassBoost.findPredicted
      cases hfp : (classState T fr fa fp n y v lr prior pos).predicted cs with
      | none => exact plain_empty
      | some z =>
        rw [Option.map_some, Option.getD_some, String.toList_ofList]
        exact (hnt z).1
    have huf : Usable fm (List.range n) (prune root) := by rw [hall] at hu; exact hu
    obtain ⟨-, hvot⟩ := recorded_voters hr rfl (out := [(⟨root, r.target, .fin (-1)⟩, bag)]) (by
      intro x hx
      rw [List.mem_singleton.1 hx]
      exact ⟨rfl, rfl, c3, c4, st0, st1, c5, c6, c7, c8⟩)
    obtain ⟨-, -, -, hleaves⟩ := recorded_leaves hr rfl (out := [(⟨root, r.target, .fin (-1)⟩, bag)]) (by
      intro x hx
      rw [List.mem_singleton.1 hx]
      exact ⟨rfl, rfl, c3, c4, st0, st1, c5, c6, c7, c8⟩) _ (by rw [List.map_cons]; exact List.mem_cons_self)
    have hnames : ∀ s ∈ (prune root).splitNames, ∃ ti b i g, chooseFeatures fm a.blacklist a.target a.block a.incl = some (ti, b) ∧
        i ∈ candidates fm ti b.marks ∧ fm.data[i]? = some g ∧ g.name = s := by
      refine (grow_names (P := fun st : SplitState K => st.cans.Perm (candidates fm ti b.marks)) (g := r.freeGrower) (fm := r.fm) (by
        intro st cs nc st' res hP' hb
        simp only [RunSetup.freeGrower, RunSetup.grower, treeGrower, Option.bind_eq_bind] at hb
        obtain ⟨d, hd, hb⟩ := Option.bind_eq_some_iff.1 hb
        cases hb
        obtain ⟨k1, k2⟩ := bestSplitter_keeps hd
        exact ⟨k1.trans hP', fun hne g hg => ⟨ti, b, _, g, hP.chosen, hP'.mem_iff.1 (k2 hne), hg, rfl⟩⟩)
        _ .fresh st0 bag 0 0 _ st1 c6 (by simp [Node.fresh, Node.splitNames]) c8).2
    obtain ⟨-, -, -, hans⟩ := hvot _ (by rw [List.map_cons]; exact List.mem_cons_self)
    refine ⟨⟨w1.root, ?_, w1.cans, fun c hc => ?_, fun hnb => ?_⟩, ⟨c1, hdraw.1, hdraw.2.1, hdraw.2.2, huf,
      hgrown.writable hr.matrix a2 hr.setting.leafSize hnt htidy hpl hcases, hnm,
      hgrown.codesDecoded hr.matrix, ?_, ?_, hnames⟩, ?_⟩
    · rcases w1.branches with h | h
      · cases h
      · exact h
    · have := w1.oob c hc
      rw [hall] at this
      exact List.mem_range.1 this
    · have hp : (order bag).Perm bag := horder bag
      refine ⟨hp.nodup_iff.2 (hdraw.2.1 hnb), fun c hc => hdraw.2.2 c (hp.mem_iff.1 hc), fun hsn => ?_⟩
      show (order bag).length = n
      rw [hp.length_eq, hdraw.1, hnb, hsn]
      simp
    · intro hne c hc
      obtain ⟨e1, e2⟩ := hans c (by rw [hall]; exact List.mem_range.2 hc)
      have e1 : (voterOf ((⟨root, r.target, .fin (-1)⟩, bag) : Tree K × List Nat)).1.opinion fm c = none →
        ∃ f ∈ fm.data, f.isMissing c = some true := e1
      have e2 : ∀ p, (voterOf ((⟨root, r.target, .fin (-1)⟩, bag) : Tree K × List Nat)).1.opinion fm c = some p → ∃ S : List Nat,
        S.Perm (neighbours fm (voterOf ((⟨root, r.target, .fin (-1)⟩, bag) : Tree K × List Nat)).1 bag c) ∧
        p = ((classState T fr fa fp n y v lr prior pos).findPredicted nt S).getD "" ∧ (bag ≠ [] → S ≠ []) := e2
      unfold AnswersBy
      cases ho : (voterOf ((⟨root, r.target, .fin (-1)⟩, bag) : Tree K × List Nat)).1.opinion fm c with
      | none => exact e1 ho
      | some p =>
        obtain ⟨S, g1, g2, g3⟩ := e2 p ho
        have hSn : ∀ d ∈ S, d < n := fun d hd => hdraw.2.2 d (List.mem_filter.1 (g1.mem_iff.1 hd)).1
        refine ⟨fun h0 => g3 hne ?_, ?_⟩
        · have h0 : neighbours fm (voterOf ((⟨root, r.target, .fin (-1)⟩, bag) : Tree K × List Nat)).1 bag c = [] := h0
          rw [h0] at g1
          exact List.perm_nil.1 g1
        · rw [g2, classFind_eq hT1 nt fr fa fp y v lr prior pos hSn (g3 hne), newtonStep_perm y _ g1]
          rfl
    · intro hne z hz
      obtain ⟨S, g1, g2, g3⟩ := hleaves z hz
      refine ⟨S, g1, g3 hne, ?_⟩
      rw [g2]
      show ((classState T fr fa fp n y v lr prior pos).findPredicted nt S).getD "" = _
      rw [classFind_eq hT1 nt fr fa fp y v lr prior pos (fun d hd => hdraw.2.2 d (List.mem_filter.1 (g1.mem_iff.1 hd)).1) (g3 hne)]
      rfl
    · intro hf
      have hfree := hg.symm.trans h
      simp only [RunSetup.tree, Option.bind_eq_bind] at hfree
      obtain ⟨⟨bag', rng'⟩, hd', hx⟩ := Option.bind_eq_some_iff.1 hfree
      obtain ⟨oob', ho', hx⟩ := Option.bind_eq_some_iff.1 hx
      obtain ⟨⟨root', st'⟩, hgr', hx⟩ := Option.bind_eq_some_iff.1 hx
      cases hx
      rw [hf] at hgr'
      exact prune_grown hgr'

/-! ## All trees -/

/-- The numbers that a tree says are finite. -/
theorem AnsweringTree.finite {nt : NumText K} (hnt : ∀ x, nt.Faithful x) {fm : FeatureMatrix K} {a : GrowArgs} {s n : Nat}
    {ans : List Nat → K} {x : Tree K × List Nat} (h : AnsweringTree nt fm a s n ans x) (hs : 1 ≤ s) (hn : 0 < n) :
    x.2 ≠ [] ∧ Tree.FiniteFor (fun p => nt.parse p.toList) fm n (voterOf x).1 := by
  have hne : x.2 ≠ [] := by
    apply List.ne_nil_of_length_pos
    rw [h.length]
    split <;> omega
  refine ⟨hne, fun i hi y hy z hz => ?_⟩
  have ha := h.answers hne i hi
  have ho : (voterOf x).1.opinion fm i = some y.2 := by
    unfold Tree.opinion
    rw [hy]
    rfl
  unfold AnswersBy at ha
  rw [ho] at ha
  have ha := ha.2
  have hz : nt.parse y.2.toList = some z := hz
  rw [ha, String.toList_ofList, (hnt _).2] at hz
  exact ⟨_, (Option.some.inj hz).symm⟩

theorem classBoostTrees_ok {nt : NumText K} (hnt : ∀ x, nt.Faithful x) {fm : FeatureMatrix K} {a : GrowArgs} {F : Feature K} {ti : Nat}
    {b : Blacklist} (hP : Prepared fm a F ti b) (htidy : ∀ g ∈ fm.data, g.Tidy)
    {m l s : Nat} (hm : m ≤ (allowedFeatures fm a.blacklist a.target a.block a.incl).length)
    (hl : 1 ≤ l) (hs : 1 ≤ s) {order : List Nat → List Nat} (horder : ∀ bag, (order bag).Perm bag) (draws : Nat) {n : Nat}
    (hn : fm.caseLabels.length = n) (hn0 : 0 < n) (hvet : ¬ (a.vet = true ∧ a.evaloob = true)) {how : Bagging}
    (hfit : how.Fit (List.replicate n false)) (hnob : how.isNobag = a.nobag) {tanh : XF K → XF K}
    {T : K → K} (hT : ∀ x, tanh (.fin x) = .fin (T x)) (hT1 : ∀ x, -1 < T x ∧ T x < 1) (fr fa fp : NumFeature K)
    (y : Nat → K) (lr q : K) (prior : XF K) (pos : String) :
    ∀ (left started : Nat) (v : Nat → K) (w : WorkerState K) (pre : List (Tree K)),
      BoostWorker a s n (candidates fm ti b.marks) w → (left ≤ 1 ∨ w.root = .fresh) → left + started ≤ max 1 a.nTrees + 1 →
      (a.dotest = true ∨ left ≤ 2) → (left = 0 ∨ v = boostedSum nt fm q lr pre) →
      (a.classBoostTrees nt tanh m l s draws order fm how left started (classState T fr fa fp n y v lr prior pos) w = none →
        how = .plain ∧ ∃ rng, bagLoop ((List.replicate n false)[·]?) n s draws [] rng = none) ∧
      ∀ out, a.classBoostTrees nt tanh m l s draws order fm how left started (classState T fr fa fp n y v lr prior pos) w = some out →
        out.length = left ∧ ∀ (k : Nat) x, out[k]? = some x → x.1.weight = .fin lr ∧
          AnsweringTree nt fm a s n (newtonStep y fun d => probabilityOf T (boostedSum nt fm q lr
            (pre ++ (out.take k).map fun x => (voterOf x).1) d)) x := by
  intro left
  induction left with
  | zero =>
    intro started v w pre _ _ _ _ _
    rw [GrowArgs.classBoostTrees]
    refine ⟨fun h => (by cases h), fun out h => ?_⟩
    cases h
    exact ⟨rfl, fun k x h => by simp at h⟩
  | succ left ih =>
    intro started v w pre hw hroot hsum hdo hv
    have hv : v = boostedSum nt fm q lr pre := hv.resolve_left (by omega)
    obtain ⟨s1, s2⟩ := classBoost_step hnt hP htidy hm hl horder draws hn hvet hfit hnob hT1 fr fa fp y v lr prior pos hw
    rw [GrowArgs.classBoostTrees]
    simp only [Option.bind_eq_bind]
    cases ht : (a.classBoostRun nt m l s draws order fm how (classState T fr fa fp n y v lr prior pos)).tree
        (a.classBoostRun nt m l s draws order fm how (classState T fr fa fp n y v lr prior pos)).grower w with
    | none => exact ⟨fun _ => s1 ht, fun out h => by cases h⟩
    | some z =>
      obtain ⟨x, w'⟩ := z
      obtain ⟨hw', hx, hfresh⟩ := s2 x w' ht
      obtain ⟨hne, hfin⟩ := hx.finite hnt hs hn0
      obtain ⟨groups, preds, v', hpart, hround, hv'⟩ := classRound_reused hT (fun p => nt.parse p.toList) fm n fr fa fp y v lr prior pos x.1
        (by rw [← hn]; exact hP.cases) hx.usable hfin
      simp only [Option.bind_some, hpart, hround]
      have hwn : BoostWorker a s n (candidates fm ti b.marks)
          (if a.dotest && decide (started + 1 < a.nTrees) then { w' with root := .fresh } else w') := by
        split
        · exact ⟨by simp [Node.fresh], ⟨rfl, trivial, trivial⟩, hw'.cans, hw'.oob, hw'.cases⟩
        · exact hw'
      have hrn : left ≤ 1 ∨ (if a.dotest && decide (started + 1 < a.nTrees) then { w' with root := .fresh } else w').root = .fresh := by
        by_cases h1 : left ≤ 1
        · exact .inl h1
        · have hd : a.dotest = true := hdo.resolve_right (by omega)
          have : started + 1 < a.nTrees := by omega
          refine .inr ?_
          simp [hd, this]
      obtain ⟨i1, i2⟩ := ih (started + 1) v' (if a.dotest && decide (started + 1 < a.nTrees) then { w' with root := .fresh } else w')
        (pre ++ [(voterOf (({ x.1 with weight := .fin lr } : Tree K), x.2)).1]) hwn hrn (by omega) (hdo.imp_right fun h => by omega) (by
          rcases hroot with h | h
          · exact .inl (by omega)
          · refine .inr (funext fun d => ?_)
            have hp := hfresh h
            rw [hv' hp d, hv, boostedSum_snoc]
            have : treeValue (fun p => nt.parse p.toList) fm (voterOf (({ x.1 with weight := .fin lr } : Tree K), x.2)).1 d = treeValue (fun p => nt.parse p.toList) fm x.1 d := by
              unfold treeValue voterOf
              simp only [hp]
            rw [this])
      cases hrest : a.classBoostTrees nt tanh m l s draws order fm how left (started + 1) (classState T fr fa fp n y v' lr prior pos)
          (if a.dotest && decide (started + 1 < a.nTrees) then { w' with root := .fresh } else w') with
      | none => exact ⟨fun _ => i1 hrest, fun out h => by cases h⟩
      | some rest =>
        refine ⟨fun h => (by cases h), fun out h => ?_⟩
        cases h
        obtain ⟨j1, j2⟩ := i2 rest hrest
        refine ⟨by simp [j1], fun k z hz => ?_⟩
        cases k with
        | zero =>
          cases hz
          refine ⟨rfl, ?_⟩
          rw [List.take_zero, List.map_nil, List.append_nil, ← hv]
          exact ⟨hx.target, hx.length, hx.nodup, hx.range, hx.usable, hx.writable, hx.noMissing, hx.codes, hx.answers, hx.leaves, hx.names⟩
        | succ k =>
          rw [List.getElem?_cons_succ] at hz
          have := j2 k z hz
          rw [List.append_assoc] at this
          exact this

end CloudForest
