import Verif.Lemmas.BoostCommand
import Verif.Props.Commands
import Verif.Props.BoostRun

/-!
# C148: boosting, from the data file to predictions
-/

set_option linter.unusedSectionVars false

namespace CloudForest
variable {K : Type} [Field K] [LinearOrder K] [IsStrictOrderedRing K]

/-- A tree that answers with means over all cases takes the mean out of what is left. -/
theorem voter_orthogonal {nt : NumText K} (hnt : ∀ x, nt.Faithful x) {fm : FeatureMatrix K} {n : Nat} {v : Nat → K}
    {x : Tree K × List Nat} (hbag : x.2.Perm (List.range n))
    (h : ∀ c < n, AnswersBy fm (fun S p => S ≠ [] ∧ p = String.ofList (nt.fmt (.fin (meanBy v S)))) x c) :
    ((List.range n).map fun i => v i * treeValue (fun p => nt.parse p.toList) fm x.1 i).sum =
      ((List.range n).map fun i => treeValue (fun p => nt.parse p.toList) fm x.1 i ^ 2).sum := by
  apply group_means n v _ (fun i => (landing fm x.1.root i).map (·.1))
  · intro i _ h
    simp only [Option.map_eq_none_iff] at h
    simp [treeValue, h]
  · intro i hi path hp
    obtain ⟨⟨path', pred⟩, hl, hp⟩ := Option.map_eq_some_iff.1 hp
    cases hp
    have ha := h i hi
    have ho : x.1.opinion fm i = some pred := by
      unfold Tree.opinion
      rw [hl]
      rfl
    unfold AnswersBy at ha
    rw [ho] at ha
    obtain ⟨-, ha⟩ := ha
    unfold treeValue
    simp only
    rw [hl]
    simp only [predVal]
    rw [ha, String.toList_ofList, (hnt _).2]
    simp only
    have hperm : (neighbours fm x.1 x.2 i).Perm ((List.range n).filter fun j => decide ((landing fm x.1.root j).map (·.1) = some path')) := by
      unfold neighbours
      rw [hl, Option.map_some]
      rw [show ((List.range n).filter fun j => decide ((landing fm x.1.root j).map (·.1) = some path')) =
        (List.range n).filter fun j => (landing fm x.1.root j).map (·.1) == some path' from
        List.filter_congr fun j _ => by rw [Bool.eq_iff_iff]; simp]
      exact hbag.filter _
    unfold meanBy
    rw [hperm.length_eq, (hperm.map v).sum_eq]

theorem step_error {n : Nat} {y p u : Nat → K} {lr : K} (h0 : 0 ≤ lr) (h2 : lr ≤ 2)
    (h : ((List.range n).map fun i => (y i - p i) * u i).sum = ((List.range n).map fun i => u i ^ 2).sum) :
    squaredError n y (fun i => p i + lr * u i) ≤ squaredError n y p := by
  have hexp : ((List.range n).map fun i => (y i - (p i + lr * u i)) ^ 2).sum = ((List.range n).map fun i => (y i - p i) ^ 2).sum -
      2 * lr * ((List.range n).map fun i => (y i - p i) * u i).sum + lr ^ 2 * ((List.range n).map fun i => u i ^ 2).sum := by
    induction List.range n with
    | nil => simp
    | cons a l ih =>
      simp only [List.map_cons, List.sum_cons, ih]
      ring
  have hpos : 0 ≤ ((List.range n).map fun i => u i ^ 2).sum := by
    apply List.sum_nonneg
    intro x hx
    obtain ⟨i, -, rfl⟩ := List.mem_map.1 hx
    positivity
  unfold squaredError
  rw [hexp, h]
  have := mul_nonneg (mul_nonneg h0 (sub_nonneg.2 h2)) hpos
  nlinarith [this]

theorem weightedSum_boosted {nt : NumText K} {fm : FeatureMatrix K} {n : Nat} {lr : K} (hlr : 0 ≤ lr) {i : Nat} (hi : i < n) :
    ∀ trees : List (Tree K), (∀ t ∈ trees, t.weight = .fin lr ∧ t.FiniteFor (fun p => nt.parse p.toList) fm n) →
      weightedSum (numbersOf nt fm trees i) = lr * (trees.map fun t => treeValue (fun p => nt.parse p.toList) fm t i).sum := by
  intro trees
  induction trees with
  | nil => intro _; simp [weightedSum, numbersOf]
  | cons t ts ih =>
    intro h
    obtain ⟨hw, hf⟩ := h t List.mem_cons_self
    have ih := ih fun t ht => h t (List.mem_cons_of_mem _ ht)
    have hsay : t.say = lr := by
      unfold Tree.say
      rw [hw]
      simp only [if_pos hlr]
    rw [List.map_cons, List.sum_cons, mul_add, ← ih]
    unfold numbersOf
    rw [List.filterMap_cons]
    cases hl : landing fm t.root i with
    | none =>
      have : t.opinion fm i = none := by unfold Tree.opinion; rw [hl]; rfl
      rw [this]
      simp [treeValue, hl]
    | some x =>
      have : t.opinion fm i = some x.2 := by unfold Tree.opinion; rw [hl]; rfl
      rw [this]
      simp only [Option.bind_some]
      cases hp : nt.parse x.2.toList with
      | none => simp [treeValue, hl, predVal, hp]
      | some z =>
        obtain ⟨q, rfl⟩ := hf i hi x hl z hp
        simp only [treeValue, hl, predVal, hp, hsay, weightedSum, List.map_cons, List.sum_cons]

/-- What growforest writes when boosting: trees that answer with the means of what is left, which applyforest reads again. -/
theorem boosted_file [FloorRing K] {nt : NumText K} (hnt : ∀ x, nt.Faithful x) {ord : Splitter K → List String}
    (hord : ∀ s : Splitter K, (ord s).Perm s.left) {order : List Nat → List Nat} (horder : ∀ bag, (order bag).Perm bag)
    {text : Text} {fm : FeatureMatrix K} (hp : parseAFM nt text = some fm) {a : GrowArgs} (hc : fm.Clean a.target)
    {f : NumFeature K} (hf : .num f ∈ fm.data) (hn : f.name = a.target) (hids : a.target ∉ a.blacklist) {n : Nat}
    (hcases : fm.caseLabels.length = n) (hknown : ∀ i < n, f.missing[i]? = some false) {m l s : Int}
    (hm : inferMTry nt a.mTry (allowedFeatures fm a.blacklist a.target a.block a.incl).length = some m)
    (hmle : m ≤ (allowedFeatures fm a.blacklist a.target a.block a.incl).length)
    (hl : inferLeafSize nt a.leafSize true 0 n = some l) (hl1 : 1 ≤ l)
    (hs : inferNSamples nt a.nSamples n = some s) (hbal : a.balance = false)
    (hvet : ¬ (a.vet = true ∧ a.evaloob = true)) (hnew : a.dotest = true ∨ a.nTrees ≤ 2) {lr : K} (hlr : 0 < lr) (draws : Nat)
    (own global : Rng) :
    (boostCommand nt ord a lr draws order text own global = none →
      a.nobag = false ∧ ∃ rng, bagLoop (f.missing[·]?) n s.toNat draws [] rng = none) ∧
    ∀ file, boostCommand nt ord a lr draws order text own global = some file →
      ∃ (ti : Nat) (out : List (Tree K × List Nat)) (f' : Forest K), out.length = max 1 a.nTrees ∧
        (∀ (k : Nat) x, out[k]? = some x → x.1.weight = .fin lr ∧ BoostedTree nt fm a s.toNat n ti
          (fun d => f.value d - boostedSum nt fm (meanBy f.value (List.range n)) lr (((out.map voterOf).take k).map (·.1)) d) x) ∧
        readForest nt file = some ⟨some f', .ok, []⟩ ∧ f'.target = a.target ∧ f'.intercept = .fin (meanBy f.value (List.range n)) ∧
        (∀ o, applyForest nt o f' fm = applyForest nt o ⟨a.target, (out.map voterOf).map (·.1), .fin (meanBy f.value (List.range n))⟩ fm) ∧
        ∀ o fm2, applyForest nt o f' fm2 = applyForest nt o
          ⟨a.target, ((out.map voterOf).map (·.1)).map Tree.named, .fin (meanBy f.value (List.range n))⟩ fm2 := by
  obtain ⟨ti, b, hP⟩ := prepared hp hc hf hn hids
  have hcons : f.Consistent := (c139_afm nt text fm hp).1.consistent _ hf
  have hlen : f.missing.length = n := by rw [← hcases]; exact hP.length
  have hmiss : f.missing = List.replicate n false := by
    apply List.ext_getElem?
    intro i
    rw [List.getElem?_replicate]
    by_cases hi : i < n
    · rw [hknown i hi, if_pos hi]
    · rw [List.getElem?_eq_none (by omega), if_neg hi]
  obtain ⟨i0, hi0⟩ := hc.known _ hf hn
  have hi0 : f.missing[i0]? = some false := hi0
  have hn0 : 0 < n := by
    have := (List.getElem?_eq_some_iff.1 hi0).1
    omega
  have hnk : nKnown f.missing = n := by
    rw [nKnown_eq, hmiss]
    unfold bagKnown
    rw [List.filter_eq_self.2, List.length_range, List.length_replicate]
    intro c hcm
    have hcm : c < n := by simpa using hcm
    simp [hcm]
  have hs1 : 1 ≤ s := inferNSamples_pos (by omega) hs
  have hvals : ∀ i < n, f.numData[i]? = some (.fin (f.value i)) := by
    intro i hi
    have hd : f.numData[i]? = some (f.numData[i]'(by rw [hcons.lengths, hlen]; exact hi)) := List.getElem?_eq_getElem _
    obtain ⟨y, hy⟩ := hc.finite f hf i _ (hknown i hi) hd
    unfold NumFeature.value
    rw [hd, hy]
  have e0 := newGradBoost_values f (.fin lr) n f.value hlen (finList_eq (by rw [hcons.lengths, hlen]) hvals) (by omega)
  obtain ⟨mean, hmean⟩ : ∃ x, x = meanBy f.value (List.range n) := ⟨_, rfl⟩
  have hmean' : ((List.range n).map f.value).sum / (n : K) = mean := by
    rw [hmean, meanBy, List.length_range]
  rw [hmean'] at e0
  rw [← hmean]
  have htidy := fun g (hg : g ∈ fm.data) => hc.tidy g hg
  have htidy' : ∀ g ∈ fm.data, g.Tidy := fun g hg => by have := hc.tidy g hg; cases g <;> exact this
  obtain ⟨v0, hv0⟩ : ∃ v : Nat → K, v = fun i => f.value i - mean := ⟨_, rfl⟩
  rw [← hv0] at e0
  -- the worker at the start
  obtain ⟨w, hw, hwk, hwroot⟩ : ∃ w, (a.boostRun nt m.toNat l.toNat s.toNat draws order (residualMatrix fm ti f n v0) (withValues f n v0)).start
      n 0 (candidates fm ti b.marks) own global = some w ∧ BoostWorker a s.toNat n (candidates fm ti b.marks) w ∧ w.root = .fresh := by
    have key : ∀ cs : List Nat, (a.nobag = true → cs.Nodup ∧ (∀ c ∈ cs, c < n) ∧ (s.toNat = n → cs.length = n)) →
        BoostWorker a s.toNat n (candidates fm ti b.marks)
          (⟨.fresh, cs, ⟨newAllocs 0, own, candidates fm ti b.marks, []⟩, global⟩ : WorkerState K) := fun cs h =>
      ⟨by simp [Node.fresh], ⟨rfl, trivial, trivial⟩, List.Perm.refl _, by simp, h⟩
    cases hnb : a.nobag with
    | false =>
      refine ⟨_, ?_, key [] (by rw [hnb]; exact fun h => by cases h), rfl⟩
      have hh : (a.boostRun nt m.toNat l.toNat s.toNat draws order (residualMatrix fm ti f n v0) (withValues f n v0)).how = .plain := by
        show (if a.nobag then Bagging.nobag else .plain) = .plain
        rw [hnb]
        rfl
      unfold RunSetup.start
      rw [hh]
      rfl
    | true =>
      refine ⟨_, ?_, key ((List.range n).filter fun i => (List.replicate n false)[i]? == some false) (fun _ => ?_), rfl⟩
      · have hh : (a.boostRun nt m.toNat l.toNat s.toNat draws order (residualMatrix fm ti f n v0) (withValues f n v0)).how = .nobag := by
          show (if a.nobag then Bagging.nobag else .plain) = .nobag
          rw [hnb]
          rfl
        have : nobagCases ((a.boostRun nt m.toNat l.toNat s.toNat draws order (residualMatrix fm ti f n v0) (withValues f n v0)).missing[·]?) n =
          some ((List.range n).filter fun i => (List.replicate n false)[i]? == some false) :=
          nobagCases_eq (List.replicate n false) n (by simp)
        unfold RunSetup.start
        rw [hh]
        simp only [this, Option.bind_eq_bind, Option.bind_some]
      · have : ((List.range n).filter fun i => (List.replicate n false)[i]? == some false) = List.range n := by
          rw [List.filter_eq_self]
          intro c hcm
          simp [List.mem_range.1 hcm]
        rw [this]
        exact ⟨List.nodup_range, fun c => List.mem_range.1, fun _ => List.length_range⟩
  obtain ⟨b1, b2⟩ := boostTrees_ok (f := f) hnt hP htidy' (m := m.toNat) (l := l.toNat) (s := s.toNat) (by omega) (by omega) (by omega) horder draws
    hcases hn0 hvet f.value mean lr (max 1 a.nTrees) 1 v0 w [] hwk (.inr hwroot) (le_refl _)
    (hnew.imp_right fun h => by omega) (.inr (by rw [hv0]; funext d; simp [boostedSum]))
  have hcmd : boostCommand nt ord a lr draws order text own global =
      (a.boostTrees nt m.toNat l.toNat s.toNat draws order ti (max 1 a.nTrees) 1
        (residualMatrix fm ti f n v0, ⟨withValues f n v0, .fin lr, .fin mean⟩) w).bind fun out =>
      growforestFile nt ord a.progress a.target (some (.fin mean)) (out.map (·.1)) := by
    have hw' : (a.boostRun nt m.toNat l.toNat s.toNat draws order
      { fm with data := fm.data.set ti (.num (withValues f n v0)) } (withValues f n v0)).start
      n 0 (candidates fm ti b.marks) own global = some w := hw
    simp only [boostCommand, hp, hP.chosen, hP.count, hm, hP.target, hnk, hl, hs, hbal, e0, hw', Option.bind_eq_bind, Option.bind_some]
    rfl
  rw [hcmd]
  cases hb : a.boostTrees nt m.toNat l.toNat s.toNat draws order ti (max 1 a.nTrees) 1
      (residualMatrix fm ti f n v0, ⟨withValues f n v0, .fin lr, .fin mean⟩) w with
  | none =>
    refine ⟨fun _ => ?_, fun file h => by cases h⟩
    rw [hmiss]
    exact b1 hb
  | some out =>
    obtain ⟨o1, o2⟩ := b2 out hb
    have hall : ∀ x ∈ out, x.1.weight = .fin lr ∧ ∃ v, BoostedTree nt fm a s.toNat n ti v x := by
      intro x hx
      obtain ⟨k, hk⟩ := List.mem_iff_getElem?.1 hx
      exact ⟨(o2 k x hk).1, _, (o2 k x hk).2⟩
    have hvot : (out.map voterOf).map (·.1) = (out.map (·.1)).map fun t => ({ t with root := prune t.root } : Tree K) := by
      rw [List.map_map, List.map_map]
      rfl
    have hplain : Plain a.target.toList := by
      rw [← hn]
      exact hc.tidy _ hf
    have hcasesOk : fm.allCases = some (List.range n) := by rw [← hcases]; exact hP.cases
    obtain ⟨file0, f', w1, w2, w3, w4, w5, w6⟩ := written_forest hcasesOk hnt hord (target := a.target) (some (.fin mean))
      (trees := (out.map voterOf).map (·.1)) (by
        intro h
        have : out = [] := by simpa using h
        rw [this] at o1
        simp at o1
        omega) hplain (by
        intro t ht
        obtain ⟨x, hx, rfl⟩ := List.mem_map.1 ht
        obtain ⟨x, hxo, rfl⟩ := List.mem_map.1 hx
        obtain ⟨-, v, h⟩ := hall x hxo
        exact ⟨h.target, h.writable, h.noMissing, h.usable, h.codes⟩) a.progress
    have hfile : growforestFile nt ord a.progress a.target (some (.fin mean)) (out.map (·.1)) = some file0 := by
      rw [← w1, hvot]
      unfold growforestFile
      rw [recordTrees_prune]
    refine ⟨fun h => ?_, fun file h => ?_⟩
    · rw [Option.bind_some, hfile] at h
      cases h
    rw [Option.bind_some, hfile] at h
    cases h
    refine ⟨ti, out, f', o1, fun k x hx => ?_, w2, w3, w4, w5, w6⟩
    have h := o2 k x hx
    rw [List.nil_append] at h
    rw [← List.map_take, List.map_map]
    exact h

/-- **C148.** The text of a table is parsed, growforest with `-gbt lr` and one worker grows a forest from it and writes it, applyforest
reads the file and adds up what the trees say of the same table. Nothing on this way panics; growforest can only go on drawing.
There are as many trees as asked for, at least one. Each tree answers with the mean, over the cases of its bag in the same leaf, of
what the trees before it have left over; the first one of what the mean of the target leaves over. What is predicted is the mean of the target
plus `lr` times the sum of the answers. If all cases are used for each tree and `lr` is at most two, no tree increases the squared error.

Missing from the full property: targets with missing values, `c148_missing`; more than two trees without `-test`, `c148_reused`; more than one
worker. -/
theorem c148_boosted_partial [FloorRing K] {nt : NumText K} (hnt : ∀ x, nt.Faithful x) {ord : Splitter K → List String}
    (hord : ∀ s : Splitter K, (ord s).Perm s.left) {order : List Nat → List Nat} (horder : ∀ bag, (order bag).Perm bag)
    {text : Text} {fm : FeatureMatrix K} (hp : parseAFM nt text = some fm) {a : GrowArgs} (hc : fm.Clean a.target)
    {f : NumFeature K} (hf : .num f ∈ fm.data) (hn : f.name = a.target) (hids : a.target ∉ a.blacklist) {n : Nat}
    (hcases : fm.caseLabels.length = n) (hknown : ∀ i < n, f.missing[i]? = some false) {m l s : Int}
    (hm : inferMTry nt a.mTry (allowedFeatures fm a.blacklist a.target a.block a.incl).length = some m)
    (hmle : m ≤ (allowedFeatures fm a.blacklist a.target a.block a.incl).length)
    (hl : inferLeafSize nt a.leafSize true 0 n = some l) (hl1 : 1 ≤ l)
    (hs : inferNSamples nt a.nSamples n = some s) (hbal : a.balance = false)
    (hvet : ¬ (a.vet = true ∧ a.evaloob = true)) (hnew : a.dotest = true ∨ a.nTrees ≤ 2) {lr : K} (hlr : 0 < lr) (draws : Nat)
    (own global : Rng) :
    (boostCommand nt ord a lr draws order text own global = none →
      a.nobag = false ∧ ∃ rng, bagLoop (f.missing[·]?) n s.toNat draws [] rng = none) ∧
    ∀ file, boostCommand nt ord a lr draws order text own global = some file →
      ∃ voters : List (Tree K × List Nat), voters.length = max 1 a.nTrees ∧
        (∀ x ∈ voters, (∀ c ∈ x.2, c < n) ∧ (a.nobag = false → x.2.length = s) ∧
          (a.nobag = true → x.2.Nodup ∧ x.2.length = min s n) ∧ x.2 ≠ []) ∧
        (∀ (k : Nat) x, voters[k]? = some x → ∀ c < n, AnswersBy fm (fun S p => S ≠ [] ∧ p = String.ofList (nt.fmt (.fin (meanBy
          (fun d => f.value d - boostedSum nt fm (meanBy f.value (List.range n)) lr ((voters.take k).map (·.1)) d) S)))) x c) ∧
        (∀ (tanh : XF K → XF K) (o : ApplyOptions), o.sum = true → o.expit = false →
          ∃ forest bb, applyCommand nt o file text = some (forest, bb) ∧ forest.target = a.target ∧
            ∀ c < n, ∀ res, bb.Predicts nt tanh o forest.intercept c res ↔
              res = some (String.ofList (nt.fmt (.fin (boostedSum nt fm (meanBy f.value (List.range n)) lr (voters.map (·.1)) c))))) ∧
        (a.nobag = true → s = n → lr ≤ 2 → ∀ k < voters.length,
          squaredError n f.value (boostedSum nt fm (meanBy f.value (List.range n)) lr ((voters.take (k + 1)).map (·.1))) ≤
            squaredError n f.value (boostedSum nt fm (meanBy f.value (List.range n)) lr ((voters.take k).map (·.1)))) := by
  obtain ⟨core1, core2⟩ := boosted_file hnt hord horder hp hc hf hn hids hcases hknown hm hmle hl hl1 hs hbal hvet hnew hlr draws own global
  refine ⟨core1, fun file h => ?_⟩
  obtain ⟨ti, out, f', o1, o2, w2, w3, w4, w5, -⟩ := core2 file h
  obtain ⟨i0, hi0⟩ := hc.known _ hf hn
  have hi0 : f.missing[i0]? = some false := hi0
  obtain ⟨ti', b, hP⟩ := prepared hp hc hf hn hids
  have hlen : f.missing.length = n := by rw [← hcases]; exact hP.length
  have hn0 : 0 < n := by
    have := (List.getElem?_eq_some_iff.1 hi0).1
    omega
  have hs1 : 1 ≤ s := inferNSamples_pos (by omega) hs
  have hcasesOk : fm.allCases = some (List.range n) := by rw [← hcases]; exact hP.cases
  generalize meanBy f.value (List.range n) = mean at o2 w4 w5 ⊢
  have hall : ∀ x ∈ out, x.1.weight = .fin lr ∧ ∃ v, BoostedTree nt fm a s.toNat n ti v x := by
    intro x hx
    obtain ⟨k, hk⟩ := List.mem_iff_getElem?.1 hx
    exact ⟨(o2 k x hk).1, _, (o2 k x hk).2⟩
  have hfinv : ∀ t ∈ (out.map voterOf).map (·.1), t.weight = .fin lr ∧ t.FiniteFor (fun p => nt.parse p.toList) fm n ∧
      Usable fm (List.range n) t.root := by
    intro t ht
    obtain ⟨x, hx, rfl⟩ := List.mem_map.1 ht
    obtain ⟨x, hxo, rfl⟩ := List.mem_map.1 hx
    obtain ⟨h1, v, h⟩ := hall x hxo
    exact ⟨h1, (h.finite hnt (by omega) hn0).2, h.usable⟩
  have hanswers : ∀ (k : Nat) x, (out.map voterOf)[k]? = some x → ∀ c < n, AnswersBy fm (fun S p => S ≠ [] ∧ p = String.ofList (nt.fmt (.fin (meanBy
        (fun d => f.value d - boostedSum nt fm mean lr (((out.map voterOf).take k).map (·.1)) d) S)))) x c := by
    intro k x hx c hcn
    rw [List.getElem?_map] at hx
    obtain ⟨z, hz, rfl⟩ := Option.map_eq_some_iff.1 hx
    have h := (o2 k z hz).2
    have := h.answers (h.finite hnt (by omega) hn0).1 c hcn
    exact this
  have hbags : ∀ x ∈ out.map voterOf, (∀ c ∈ x.2, c < n) ∧ (a.nobag = false → x.2.length = s) ∧
        (a.nobag = true → x.2.Nodup ∧ x.2.length = min s n) ∧ x.2 ≠ [] := by
    intro x hx
    obtain ⟨x, hxo, rfl⟩ := List.mem_map.1 hx
    obtain ⟨h1, v, h⟩ := hall x hxo
    have hL := h.length
    refine ⟨h.range, fun hnb => ?_, fun hnb => ⟨h.nodup hnb, ?_⟩, (h.finite hnt (by omega) hn0).1⟩
    · rw [hnb] at hL
      simp only [voterOf]
      simp at hL
      omega
    · rw [hnb] at hL
      simp only [voterOf]
      simp at hL
      omega
  refine ⟨out.map voterOf, by rw [List.length_map, o1], hbags, hanswers, fun tanh o ho1 ho2 => ?_, fun hnb hsn hlr2 k hk => ?_⟩
  · obtain ⟨bb, e1, e2⟩ := c97_sum nt tanh o ⟨a.target, (out.map voterOf).map (·.1), .fin mean⟩ fm n mean hcasesOk (by
      intro t ht
      obtain ⟨h1, -, h3⟩ := hfinv t ht
      refine ⟨⟨lr, h1⟩, fun cs hcs => ?_⟩
      rw [hcasesOk] at hcs
      cases hcs
      exact h3) rfl ho1 (by
      intro t ht i hi p x ho hx
      obtain ⟨-, h2, -⟩ := hfinv t ht
      obtain ⟨y, hy, rfl⟩ := Option.map_eq_some_iff.1 ho
      exact h2 i hi y hy x hx)
    refine ⟨f', bb, ?_, w3, ?_⟩
    · simp only [applyCommand, hp, w2, Option.bind_eq_bind, Option.bind_some]
      rw [w5 o]
      rw [show applyForest nt o ⟨a.target, (out.map voterOf).map (·.1), XF.fin mean⟩ fm = some bb from e1]
      rfl
    · intro c hcn res
      rw [w4]
      have := e2 c hcn res
      rw [weightedSum_boosted (le_of_lt hlr) hcn _ fun t ht => ⟨(hfinv t ht).1, (hfinv t ht).2.1⟩, add_comm] at this
      rw [show o.transform tanh (.fin (mean + lr * (((out.map voterOf).map (·.1)).map fun t =>
        treeValue (fun p => nt.parse p.toList) fm t c).sum)) = .fin (mean + lr * (((out.map voterOf).map (·.1)).map fun t =>
        treeValue (fun p => nt.parse p.toList) fm t c).sum) by unfold ApplyOptions.transform; rw [ho2]; rfl] at this
      exact this
  · have hx : (out.map voterOf)[k]? = some (out.map voterOf)[k] := List.getElem?_eq_getElem hk
    obtain ⟨g1, -, g2, -⟩ := hbags _ (List.getElem_mem hk)
    obtain ⟨g3, g4⟩ := g2 hnb
    have hbag : ((out.map voterOf)[k]).2.Perm (List.range n) := by
      have hl' : ((out.map voterOf)[k]).2.length = n := by omega
      refine (List.subperm_of_subset g3 fun c hcm => List.mem_range.2 (g1 c hcm)).perm_of_length_le ?_
      rw [List.length_range, hl']
    have horth := voter_orthogonal hnt hbag (hanswers k _ hx)
    have := step_error (lr := lr) (le_of_lt hlr) hlr2 horth
    have hnext : boostedSum nt fm mean lr (((out.map voterOf).take (k + 1)).map (·.1)) = fun i =>
        boostedSum nt fm mean lr (((out.map voterOf).take k).map (·.1)) i +
          lr * treeValue (fun p => nt.parse p.toList) fm ((out.map voterOf)[k]).1 i := by
      funext i
      rw [List.take_succ_eq_append_getElem hk, List.map_append, List.map_cons, List.map_nil, boostedSum_snoc]
    rw [hnext]
    exact this

/-! ## Examples -/

/-- Grow a boosted forest from a table, read its file and write the predictions for `n` cases of the table. -/
def exBoostedSums (a : GrowArgs) (lr : ℚ) (o : ApplyOptions) (table : Text) (n : Nat) (own global : Rng) : Option (List (Option (XF ℚ))) :=
  (boostCommand exStrokes (fun s => s.left) a lr 20 id table own global).bind fun file =>
    (applyCommand exStrokes o file table).map fun x => (List.range n).map fun i => x.2.number id o x.1.intercept i

/-- A table with the numbers 0, 0, 0, 1, 1 as target. -/
def exBoostTable : Text :=
  ".\tN:y\tN:a\tN:b\na\t0\t0\t01\nb\t0\t01\t0111\nc\t0\t011\t0\nd\t01\t0111\t011\ne\t01\t01111\t011\n".toList

/-- Four trees on all cases, grown with new tree objects. -/
def exBoostArgs : GrowArgs :=
  { target := "N:y", nTrees := 4, mTry := ['1'], leafSize := ['1'], nobag := true, dotest := true }

/-- The conditions of `c148_boosted_partial` hold, and the commands work: the predictions of the zeros are 1/40, those of the ones 77/80. -/
example : (∀ x, exStrokes.Faithful x) ∧ (∃ fm f, parseAFM exStrokes exBoostTable = some fm ∧ fm.Clean exBoostArgs.target ∧
      .num f ∈ fm.data ∧ f.name = exBoostArgs.target ∧ exBoostArgs.target ∉ exBoostArgs.blacklist ∧ fm.caseLabels.length = 5 ∧
      (∀ i < 5, f.missing[i]? = some false) ∧
      inferMTry exStrokes exBoostArgs.mTry (allowedFeatures fm exBoostArgs.blacklist exBoostArgs.target exBoostArgs.block exBoostArgs.incl).length =
        some 1 ∧ (1 : Int) ≤ (allowedFeatures fm exBoostArgs.blacklist exBoostArgs.target exBoostArgs.block exBoostArgs.incl).length ∧
      inferLeafSize exStrokes exBoostArgs.leafSize true 0 5 = some 1 ∧ inferNSamples exStrokes exBoostArgs.nSamples 5 = some 5) ∧
    exBoostedSums exBoostArgs (1 / 2) ⟨false, true, false, false⟩ exBoostTable 5 (fun k => (3 / 2 ^ (k % 4)) % 2) (fun k => k) =
      some ([1 / 40, 1 / 40, 1 / 40, 77 / 80, 77 / 80].map fun q => some (.fin q)) := by
  refine ⟨exStrokes_faithful, ?_, by decide +kernel⟩
  have h : (parseAFM exStrokes exBoostTable).any (fun fm => cleanCheck fm "N:y" && (match fm.data with
      | .num f :: _ => decide (f.name = "N:y" ∧ f.missing = List.replicate 5 false)
      | _ => false) && decide (fm.caseLabels.length = 5 ∧ (allowedFeatures fm [] "N:y" none none).length = 2)) = true := by
    decide +kernel
  obtain ⟨fm, h1, h2⟩ := (Option.any_eq_true _ _).1 h
  simp only [Bool.and_eq_true, decide_eq_true_eq] at h2
  obtain ⟨⟨c1, c2⟩, c3, c4⟩ := h2
  split at c2
  · rename_i f _ hd
    simp only [decide_eq_true_eq] at c2
    refine ⟨fm, f, h1, cleanCheck_ok c1, by rw [hd]; simp, c2.1, by decide, c3, fun i hi => ?_, ?_, ?_, by decide +kernel, by decide +kernel⟩
    · rw [c2.2]
      interval_cases i <;> rfl
    · show inferMTry exStrokes ['1'] (allowedFeatures fm [] "N:y" none none).length = some 1
      rw [c4]
      decide +kernel
    · show (1 : Int) ≤ (allowedFeatures fm [] "N:y" none none).length
      rw [c4]
      decide
  · cases c2

/-- **C148 is false of the code** without `-test`, when the worker grows its tree object again. After three trees the ones are
predicted exactly. The fourth makes 23/20 of them, though all cases are used for each tree at a learning rate of 1/2: the residuals were
not reduced by the third. -/
theorem c148_reused :
    exBoostedSums { exBoostArgs with dotest := false, nTrees := 3 } (1 / 2) ⟨false, true, false, false⟩ exBoostTable 5
        (fun k => (3 / 2 ^ (k % 4)) % 2) (fun k => k) = some ([1 / 20, 1 / 20, 1 / 20, 1, 1].map fun q => some (.fin q)) ∧
    exBoostedSums { exBoostArgs with dotest := false } (1 / 2) ⟨false, true, false, false⟩ exBoostTable 5
        (fun k => (3 / 2 ^ (k % 4)) % 2) (fun k => k) = some ([1 / 40, 1 / 40, 1 / 40, 23 / 20, 23 / 20].map fun q => some (.fin q)) := by
  decide +kernel

/-- **C148 is false of the code** for targets with missing values. The target is 2 in all cases where it is known, and 1 is
predicted for all of them: a missing value counts as zero in the mean, and as a case for the trees. -/
theorem c148_missing :
    exBoostedSums { target := "N:y", nTrees := 1, leafSize := ['1'], nobag := true } 1 ⟨false, true, false, false⟩
        ".\tN:y\tN:a\na\t011\t0\nb\t011\t01\nc\tNA\t011\n".toList 3 (fun k => k) (fun k => k) =
      some ([1, 1, 1].map fun q => some (.fin q)) := by
  decide +kernel

/-- The file does not say that the answers of its trees are to be added. Without `-sum` applyforest takes their mean, and the four trees, which
together are nearly right, predict something else. -/
theorem c148_mean :
    exBoostedSums exBoostArgs (1 / 2) ⟨false, false, false, false⟩ exBoostTable 5 (fun k => (3 / 2 ^ (k % 4)) % 2) (fun k => k) =
      some ([17 / 80, 17 / 80, 17 / 80, 109 / 160, 109 / 160].map fun q => some (.fin q)) := by
  decide +kernel

end CloudForest
