import Verif.Lemmas.ClassBoostCommand
import Verif.Props.BoostCommand

/-!
# C149: boosting of two classes, from the data file to predictions
-/

set_option linter.unusedSectionVars false

namespace CloudForest
variable {K : Type} [Field K] [LinearOrder K] [IsStrictOrderedRing K]

/-- What growforest writes when boosting classes: trees that answer with Newton's steps, which applyforest reads again. -/
theorem class_boosted_file [FloorRing K] {nt : NumText K} (hnt : ∀ x, nt.Faithful x) {tanh log : XF K → XF K} {T L : K → K}
    (hT : ∀ x, tanh (.fin x) = .fin (T x)) (hT1 : ∀ x, -1 < T x ∧ T x < 1) (hL : ∀ x, 0 < x → log (.fin x) = .fin (L x))
    {ord : Splitter K → List String}
    (hord : ∀ s : Splitter K, (ord s).Perm s.left) {order : List Nat → List Nat} (horder : ∀ bag, (order bag).Perm bag)
    {text : Text} {fm : FeatureMatrix K} (hp : parseAFM nt text = some fm) {a : GrowArgs} (hc : fm.Clean a.target)
    {f : CatFeature} (hf : .cat f ∈ fm.data) (hn : f.name = a.target) (hids : a.target ∉ a.blacklist) {n : Nat}
    (hcases : fm.caseLabels.length = n) {lab : Nat → String} (hlab : f.Labels n lab) {pos : String}
    (hpos : 0 < hotCount pos lab n) (hneg : hotCount pos lab n < n) {m l s : Int}
    (hm : inferMTry nt a.mTry (allowedFeatures fm a.blacklist a.target a.block a.incl).length = some m)
    (hmle : m ≤ (allowedFeatures fm a.blacklist a.target a.block a.incl).length)
    (hl : inferLeafSize nt a.leafSize true f.cm.nCats n = some l) (hl1 : 1 ≤ l)
    (hs : inferNSamples nt a.nSamples n = some s) (hent : a.entropy = false)
    (hvet : ¬ (a.vet = true ∧ a.evaloob = true)) (hnew : a.dotest = true ∨ a.nTrees ≤ 2) {lr : K} (hlr : 0 < lr) (draws : Nat)
    (own global : Rng) {start : K} (hstart : start = L ((hotCount pos lab n : K) / ((n : K) - hotCount pos lab n))) :
    (classBoostCommand nt tanh log ord a lr pos draws order text own global = none →
      a.nobag = false ∧ a.balance = false ∧ ∃ rng, bagLoop (f.missing[·]?) n s.toNat draws [] rng = none) ∧
    ∀ file, classBoostCommand nt tanh log ord a lr pos draws order text own global = some file →
      ∃ (out : List (Tree K × List Nat)) (f' : Forest K), out.length = max 1 a.nTrees ∧
        (∀ (k : Nat) x, out[k]? = some x → x.1.weight = .fin lr ∧ AnsweringTree nt fm a s.toNat n (newtonStep (hot pos lab)
          fun d => probabilityOf T (boostedSum nt fm start lr (((out.map voterOf).take k).map (·.1)) d)) x) ∧
        readForest nt file = some ⟨some f', .ok, []⟩ ∧ f'.target = a.target ∧ f'.intercept = .fin start ∧
        (∀ o, applyForest nt o f' fm = applyForest nt o ⟨a.target, (out.map voterOf).map (·.1), .fin start⟩ fm) ∧
        ∀ o fm2, applyForest nt o f' fm2 = applyForest nt o ⟨a.target, ((out.map voterOf).map (·.1)).map Tree.named, .fin start⟩ fm2 := by
  obtain ⟨ti, b, hP⟩ := prepared hp hc hf hn hids
  have hcons : f.Consistent := (c139_afm nt text fm hp).1.consistent _ hf
  have hlen : f.missing.length = n := by rw [← hcases]; exact hP.length
  have hmiss : f.missing = List.replicate n false := by
    apply List.ext_getElem?
    intro i
    rw [List.getElem?_replicate]
    by_cases hi : i < n
    · rw [(hlab i hi).1, if_pos hi]
    · rw [List.getElem?_eq_none (by omega), if_neg hi]
  have hn0 : 0 < n := by omega
  have hnk : nKnown f.missing = n := by
    rw [nKnown_eq, hmiss]
    unfold bagKnown
    rw [List.filter_eq_self.2, List.length_range, List.length_replicate]
    intro c hcm
    have hcm : c < n := by simpa using hcm
    simp [hcm]
  have hs1 : 1 ≤ s := inferNSamples_pos (by omega) hs
  obtain ⟨fr, fa, fp, e0⟩ := newClassBoost_eq hT hL f lr pos hlen (by rw [hcons.lengths, hlen]) lab hlab hpos hneg
  rw [← hstart, show ({ f with missing := List.replicate n false } : CatFeature) = f by rw [← hmiss]] at e0
  have hin : f.InRange f.cm.nCats (List.range f.missing.length) := by
    intro c hcm
    have hcl : c < f.missing.length := List.mem_range.1 hcm
    have hd : f.catData[c]? = some (f.catData[c]'(by rw [hcons.lengths]; exact hcl)) := List.getElem?_eq_getElem _
    exact ⟨_, hd, hcons.valid c _ (hlab c (by omega)).1 hd⟩
  obtain ⟨how, hb1, hb2, hb3, hb4⟩ := bagging_ok hp hf (hlab 0 hn0).1 hin hcons a
  rw [hmiss] at hb2
  have htidy' : ∀ g ∈ fm.data, g.Tidy := fun g hg => by have := hc.tidy g hg; cases g <;> exact this
  have hfm : ({ fm with data := fm.data.set ti (.cat f) } : FeatureMatrix K) = fm := by
    have : fm.data.set ti (.cat f) = fm.data := by
      apply List.ext_getElem?
      intro i
      rw [List.getElem?_set]
      split
      · next e =>
        subst e
        rw [if_pos (List.getElem?_eq_some_iff.1 hP.target).1, hP.target]
      · rfl
    rw [this]
  -- the worker at the start
  obtain ⟨w, hw, hwk, hwroot⟩ : ∃ w, (a.classBoostRun nt m.toNat l.toNat s.toNat draws order fm how
      (classState T fr fa fp n (hot pos lab) (fun _ => start) lr (.fin start) pos)).start
      n 0 (candidates fm ti b.marks) own global = some w ∧ BoostWorker a s.toNat n (candidates fm ti b.marks) w ∧ w.root = .fresh := by
    have key : ∀ cs : List Nat, (a.nobag = true → cs.Nodup ∧ (∀ c ∈ cs, c < n) ∧ (s.toNat = n → cs.length = n)) →
        BoostWorker a s.toNat n (candidates fm ti b.marks)
          (⟨.fresh, cs, ⟨newAllocs 0, own, candidates fm ti b.marks, []⟩, global⟩ : WorkerState K) := fun cs h =>
      ⟨by simp [Node.fresh], ⟨rfl, trivial, trivial⟩, List.Perm.refl _, by simp, h⟩
    cases hnb : a.nobag with
    | false =>
      refine ⟨_, ?_, key [] (by rw [hnb]; exact fun h => by cases h), rfl⟩
      have hh : how ≠ .nobag := by
        rintro rfl
        rw [hnb] at hb3
        cases hb3
      unfold RunSetup.start
      cases hhow : (a.classBoostRun nt m.toNat l.toNat s.toNat draws order fm how
        (classState T fr fa fp n (hot pos lab) (fun _ => start) lr (.fin start) pos)).how with
      | nobag => exact absurd hhow hh
      | plain => rfl
      | balanced => rfl
      | secondary => rfl
    | true =>
      refine ⟨_, ?_, key ((List.range n).filter fun i => (List.replicate n false)[i]? == some false) (fun _ => ?_), rfl⟩
      · have hh : (a.classBoostRun nt m.toNat l.toNat s.toNat draws order fm how
          (classState T fr fa fp n (hot pos lab) (fun _ => start) lr (.fin start) pos)).how = .nobag := by
          have := hb3.trans hnb
          show how = .nobag
          cases how <;> first | rfl | cases this
        have : nobagCases ((a.classBoostRun nt m.toNat l.toNat s.toNat draws order fm how
          (classState T fr fa fp n (hot pos lab) (fun _ => start) lr (.fin start) pos)).missing[·]?) n =
          some ((List.range n).filter fun i => (List.replicate n false)[i]? == some false) :=
          nobagCases_eq (List.replicate n false) n (by simp)
        unfold RunSetup.start
        rw [hh]
        simp only [this, Option.bind_eq_bind, Option.bind_some]
      · have : ((List.range n).filter fun i => (List.replicate n false)[i]? == some false) = List.range n := by
          rw [List.filter_eq_self]
          intro c hcm
          simp [List.mem_range.1 hcm]
        rw [this]
        exact ⟨List.nodup_range, fun c => List.mem_range.1, fun _ => List.length_range⟩
  obtain ⟨b1, b2⟩ := classBoostTrees_ok hnt hP htidy' (m := m.toNat) (l := l.toNat) (s := s.toNat) (by omega) (by omega) (by omega) horder draws
    hcases hn0 hvet hb2 hb3 hT hT1 fr fa fp (hot pos lab) lr start (.fin start) pos (max 1 a.nTrees) 1 (fun _ => start) w [] hwk
    (.inr hwroot) (le_refl _) (hnew.imp_right fun h => by omega) (.inr (by funext d; simp [boostedSum]))
  have hcmd : classBoostCommand nt tanh log ord a lr pos draws order text own global =
      (a.classBoostTrees nt tanh m.toNat l.toNat s.toNat draws order fm how (max 1 a.nTrees) 1
        (classState T fr fa fp n (hot pos lab) (fun _ => start) lr (.fin start) pos) w).bind fun out =>
      growforestFile nt ord a.progress a.target (some (.fin start)) (out.map (·.1)) := by
    simp only [classBoostCommand, hp, hP.chosen, hP.count, hm, hP.target, hb1, hnk, hl, hs, hent, e0, hfm, hw, Option.bind_eq_bind, Option.bind_some]
    rfl
  rw [hcmd]
  cases hb : a.classBoostTrees nt tanh m.toNat l.toNat s.toNat draws order fm how (max 1 a.nTrees) 1
      (classState T fr fa fp n (hot pos lab) (fun _ => start) lr (.fin start) pos) w with
  | none =>
    refine ⟨fun _ => ?_, fun file h => by cases h⟩
    rw [hmiss]
    obtain ⟨g1, g2⟩ := b1 hb
    exact ⟨(hb4 g1).1, (hb4 g1).2, g2⟩
  | some out =>
    obtain ⟨o1, o2⟩ := b2 out hb
    have hall : ∀ x ∈ out, x.1.weight = .fin lr ∧ ∃ v, AnsweringTree nt fm a s.toNat n v x := by
      intro x hx
      obtain ⟨k, hk⟩ := List.mem_iff_getElem?.1 hx
      exact ⟨(o2 k x hk).1, _, (o2 k x hk).2⟩
    have hvot : (out.map voterOf).map (·.1) = (out.map (·.1)).map fun t => ({ t with root := prune t.root } : Tree K) := by
      rw [List.map_map, List.map_map]
      rfl
    have hplain : Plain a.target.toList := by
      rw [← hn]
      exact (hc.tidy _ hf).1
    have hcasesOk : fm.allCases = some (List.range n) := by rw [← hcases]; exact hP.cases
    obtain ⟨file0, f', w1, w2, w3, w4, w5, w6⟩ := written_forest hcasesOk hnt hord (target := a.target) (some (.fin start))
      (trees := (out.map voterOf).map (·.1)) (by
        intro h
        have : out = [] := by simpa using h
        rw [this] at o1
        simp at o1
        omega) hplain (by
        intro t ht
        obtain ⟨x, hx, rfl⟩ := List.mem_map.1 ht
        obtain ⟨x, hxo, rfl⟩ := List.mem_map.1 hx
        obtain ⟨-, v, h⟩ := hall x hxo
        exact ⟨h.target, h.writable, h.noMissing, h.usable, h.codes⟩) a.progress
    have hfile : growforestFile nt ord a.progress a.target (some (.fin start)) (out.map (·.1)) = some file0 := by
      rw [← w1, hvot]
      unfold growforestFile
      rw [recordTrees_prune]
    refine ⟨fun h => ?_, fun file h => ?_⟩
    · rw [Option.bind_some, hfile] at h
      cases h
    rw [Option.bind_some, hfile] at h
    cases h
    refine ⟨out, f', o1, fun k x hx => ?_, w2, w3, w4, w5, w6⟩
    have h := o2 k x hx
    rw [List.nil_append] at h
    rw [← List.map_take, List.map_map]
    exact h

/-- **C149.** The text of a table is parsed, growforest with `-gbt lr`, `-positive pos` and one worker grows a forest from it and writes
it, applyforest with `-sum` reads the file and adds up what the trees say of the same table. Nothing on this way panics; growforest can only go
on drawing. There are as many trees as asked for, at least one. The start is the logarithm of the odds of the positive class. Each tree
answers with Newton's step over the cases of its bag in the same leaf, for the probabilities that the start and the trees before it make.
What is predicted is the start plus `lr` times the sum of the answers, or with `-expit` the probability for it, which is between 0 and 1.

The hyperbolic tangent and the logarithm are oracles that agree with any `T` between -1 and 1 and any `L` on finite numbers.

Missing from the full property: targets with missing classes, `c149_missing`; a positive class that all cases or none have, `c149_absent`;
applyforest without `-sum`, `c149_panics`; more than two trees without `-test`, `c149_reused`; more than one worker. -/
theorem c149_boosted_partial [FloorRing K] {nt : NumText K} (hnt : ∀ x, nt.Faithful x) {tanh log : XF K → XF K} {T L : K → K}
    (hT : ∀ x, tanh (.fin x) = .fin (T x)) (hT1 : ∀ x, -1 < T x ∧ T x < 1) (hL : ∀ x, 0 < x → log (.fin x) = .fin (L x))
    {ord : Splitter K → List String}
    (hord : ∀ s : Splitter K, (ord s).Perm s.left) {order : List Nat → List Nat} (horder : ∀ bag, (order bag).Perm bag)
    {text : Text} {fm : FeatureMatrix K} (hp : parseAFM nt text = some fm) {a : GrowArgs} (hc : fm.Clean a.target)
    {f : CatFeature} (hf : .cat f ∈ fm.data) (hn : f.name = a.target) (hids : a.target ∉ a.blacklist) {n : Nat}
    (hcases : fm.caseLabels.length = n) {lab : Nat → String} (hlab : f.Labels n lab) {pos : String}
    (hpos : 0 < hotCount pos lab n) (hneg : hotCount pos lab n < n) {m l s : Int}
    (hm : inferMTry nt a.mTry (allowedFeatures fm a.blacklist a.target a.block a.incl).length = some m)
    (hmle : m ≤ (allowedFeatures fm a.blacklist a.target a.block a.incl).length)
    (hl : inferLeafSize nt a.leafSize true f.cm.nCats n = some l) (hl1 : 1 ≤ l)
    (hs : inferNSamples nt a.nSamples n = some s) (hent : a.entropy = false)
    (hvet : ¬ (a.vet = true ∧ a.evaloob = true)) (hnew : a.dotest = true ∨ a.nTrees ≤ 2) {lr : K} (hlr : 0 < lr) (draws : Nat)
    (own global : Rng) {start : K} (hstart : start = L ((hotCount pos lab n : K) / ((n : K) - hotCount pos lab n))) :
    (classBoostCommand nt tanh log ord a lr pos draws order text own global = none →
      a.nobag = false ∧ a.balance = false ∧ ∃ rng, bagLoop (f.missing[·]?) n s.toNat draws [] rng = none) ∧
    ∀ file, classBoostCommand nt tanh log ord a lr pos draws order text own global = some file →
      ∃ voters : List (Tree K × List Nat), voters.length = max 1 a.nTrees ∧
        (∀ x ∈ voters, (∀ c ∈ x.2, c < n) ∧ (a.nobag = false → x.2.length = s) ∧
          (a.nobag = true → x.2.Nodup ∧ x.2.length = min s n) ∧ x.2 ≠ []) ∧
        (∀ (k : Nat) x, voters[k]? = some x → ∀ c < n, AnswersBy fm (fun S p => S ≠ [] ∧ p = String.ofList (nt.fmt (.fin (newtonStep
          (hot pos lab) (fun d => probabilityOf T (boostedSum nt fm start lr ((voters.take k).map (·.1)) d)) S)))) x c) ∧
        ∀ o : ApplyOptions, o.sum = true →
          ∃ forest bb, applyCommand nt o file text = some (forest, bb) ∧ forest.target = a.target ∧
            ∀ c < n, ∀ res, bb.Predicts nt tanh o forest.intercept c res ↔
              res = some (String.ofList (nt.fmt (.fin (if o.expit then probabilityOf T (boostedSum nt fm start lr (voters.map (·.1)) c)
                else boostedSum nt fm start lr (voters.map (·.1)) c)))) := by
  obtain ⟨core1, core2⟩ := class_boosted_file hnt hT hT1 hL hord horder hp hc hf hn hids hcases hlab hpos hneg hm hmle hl hl1 hs hent hvet hnew hlr
    draws own global hstart
  refine ⟨core1, fun file h => ?_⟩
  obtain ⟨out, f', o1, o2, w2, w3, w4, w5, -⟩ := core2 file h
  obtain ⟨ti', b, hP⟩ := prepared hp hc hf hn hids
  have hn0 : 0 < n := by omega
  have hs1 : 1 ≤ s := inferNSamples_pos (by omega) hs
  have hcasesOk : fm.allCases = some (List.range n) := by rw [← hcases]; exact hP.cases
  have hall : ∀ x ∈ out, x.1.weight = .fin lr ∧ ∃ v, AnsweringTree nt fm a s.toNat n v x := by
    intro x hx
    obtain ⟨k, hk⟩ := List.mem_iff_getElem?.1 hx
    exact ⟨(o2 k x hk).1, _, (o2 k x hk).2⟩
  have hfinv : ∀ t ∈ (out.map voterOf).map (·.1), t.weight = .fin lr ∧ t.FiniteFor (fun p => nt.parse p.toList) fm n ∧
      Usable fm (List.range n) t.root := by
    intro t ht
    obtain ⟨x, hx, rfl⟩ := List.mem_map.1 ht
    obtain ⟨x, hxo, rfl⟩ := List.mem_map.1 hx
    obtain ⟨h1, v, h⟩ := hall x hxo
    exact ⟨h1, (h.finite hnt (by omega) hn0).2, h.usable⟩
  have hanswers : ∀ (k : Nat) x, (out.map voterOf)[k]? = some x → ∀ c < n, AnswersBy fm (fun S p => S ≠ [] ∧ p = String.ofList (nt.fmt (.fin (newtonStep
        (hot pos lab) (fun d => probabilityOf T (boostedSum nt fm start lr (((out.map voterOf).take k).map (·.1)) d)) S)))) x c := by
    intro k x hx c hcn
    rw [List.getElem?_map] at hx
    obtain ⟨z, hz, rfl⟩ := Option.map_eq_some_iff.1 hx
    have h := (o2 k z hz).2
    have := h.answers (h.finite hnt (by omega) hn0).1 c hcn
    exact this
  have hbags : ∀ x ∈ out.map voterOf, (∀ c ∈ x.2, c < n) ∧ (a.nobag = false → x.2.length = s) ∧
        (a.nobag = true → x.2.Nodup ∧ x.2.length = min s n) ∧ x.2 ≠ [] := by
    intro x hx
    obtain ⟨x, hxo, rfl⟩ := List.mem_map.1 hx
    obtain ⟨h1, v, h⟩ := hall x hxo
    have hL := h.length
    refine ⟨h.range, fun hnb => ?_, fun hnb => ⟨h.nodup hnb, ?_⟩, (h.finite hnt (by omega) hn0).1⟩
    · rw [hnb] at hL
      simp only [voterOf]
      simp at hL
      omega
    · rw [hnb] at hL
      simp only [voterOf]
      simp at hL
      omega
  refine ⟨out.map voterOf, by rw [List.length_map, o1], hbags, hanswers, fun o ho1 => ?_⟩
  obtain ⟨bb, e1, e2⟩ := c97_sum nt tanh o ⟨a.target, (out.map voterOf).map (·.1), .fin start⟩ fm n start hcasesOk (by
    intro t ht
    obtain ⟨h1, -, h3⟩ := hfinv t ht
    refine ⟨⟨lr, h1⟩, fun cs hcs => ?_⟩
    rw [hcasesOk] at hcs
    cases hcs
    exact h3) rfl ho1 (by
    intro t ht i hi p x ho hx
    obtain ⟨-, h2, -⟩ := hfinv t ht
    obtain ⟨y, hy, rfl⟩ := Option.map_eq_some_iff.1 ho
    exact h2 i hi y hy x hx)
  refine ⟨f', bb, ?_, w3, ?_⟩
  · simp only [applyCommand, hp, w2, Option.bind_eq_bind, Option.bind_some]
    rw [w5 o]
    rw [show applyForest nt o ⟨a.target, (out.map voterOf).map (·.1), XF.fin start⟩ fm = some bb from e1]
    rfl
  · intro c hcn res
    rw [w4]
    have := e2 c hcn res
    rw [weightedSum_boosted (le_of_lt hlr) hcn _ fun t ht => ⟨(hfinv t ht).1, (hfinv t ht).2.1⟩, add_comm] at this
    rw [show o.transform tanh (.fin (start + lr * (((out.map voterOf).map (·.1)).map fun t =>
      treeValue (fun p => nt.parse p.toList) fm t c).sum)) = .fin (if o.expit then probabilityOf T (boostedSum nt fm start lr
        ((out.map voterOf).map (·.1)) c) else boostedSum nt fm start lr ((out.map voterOf).map (·.1)) c) by
      unfold ApplyOptions.transform
      split
      · rw [expit_fin hT, probabilityOf_eq]
        rfl
      · rfl] at this
    exact this

/-- **C149 is false of the code** without `-sum`: for a forest with an intercept other than zero applyforest counts votes for classes, and
panics on the first case. -/
theorem c149_panics (nt : NumText K) (tanh : XF K → XF K) (o : ApplyOptions) (forest : Forest K) (fm : FeatureMatrix K)
    (n : Nat) (hc : fm.allCases = some (List.range n)) (hf : forest.Fits fm) (hi : forest.intercept ≠ .fin 0)
    (hsum : o.sum = false) (hcat : o.cat = true ∨ o.num = false ∧ forest.target.toList.head? ≠ some 'N') :
    ∃ bb, applyForest nt o forest fm = some bb ∧ ∀ i, ∀ res, bb.Predicts nt tanh o forest.intercept i res ↔ res = none := by
  obtain ⟨fv, h1, h2⟩ := applyForest_casts nt o forest fm n hc hf
  obtain ⟨bb, e, -⟩ := c25_tally n fv fun v hv => (mem_forestVotes (h1.mem_iff.1 hv)).1
  rw [(chooseBox_eq o forest.target n).2.1 hsum hcat] at h2
  refine ⟨.cat bb, by rw [h2, Box.castVotes, e]; rfl, fun i res => ?_⟩
  unfold Box.Predicts
  rw [if_pos (.inr hi)]
  rfl

/-! ## Examples -/

/-- A function with values between -1 and 1, in place of the hyperbolic tangent. -/
def exSquash : XF ℚ → XF ℚ
  | .nan => .nan
  | .pinf => .fin 1
  | .ninf => .fin (-1)
  | .fin x => .fin (if 0 < x then 1 / 2 else if x < 0 then -1 / 2 else 0)

/-- A function in place of the logarithm. -/
def exLess : XF ℚ → XF ℚ
  | .nan => .nan
  | .pinf => .pinf
  | .ninf => .nan
  | .fin x => if x = 0 then .ninf else .fin (x - 1)

/-- Grow a forest that boosts classes, read its file and write the predictions for `n` cases of the table. -/
def exClassSums (a : GrowArgs) (lr : ℚ) (pos : String) (o : ApplyOptions) (table : Text) (n : Nat) (own global : Rng) :
    Option (List (Option (XF ℚ))) :=
  (classBoostCommand exStrokes exSquash exLess (fun s => s.left) a lr pos 20 id table own global).bind fun file =>
    (applyCommand exStrokes o file table).map fun x => (List.range n).map fun i => x.2.number exSquash o x.1.intercept i

/-- A table with two classes as target. -/
def exClassTable : Text :=
  ".\tC:y\tN:a\tN:b\na\tno\t0\t01\nb\tno\t01\t0111\nc\tno\t011\t0\nd\tyes\t0111\t011\ne\tyes\t01111\t011\n".toList

/-- Three trees on all cases, grown with new tree objects. -/
def exClassArgs : GrowArgs :=
  { target := "C:y", nTrees := 3, mTry := ['1'], leafSize := ['1'], nobag := true, dotest := true }

/-- The conditions of `c149_boosted_partial` hold, and the commands work. -/
example : (∀ x, exStrokes.Faithful x) ∧ (∃ (T L : ℚ → ℚ), (∀ x, exSquash (.fin x) = .fin (T x)) ∧ (∀ x, -1 < T x ∧ T x < 1) ∧
      ∀ x, 0 < x → exLess (.fin x) = .fin (L x)) ∧
    (∃ fm f lab, parseAFM exStrokes exClassTable = some fm ∧ fm.Clean exClassArgs.target ∧
      .cat f ∈ fm.data ∧ f.name = exClassArgs.target ∧ exClassArgs.target ∉ exClassArgs.blacklist ∧ fm.caseLabels.length = 5 ∧
      f.Labels 5 lab ∧ hotCount "yes" lab 5 = 2 ∧
      inferMTry exStrokes exClassArgs.mTry (allowedFeatures fm exClassArgs.blacklist exClassArgs.target exClassArgs.block exClassArgs.incl).length =
        some 1 ∧ (1 : Int) ≤ (allowedFeatures fm exClassArgs.blacklist exClassArgs.target exClassArgs.block exClassArgs.incl).length ∧
      inferLeafSize exStrokes exClassArgs.leafSize true f.cm.nCats 5 = some 1 ∧ inferNSamples exStrokes exClassArgs.nSamples 5 = some 5) ∧
    exClassSums exClassArgs (1 / 2) "yes" ⟨false, true, false, false⟩ exClassTable 5 (fun k => (3 / 2 ^ (k % 4)) % 2) (fun k => k) =
      some ([-7 / 3, -7 / 3, -7 / 3, 3, 3].map fun q => some (.fin q)) ∧
    exClassSums exClassArgs (1 / 2) "yes" ⟨false, true, true, false⟩ exClassTable 5 (fun k => (3 / 2 ^ (k % 4)) % 2) (fun k => k) =
      some ([1 / 4, 1 / 4, 1 / 4, 3 / 4, 3 / 4].map fun q => some (.fin q)) := by
  refine ⟨exStrokes_faithful, ⟨_, fun x => x - 1, fun x => rfl, fun x => ?_, fun x hx => ?_⟩, ?_, by decide +kernel, by decide +kernel⟩
  · constructor <;> (split_ifs <;> norm_num)
  · show (if x = 0 then XF.ninf else XF.fin (x - 1)) = _
    rw [if_neg hx.ne']
  have h : (parseAFM exStrokes exClassTable).any (fun fm => cleanCheck fm "C:y" && (match fm.data with
      | .cat f :: _ => decide (f.name = "C:y" ∧ f.missing = List.replicate 5 false ∧ f.catData = [0, 0, 0, 1, 1] ∧ f.cm.back = ["no", "yes"])
      | _ => false) && decide (fm.caseLabels.length = 5 ∧ (allowedFeatures fm [] "C:y" none none).length = 2)) = true := by
    decide +kernel
  obtain ⟨fm, h1, h2⟩ := (Option.any_eq_true _ _).1 h
  simp only [Bool.and_eq_true, decide_eq_true_eq] at h2
  obtain ⟨⟨c1, c2⟩, c3, c4⟩ := h2
  split at c2
  · rename_i f _ hd
    simp only [decide_eq_true_eq] at c2
    obtain ⟨d1, d2, d3, d4⟩ := c2
    refine ⟨fm, f, fun i => if i < 3 then "no" else "yes", h1, cleanCheck_ok c1, by rw [hd]; simp, d1, by decide, c3, fun i hi => ?_,
      by decide, ?_, ?_, ?_, by decide +kernel⟩
    · rw [d2, d3, d4]
      interval_cases i
      · exact ⟨rfl, 0, rfl, rfl⟩
      · exact ⟨rfl, 0, rfl, rfl⟩
      · exact ⟨rfl, 0, rfl, rfl⟩
      · exact ⟨rfl, 1, rfl, rfl⟩
      · exact ⟨rfl, 1, rfl, rfl⟩
    · show inferMTry exStrokes ['1'] (allowedFeatures fm [] "C:y" none none).length = some 1
      rw [c4]
      decide +kernel
    · show (1 : Int) ≤ (allowedFeatures fm [] "C:y" none none).length
      rw [c4]
      decide
    · unfold CatMap.nCats
      rw [d4]
      decide +kernel
  · cases c2

/-- Without `-sum` the same forest makes applyforest panic. -/
example : exClassSums exClassArgs (1 / 2) "yes" ⟨false, false, false, false⟩ exClassTable 5 (fun k => (3 / 2 ^ (k % 4)) % 2) (fun k => k) =
    some [none, none, none, none, none] := by
  decide +kernel

/-- **C149 is false of the code** for a positive class that does not occur, such as the default of `-positive` on this table: the odds are
zero, their logarithm is infinite, and nothing is predicted for any case. -/
theorem c149_absent :
    exClassSums exClassArgs (1 / 2) "True" ⟨false, true, true, false⟩ exClassTable 5 (fun k => (3 / 2 ^ (k % 4)) % 2) (fun k => k) =
      some [some .nan, some .nan, some .nan, some .nan, some .nan] := by
  decide +kernel

/-- **C149 is false of the code** for missing classes. The feature says nothing, one case is positive and one negative; the odds are even,
the start is 0 and so is what is predicted. With a further case, of unknown class, the start is -1/2, since the case counts as
negative. The tree is grown on the other two and predicts 5/6 for all. -/
theorem c149_missing :
    exClassSums { target := "C:y", nTrees := 1, leafSize := ['1'], nobag := true } 1 "yes" ⟨false, true, false, false⟩
        ".\tC:y\tN:a\na\tno\t0\nb\tyes\t0\n".toList 2 (fun k => k) (fun k => k) = some [some (.fin 0), some (.fin 0)] ∧
    exClassSums { target := "C:y", nTrees := 1, leafSize := ['1'], nSamples := ['3'], nobag := true } 1 "yes" ⟨false, true, false, false⟩
        ".\tC:y\tN:a\na\tno\t0\nb\tyes\t0\nc\tNA\t0\n".toList 3 (fun k => k) (fun k => k) =
      some [some (.fin (5 / 6)), some (.fin (5 / 6)), some (.fin (5 / 6))] := by
  decide +kernel

/-- A table where one case looks like another of the other class, unless two features are looked at. -/
def exMixedTable : Text :=
  ".\tC:y\tN:a\tN:b\na\tno\t0\t01\nb\tyes\t01\t0111\nc\tno\t011\t0\nd\tyes\t0111\t011\ne\tyes\t01111\t011\n".toList

/-- **C149 is false of the code** without `-test`, when the worker grows its tree object again. Case b is positive. New trees find that out;
with the tree object grown again its log odds fall with every tree, since the residuals are not reduced. -/
theorem c149_reused :
    (List.range 4).map (fun k => (exClassSums { exClassArgs with nTrees := k + 2 } (1 / 4) "yes" ⟨false, true, false, false⟩ exMixedTable 5
        (fun _ => 0) (fun k => k)).bind fun l => l[1]?) =
      ([-1 / 6, 5 / 6, 5 / 6, 5 / 6] : List ℚ).map (fun q => some (some (.fin q))) ∧
    (List.range 4).map (fun k => (exClassSums { exClassArgs with nTrees := k + 2, dotest := false } (1 / 4) "yes" ⟨false, true, false, false⟩
        exMixedTable 5 (fun _ => 0) (fun k => k)).bind fun l => l[1]?) =
      ([-1 / 6, -1 / 2, -5 / 6, -7 / 6] : List ℚ).map (fun q => some (some (.fin q))) := by
  decide +kernel

end CloudForest
