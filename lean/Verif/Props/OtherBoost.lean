import Verif.Props.ClassBoostCommand
import Verif.Props.OtherData
import Verif.Props.BoostCores

/-!
# C160: boosted forests and other data
-/

set_option linter.unusedSectionVars false

namespace CloudForest
variable {K : Type} [Field K] [LinearOrder K] [IsStrictOrderedRing K]

/-! ## Proof -/

/-- Trees boosted for numbers are like those boosted for classes, with other answers. -/
theorem BoostedTree.answering {nt : NumText K} {fm : FeatureMatrix K} {a : GrowArgs} {s n ti : Nat} {v : Nat → K} {x : Tree K × List Nat}
    (h : BoostedTree nt fm a s n ti v x) : AnsweringTree nt fm a s n (meanBy v) x :=
  ⟨h.target, h.length, h.nodup, h.range, h.usable, h.writable, h.noMissing, h.codes, h.answers, h.leaves, fun s hs => ⟨ti, h.names s hs⟩⟩

theorem meanBy_perm (v : Nat → K) {S S' : List Nat} (h : S.Perm S') : meanBy v S = meanBy v S' := by
  unfold meanBy
  rw [h.length_eq, (h.map v).sum_eq]

/-- What a boosted tree answers on another table. -/
theorem AnsweringTree.answersIn {nt : NumText K} {fm fm2 : FeatureMatrix K} {a : GrowArgs} {s n : Nat} {ans : List Nat → K} {x : Tree K × List Nat}
    (h : AnsweringTree nt fm a s n ans x) (hans : ∀ S S', S.Perm S' → ans S = ans S') (hne : x.2 ≠ []) (hR : fm2.Rectangular) (hI : fm2.Indexed) (h0 : fm2.data ≠ [])
    {c : Nat} (hc : c < fm2.caseLabels.length) :
    AnswersIn fm fm2 (fun S p => S ≠ [] ∧ p = String.ofList (nt.fmt (.fin (ans S)))) (voterOf x) c := by
  have hu2 := usable_stripCodes h.usable h.codes hR hI h0
  unfold AnswersIn
  cases hop : (voterOf x).1.named.opinion fm2 c with
  | none => exact landing_none (List.mem_range.2 hc) hu2 (Option.map_eq_none_iff.1 hop)
  | some p =>
    obtain ⟨y, hl, rfl⟩ := Option.map_eq_some_iff.1 hop
    have hleaf := landing_in_leaves hl
    rw [show (voterOf x).1.named.root = (prune x.1.root).stripCodes from rfl, leavesOf_stripCodes h.codes] at hleaf
    obtain ⟨S, h1, h2, h3⟩ := h.leaves hne y hleaf
    have hS : S.Perm (neighboursIn fm fm2 (voterOf x).1 (voterOf x).2 c) := by
      unfold neighboursIn
      rw [hl]
      exact h1
    refine ⟨fun h0 => h2 (by rw [h0] at hS; exact List.perm_nil.1 hS), ?_⟩
    rw [h3, hans _ _ hS]

/-- A case with the values of a case of the training data is answered like it. -/
theorem AnsweringTree.alike {nt : NumText K} {fm fm2 : FeatureMatrix K} {a : GrowArgs} {F : Feature K} {s n ti' : Nat} {b : Blacklist}
    {ans : List Nat → K} {x : Tree K × List Nat} (h : AnsweringTree nt fm a s n ans x) (hP : Prepared fm a F ti' b) (ht : ∃ f ∈ fm.data, f.name = a.target) (hI : fm.Indexed) (hI2 : fm2.Indexed)
    (hnd : (fm2.data.map Feature.name).Nodup) {d c : Nat} (hd : d < n)
    (ha : Alike (allowedFeatures fm a.blacklist a.target a.block a.incl) fm2 d c) :
    landing fm2 (voterOf x).1.named.root c = landing fm (voterOf x).1.root d := by
  rw [show (voterOf x).1.named.root = (prune x.1.root).stripCodes from rfl, show (voterOf x).1.root = prune x.1.root from rfl]
  apply landing_same (cases := List.range n) (List.mem_range.2 hd) h.usable h.codes
  intro s hs
  obtain ⟨ti, b', i, f, e1, e2, e3, hfn⟩ := h.names s hs
  obtain ⟨t0, b0, h0, k, -⟩ := c93_candidates_partial fm hI hP.matrix.named a.blacklist a.target a.block a.incl ht
  rw [h0] at e1
  cases e1
  obtain ⟨f', k1, k2⟩ := (k i).1 e2
  rw [e3] at k1
  cases k1
  have hf := List.mem_of_getElem? e3
  have hall : f ∈ allowedFeatures fm a.blacklist a.target a.block a.incl := List.mem_filter.2 ⟨hf, decide_eq_true k2⟩
  obtain ⟨g, hg, hgn, hsv⟩ := ha f hall
  obtain ⟨j, hj⟩ := hI2.complete g hg
  obtain ⟨g', hg', hgn'⟩ := hI2.sound _ _ hj
  have hgg : g' = g := List.inj_on_of_nodup_map hnd (List.mem_of_getElem? hg') hg hgn'
  subst hgg
  refine ⟨f, g', ?_, ?_, hsv⟩
  · rw [← hfn, hP.matrix.named i f e3]
    exact e3
  · rw [← hfn, ← hgn, hj]
    exact hg'

theorem meanBy_abs {v : Nat → K} {S : List Nat} (hne : S ≠ []) {B : K} (h : ∀ d ∈ S, |v d| ≤ B) : |meanBy v S| ≤ B := by
  have := mean_between (l := S.map v) (by simpa using hne) (lo := -B) (hi := B) (by
    intro y hy
    obtain ⟨d, hd, rfl⟩ := List.mem_map.1 hy
    exact abs_le.1 (h d hd))
  rw [List.length_map] at this
  exact abs_le.2 this

/-- The square of a mean is at most the sum of the squares. -/
theorem meanBy_sq {v : Nat → K} {n : Nat} {S : List Nat} (hnd : S.Nodup) (hS : ∀ d ∈ S, d < n) :
    meanBy v S ^ 2 ≤ ((List.range n).map fun i => v i ^ 2).sum := by
  have hsub : ((S.map v).map fun x => x ^ 2).sum ≤ ((List.range n).map fun i => v i ^ 2).sum := by
    obtain ⟨T, hT, hTS⟩ := List.subperm_of_subset hnd fun c hc => List.mem_range.2 (hS c hc)
    rw [List.map_map, show ((fun x : K => x ^ 2) ∘ v) = fun i => v i ^ 2 from rfl, ← (hT.map fun i => v i ^ 2).sum_eq]
    exact List.Sublist.sum_le_sum (hTS.map _) fun x hx => by
      obtain ⟨i, -, rfl⟩ := List.mem_map.1 hx
      positivity
  rcases S.eq_nil_or_concat with rfl | ⟨_, _, rfl⟩
  · simp only [meanBy, List.map_nil, List.sum_nil, zero_div]
    simpa using hsub
  · rename_i S d
    generalize hSS : S.concat d = T at *
    have hpos : (1 : K) ≤ T.length := by
      have : 1 ≤ T.length := by rw [← hSS]; simp
      exact_mod_cast this
    have h0 : (0 : K) < T.length := by linarith
    have hQ : 0 ≤ ((T.map v).map fun x => x ^ 2).sum := List.sum_nonneg fun x hx => by
      obtain ⟨y, -, rfl⟩ := List.mem_map.1 hx
      positivity
    have := sq_sum_le (T.map v)
    rw [List.length_map] at this
    refine le_trans ?_ hsub
    unfold meanBy
    rw [div_pow, div_le_iff₀ (by positivity)]
    refine this.trans ?_
    nlinarith

/-- applyforest reads a boosted forest and adds up what its trees say of another table. -/
theorem summed_other {nt : NumText K} (hnt : ∀ x, nt.Faithful x) {fm : FeatureMatrix K} {a : GrowArgs} {s n : Nat} (hs : 1 ≤ s) (hn0 : 0 < n)
    {out : List (Tree K × List Nat)} {lr start : K} (hlr : 0 < lr)
    (hall : ∀ x ∈ out, x.1.weight = .fin lr ∧ ∃ ans, AnsweringTree nt fm a s n ans x ∧ ∀ S S', S.Perm S' → ans S = ans S')
    {file : Text} {f' : Forest K} (w2 : readForest nt file = some ⟨some f', .ok, []⟩) (w3 : f'.target = a.target) (w4 : f'.intercept = .fin start)
    (w6 : ∀ o fm2, applyForest nt o f' fm2 = applyForest nt o ⟨a.target, ((out.map voterOf).map (·.1)).map Tree.named, .fin start⟩ fm2)
    {text2 : Text} {fm2 : FeatureMatrix K} (hp2 : parseAFM nt text2 = some fm2) (h0 : fm2.data ≠ [])
    (tanh : XF K → XF K) {o : ApplyOptions} (ho1 : o.sum = true) :
    ∃ forest bb, applyCommand nt o file text2 = some (forest, bb) ∧ forest.target = a.target ∧
      ∀ c < fm2.caseLabels.length, ∀ res, bb.Predicts nt tanh o forest.intercept c res ↔
        res = some (String.ofList (nt.fmt (o.transform tanh (.fin (boostedSum nt fm2 start lr ((out.map voterOf).map (·.1.named)) c))))) := by
  obtain ⟨hR2, hI2⟩ := c139_afm nt text2 fm2 hp2
  have hcs2 := parsed_cases hp2 h0
  have htrees : ((out.map voterOf).map (·.1)).map Tree.named = (out.map voterOf).map (·.1.named) := by
    rw [List.map_map]
    rfl
  rw [htrees] at w6
  have hfin : ∀ t ∈ (out.map voterOf).map (·.1.named), t.weight = .fin lr ∧ t.FiniteFor (fun p => nt.parse p.toList) fm2 fm2.caseLabels.length ∧
      Usable fm2 (List.range fm2.caseLabels.length) t.root := by
    intro t ht
    obtain ⟨x, hx, rfl⟩ := List.mem_map.1 ht
    obtain ⟨z, hz, rfl⟩ := List.mem_map.1 hx
    obtain ⟨h1, ans, h, hperm⟩ := hall z hz
    refine ⟨h1, fun i hi y hy w hw => ?_, usable_stripCodes h.usable h.codes hR2 hI2 h0⟩
    have := h.answersIn hperm (h.finite hnt hs hn0).1 hR2 hI2 h0 hi
    unfold AnswersIn at this
    rw [show (voterOf z).1.named.opinion fm2 i = some y.2 by unfold Tree.opinion; rw [hy]; rfl] at this
    obtain ⟨-, this⟩ := this
    have hw : nt.parse y.2.toList = some w := hw
    rw [this, String.toList_ofList, (hnt _).2] at hw
    cases hw
    exact ⟨_, rfl⟩
  obtain ⟨bb, e1, e2⟩ := c97_sum nt tanh o ⟨a.target, (out.map voterOf).map (·.1.named), .fin start⟩ fm2 fm2.caseLabels.length start hcs2 (by
      intro t ht
      obtain ⟨h1, -, h3⟩ := hfin t ht
      refine ⟨⟨lr, h1⟩, fun cs hcs => ?_⟩
      rw [hcs2] at hcs
      cases hcs
      exact h3) rfl ho1 (by
      intro t ht i hi p x ho hx
      obtain ⟨-, h2, -⟩ := hfin t ht
      obtain ⟨y, hy, rfl⟩ := Option.map_eq_some_iff.1 ho
      exact h2 i hi y hy x hx)
  refine ⟨f', bb, ?_, w3, ?_⟩
  · simp only [applyCommand, hp2, w2, Option.bind_eq_bind, Option.bind_some]
    rw [w6 o fm2, e1]
    rfl
  · intro c hcn res
    rw [w4]
    have := e2 c hcn res
    rw [weightedSum_boosted (le_of_lt hlr) hcn _ fun t ht => ⟨(hfin t ht).1, (hfin t ht).2.1⟩, add_comm] at this
    exact this

/-- Cases that are alike get the same sum. -/
theorem summed_alike {nt : NumText K} {fm : FeatureMatrix K} {a : GrowArgs} {F : Feature K} {ti' : Nat} {b : Blacklist} {s n : Nat}
    {out : List (Tree K × List Nat)} {lr start : K} (hall : ∀ x ∈ out, ∃ ans, AnsweringTree nt fm a s n ans x)
    (hP : Prepared fm a F ti' b) (ht : ∃ f ∈ fm.data, f.name = a.target) (hI : fm.Indexed) {fm2 : FeatureMatrix K} (hI2 : fm2.Indexed)
    (hnd : (fm2.data.map Feature.name).Nodup) {d c : Nat} (hd : d < n)
    (ha : Alike (allowedFeatures fm a.blacklist a.target a.block a.incl) fm2 d c) :
    boostedSum nt fm2 start lr ((out.map voterOf).map (·.1.named)) c = boostedSum nt fm start lr ((out.map voterOf).map (·.1)) d := by
  unfold boostedSum
  simp only [List.map_map]
  congr 3
  apply List.map_congr_left
  intro z hz
  obtain ⟨v, h⟩ := hall z hz
  simp only [Function.comp, treeValue]
  rw [h.alike hP ht hI hI2 hnd hd ha]

theorem boosted_pos {nt : NumText K} {text : Text} {fm : FeatureMatrix K} (hp : parseAFM nt text = some fm) {a : GrowArgs} (hc : fm.Clean a.target)
    {f : NumFeature K} (hf : .num f ∈ fm.data) (hn : f.name = a.target) (hids : a.target ∉ a.blacklist) {n : Nat} [FloorRing K]
    (hcases : fm.caseLabels.length = n) {s : Int} (hs : inferNSamples nt a.nSamples n = some s) : 0 < n ∧ 1 ≤ s := by
  obtain ⟨ti', b, hP⟩ := prepared hp hc hf hn hids
  obtain ⟨i0, hi0⟩ := hc.known _ hf hn
  have hi0 : f.missing[i0]? = some false := hi0
  have hlen : f.missing.length = n := by rw [← hcases]; exact hP.length
  have hn0 : 0 < n := by
    have := (List.getElem?_eq_some_iff.1 hi0).1
    omega
  exact ⟨hn0, inferNSamples_pos (by omega) hs⟩


theorem boosted_other [FloorRing K] {nt : NumText K} (hnt : ∀ x, nt.Faithful x) {ord : Splitter K → List String}
    (hord : ∀ s : Splitter K, (ord s).Perm s.left) {order : List Nat → List Nat} (horder : ∀ bag, (order bag).Perm bag)
    {text : Text} {fm : FeatureMatrix K} (hp : parseAFM nt text = some fm) {a : GrowArgs} (hc : fm.Clean a.target)
    {f : NumFeature K} (hf : .num f ∈ fm.data) (hn : f.name = a.target) (hids : a.target ∉ a.blacklist) {n : Nat}
    (hcases : fm.caseLabels.length = n) (hknown : ∀ i < n, f.missing[i]? = some false) {m l s : Int}
    (hm : inferMTry nt a.mTry (allowedFeatures fm a.blacklist a.target a.block a.incl).length = some m)
    (hmle : m ≤ (allowedFeatures fm a.blacklist a.target a.block a.incl).length)
    (hl : inferLeafSize nt a.leafSize true 0 n = some l) (hl1 : 1 ≤ l)
    (hs : inferNSamples nt a.nSamples n = some s) (hbal : a.balance = false)
    (hvet : ¬ (a.vet = true ∧ a.evaloob = true)) (hnew : a.dotest = true ∨ a.nTrees ≤ 2) {lr : K} (hlr : 0 < lr) (draws : Nat)
    (own global : Rng) {file : Text} (hfile : boostCommand nt ord a lr draws order text own global = some file) :
    ∃ (ti : Nat) (out : List (Tree K × List Nat)), (∀ (k : Nat) x, out[k]? = some x → BoostedTree nt fm a s.toNat n ti
          (fun d => f.value d - boostedSum nt fm (meanBy f.value (List.range n)) lr (((out.map voterOf).take k).map (·.1)) d) x) ∧
    ∃ voters : List (Tree K × List Nat), voters = out.map voterOf ∧ voters.length = max 1 a.nTrees ∧
      (∀ x ∈ voters, (∀ c ∈ x.2, c < n) ∧ x.2 ≠ []) ∧
      ∀ (text2 : Text) (fm2 : FeatureMatrix K), parseAFM nt text2 = some fm2 → fm2.data ≠ [] →
        (∀ (k : Nat) x, voters[k]? = some x → ∀ c < fm2.caseLabels.length,
          AnswersIn fm fm2 (fun S p => S ≠ [] ∧ p = String.ofList (nt.fmt (.fin (meanBy
            (fun d => f.value d - boostedSum nt fm (meanBy f.value (List.range n)) lr ((voters.take k).map (·.1)) d) S)))) x c) ∧
        (∀ (tanh : XF K → XF K) (o : ApplyOptions), o.sum = true → o.expit = false →
          ∃ forest bb, applyCommand nt o file text2 = some (forest, bb) ∧ forest.target = a.target ∧
            ∀ c < fm2.caseLabels.length, ∀ res, bb.Predicts nt tanh o forest.intercept c res ↔
              res = some (String.ofList (nt.fmt (.fin (boostedSum nt fm2 (meanBy f.value (List.range n)) lr (voters.map (·.1.named)) c))))) ∧
        ((fm2.data.map Feature.name).Nodup → ∀ d < n, ∀ c, Alike (allowedFeatures fm a.blacklist a.target a.block a.incl) fm2 d c →
          boostedSum nt fm2 (meanBy f.value (List.range n)) lr (voters.map (·.1.named)) c =
            boostedSum nt fm (meanBy f.value (List.range n)) lr (voters.map (·.1)) d) := by
  obtain ⟨-, core⟩ := boosted_file hnt hord horder hp hc hf hn hids hcases hknown hm hmle hl hl1 hs hbal hvet hnew hlr draws own global
  obtain ⟨ti, out, f', o1, o2, w2, w3, w4, -, w6⟩ := core file hfile
  obtain ⟨ti', b, hP⟩ := prepared hp hc hf hn hids
  obtain ⟨hn0, hs1⟩ := boosted_pos hp hc hf hn hids hcases hs
  have hI := (c139_afm nt text fm hp).2
  generalize meanBy f.value (List.range n) = mean at o2 w4 w6 ⊢
  have hall : ∀ x ∈ out, x.1.weight = .fin lr ∧ ∃ ans, AnsweringTree nt fm a s.toNat n ans x ∧ ∀ S S', S.Perm S' → ans S = ans S' := by
    intro x hx
    obtain ⟨k, hk⟩ := List.mem_iff_getElem?.1 hx
    exact ⟨(o2 k x hk).1, _, (o2 k x hk).2.answering, fun _ _ => meanBy_perm _⟩
  refine ⟨ti, out, fun k x hx => (o2 k x hx).2, out.map voterOf, rfl, by rw [List.length_map, o1], fun x hx => ?_, fun text2 fm2 hp2 h0 => ?_⟩
  · obtain ⟨x, hxo, rfl⟩ := List.mem_map.1 hx
    obtain ⟨h1, v, h, -⟩ := hall x hxo
    exact ⟨h.range, (h.finite hnt (by omega) hn0).1⟩
  obtain ⟨hR2, hI2⟩ := c139_afm nt text2 fm2 hp2
  have hcs2 := parsed_cases hp2 h0
  have hans : ∀ (k : Nat) x, (out.map voterOf)[k]? = some x → ∀ c < fm2.caseLabels.length,
          AnswersIn fm fm2 (fun S p => S ≠ [] ∧ p = String.ofList (nt.fmt (.fin (meanBy
            (fun d => f.value d - boostedSum nt fm mean lr (((out.map voterOf).take k).map (·.1)) d) S)))) x c := by
    intro k x hx c hcn
    rw [List.getElem?_map] at hx
    obtain ⟨z, hz, rfl⟩ := Option.map_eq_some_iff.1 hx
    have h := (o2 k z hz).2
    exact h.answering.answersIn (fun _ _ => meanBy_perm _) (h.finite hnt (by omega) hn0).1 hR2 hI2 h0 hcn
  refine ⟨hans, fun tanh o ho1 ho2 => ?_, fun hnd d hd c ha =>
    summed_alike (fun x hx => (hall x hx).2.imp fun _ h => h.1) hP ⟨_, hf, hn⟩ hI hI2 hnd hd ha⟩
  obtain ⟨forest, bb, e1, e2, e3⟩ := summed_other hnt (by omega) hn0 hlr hall w2 w3 w4 w6 hp2 h0 tanh ho1
  refine ⟨forest, bb, e1, e2, fun c hcl res => ?_⟩
  have := e3 c hcl res
  rw [show ∀ x : K, o.transform tanh (.fin x) = .fin x from fun x => by unfold ApplyOptions.transform; rw [ho2]; rfl] at this
  exact this

/-- What a tree says of a case of another table is a mean over its bag, or nothing. -/
theorem treeValue_in {nt : NumText K} (hnt : ∀ x, nt.Faithful x) {fm fm2 : FeatureMatrix K} {v : Nat → K} {x : Tree K × List Nat} {c : Nat}
    (h : AnswersIn fm fm2 (fun S p => S ≠ [] ∧ p = String.ofList (nt.fmt (.fin (meanBy v S)))) x c) :
    treeValue (fun p => nt.parse p.toList) fm2 x.1.named c = 0 ∨ ∃ S : List Nat, S.Sublist x.2 ∧ S ≠ [] ∧
      treeValue (fun p => nt.parse p.toList) fm2 x.1.named c = meanBy v S := by
  unfold treeValue
  cases hl : landing fm2 x.1.named.root c with
  | none => exact .inl rfl
  | some y =>
    unfold AnswersIn at h
    rw [show x.1.named.opinion fm2 c = some y.2 by unfold Tree.opinion; rw [hl]; rfl] at h
    obtain ⟨h1, h2⟩ := h
    refine .inr ⟨_, List.filter_sublist, h1, ?_⟩
    simp only [predVal]
    rw [h2, String.toList_ofList, (hnt _).2]
    rfl

theorem treeValue_by {nt : NumText K} (hnt : ∀ x, nt.Faithful x) {fm : FeatureMatrix K} {v : Nat → K} {x : Tree K × List Nat} {c : Nat}
    (h : AnswersBy fm (fun S p => S ≠ [] ∧ p = String.ofList (nt.fmt (.fin (meanBy v S)))) x c) :
    treeValue (fun p => nt.parse p.toList) fm x.1 c = 0 ∨ ∃ S : List Nat, S.Sublist x.2 ∧ S ≠ [] ∧
      treeValue (fun p => nt.parse p.toList) fm x.1 c = meanBy v S := by
  unfold treeValue
  cases hl : landing fm x.1.root c with
  | none => exact .inl rfl
  | some y =>
    unfold AnswersBy at h
    rw [show x.1.opinion fm c = some y.2 by unfold Tree.opinion; rw [hl]; rfl] at h
    obtain ⟨h1, h2⟩ := h
    refine .inr ⟨_, List.filter_sublist, h1, ?_⟩
    simp only [predVal]
    rw [h2, String.toList_ofList, (hnt _).2]
    rfl

/-- Sums of answers that are each bounded by what is left, which grows by a factor. -/
theorem answers_bounded {lr A : K} (hlr : 0 < lr) {N : Nat} (g : Nat → K) (h : ∀ k < N, |g k| ≤ A * (1 + lr) ^ k) :
    |lr * ((List.range N).map g).sum| ≤ A * ((1 + lr) ^ N - 1) := by
  induction N with
  | zero => simp
  | succ N ih =>
    have ih := ih fun k hk => h k (by omega)
    have hN := h N (by omega)
    rw [List.range_succ, List.map_append, List.sum_append, List.map_singleton, List.sum_singleton, mul_add]
    refine (abs_add_le _ _).trans ?_
    rw [abs_mul lr (g N), abs_of_pos hlr]
    have := mul_le_mul_of_nonneg_left hN (le_of_lt hlr)
    calc _ ≤ A * ((1 + lr) ^ N - 1) + lr * (A * (1 + lr) ^ N) := add_le_add ih this
      _ = _ := by ring

/-! ## C160 -/

/-- **C160.** A boosted forest, grown from one text and written to a file, is read again and applied to another text. Each tree answers a case
of the other text with the mean, over the cases of its bag that end in the same leaf, of what the trees before it have left over of the
training target. What is predicted is the mean of the training target plus `lr` times the sum of these answers, where a tree that says nothing
adds nothing. A case with the values of a training case in all features that may be split on is predicted like it.

Missing from the full property: what is missing from C148, and other texts that lack a feature, `c160_absent`. -/
theorem c160_other_partial [FloorRing K] {nt : NumText K} (hnt : ∀ x, nt.Faithful x) {ord : Splitter K → List String}
    (hord : ∀ s : Splitter K, (ord s).Perm s.left) {order : List Nat → List Nat} (horder : ∀ bag, (order bag).Perm bag)
    {text : Text} {fm : FeatureMatrix K} (hp : parseAFM nt text = some fm) {a : GrowArgs} (hc : fm.Clean a.target)
    {f : NumFeature K} (hf : .num f ∈ fm.data) (hn : f.name = a.target) (hids : a.target ∉ a.blacklist) {n : Nat}
    (hcases : fm.caseLabels.length = n) (hknown : ∀ i < n, f.missing[i]? = some false) {m l s : Int}
    (hm : inferMTry nt a.mTry (allowedFeatures fm a.blacklist a.target a.block a.incl).length = some m)
    (hmle : m ≤ (allowedFeatures fm a.blacklist a.target a.block a.incl).length)
    (hl : inferLeafSize nt a.leafSize true 0 n = some l) (hl1 : 1 ≤ l)
    (hs : inferNSamples nt a.nSamples n = some s) (hbal : a.balance = false)
    (hvet : ¬ (a.vet = true ∧ a.evaloob = true)) (hnew : a.dotest = true ∨ a.nTrees ≤ 2) {lr : K} (hlr : 0 < lr) (draws : Nat)
    (own global : Rng) {file : Text} (hfile : boostCommand nt ord a lr draws order text own global = some file) :
    ∃ voters : List (Tree K × List Nat), voters.length = max 1 a.nTrees ∧
      (∀ x ∈ voters, (∀ c ∈ x.2, c < n) ∧ x.2 ≠ []) ∧
      ∀ (text2 : Text) (fm2 : FeatureMatrix K), parseAFM nt text2 = some fm2 → fm2.data ≠ [] →
        (∀ (k : Nat) x, voters[k]? = some x → ∀ c < fm2.caseLabels.length,
          AnswersIn fm fm2 (fun S p => S ≠ [] ∧ p = String.ofList (nt.fmt (.fin (meanBy
            (fun d => f.value d - boostedSum nt fm (meanBy f.value (List.range n)) lr ((voters.take k).map (·.1)) d) S)))) x c) ∧
        (∀ (tanh : XF K → XF K) (o : ApplyOptions), o.sum = true → o.expit = false →
          ∃ forest bb, applyCommand nt o file text2 = some (forest, bb) ∧ forest.target = a.target ∧
            ∀ c < fm2.caseLabels.length, ∀ res, bb.Predicts nt tanh o forest.intercept c res ↔
              res = some (String.ofList (nt.fmt (.fin (boostedSum nt fm2 (meanBy f.value (List.range n)) lr (voters.map (·.1.named)) c))))) ∧
        ((fm2.data.map Feature.name).Nodup → ∀ d < n, ∀ c, Alike (allowedFeatures fm a.blacklist a.target a.block a.incl) fm2 d c →
          boostedSum nt fm2 (meanBy f.value (List.range n)) lr (voters.map (·.1.named)) c =
            boostedSum nt fm (meanBy f.value (List.range n)) lr (voters.map (·.1)) d) := by
  obtain ⟨-, -, -, voters, -, h⟩ := boosted_other hnt hord horder hp hc hf hn hids hcases hknown hm hmle hl hl1 hs hbal hvet hnew hlr draws own global hfile
  exact ⟨voters, h⟩

/-! ## C161 -/

/-- **C161.** What a boosted forest predicts for a case of any text is bounded by the training target alone. If no value of the target is further
than `A` from the mean of the target, no prediction of a forest of `N` trees is further than `A * ((1 + lr) ^ N - 1)` from it. If all cases
are used for each tree and `lr` is at most two, the bound grows only with the number of trees: the square of the distance is at most the
square of `lr * N` times the sum of the squared distances of the target.

Missing from the full property: what is missing from C148. -/
theorem c161_bounded_partial [FloorRing K] {nt : NumText K} (hnt : ∀ x, nt.Faithful x) {ord : Splitter K → List String}
    (hord : ∀ s : Splitter K, (ord s).Perm s.left) {order : List Nat → List Nat} (horder : ∀ bag, (order bag).Perm bag)
    {text : Text} {fm : FeatureMatrix K} (hp : parseAFM nt text = some fm) {a : GrowArgs} (hc : fm.Clean a.target)
    {f : NumFeature K} (hf : .num f ∈ fm.data) (hn : f.name = a.target) (hids : a.target ∉ a.blacklist) {n : Nat}
    (hcases : fm.caseLabels.length = n) (hknown : ∀ i < n, f.missing[i]? = some false) {m l s : Int}
    (hm : inferMTry nt a.mTry (allowedFeatures fm a.blacklist a.target a.block a.incl).length = some m)
    (hmle : m ≤ (allowedFeatures fm a.blacklist a.target a.block a.incl).length)
    (hl : inferLeafSize nt a.leafSize true 0 n = some l) (hl1 : 1 ≤ l)
    (hs : inferNSamples nt a.nSamples n = some s) (hbal : a.balance = false)
    (hvet : ¬ (a.vet = true ∧ a.evaloob = true)) (hnew : a.dotest = true ∨ a.nTrees ≤ 2) {lr : K} (hlr : 0 < lr) (draws : Nat)
    (own global : Rng) {file : Text} (hfile : boostCommand nt ord a lr draws order text own global = some file)
    {A : K} (hA : ∀ i < n, |f.value i - meanBy f.value (List.range n)| ≤ A) (tanh : XF K → XF K)
    {o : ApplyOptions} (ho : o.sum = true) (ho2 : o.expit = false) {text2 : Text} {fm2 : FeatureMatrix K}
    (hp2 : parseAFM nt text2 = some fm2) (h0 : fm2.data ≠ []) :
    ∃ forest bb, applyCommand nt o file text2 = some (forest, bb) ∧ ∀ c < fm2.caseLabels.length, ∃ y,
      (∀ res, bb.Predicts nt tanh o forest.intercept c res ↔ res = some (String.ofList (nt.fmt (.fin y)))) ∧
      |y - meanBy f.value (List.range n)| ≤ A * ((1 + lr) ^ max 1 a.nTrees - 1) ∧
      (a.nobag = true → s = n → lr ≤ 2 → (y - meanBy f.value (List.range n)) ^ 2 ≤
        (lr * (max 1 a.nTrees : Nat)) ^ 2 * squaredError n f.value fun _ => meanBy f.value (List.range n)) := by
  obtain ⟨ti, out, o2, voters, rfl, hlen, hbag, hother⟩ := boosted_other hnt hord horder hp hc hf hn hids hcases hknown hm hmle hl hl1 hs hbal hvet hnew hlr draws own global hfile
  obtain ⟨hans, happ, -⟩ := hother text2 fm2 hp2 h0
  obtain ⟨hn0, hs1⟩ := boosted_pos hp hc hf hn hids hcases hs
  obtain ⟨forest, bb, e1, -, e2⟩ := happ tanh o ho ho2
  generalize meanBy f.value (List.range n) = mean at *
  have htrain : ∀ (k : Nat) (hk : k < (out.map voterOf).length) c, c < n → AnswersBy fm (fun S p => S ≠ [] ∧ p = String.ofList (nt.fmt (.fin (meanBy
      (fun d => f.value d - boostedSum nt fm mean lr (((out.map voterOf).take k).map (·.1)) d) S)))) (out.map voterOf)[k] c := by
    intro k hk c hc
    have hk' : k < out.length := by simpa using hk
    have h := o2 k _ (List.getElem?_eq_getElem hk')
    rw [List.getElem_map]
    exact h.answers (h.finite hnt (by omega) hn0).1 c hc
  have hstep : ∀ (k : Nat) (hk : k < (out.map voterOf).length) d, boostedSum nt fm mean lr (((out.map voterOf).take (k + 1)).map (·.1)) d =
      boostedSum nt fm mean lr (((out.map voterOf).take k).map (·.1)) d +
        lr * treeValue (fun p => nt.parse p.toList) fm ((out.map voterOf)[k]).1 d := by
    intro k hk d
    rw [List.take_succ_eq_append_getElem hk, List.map_append, List.map_cons, List.map_nil, boostedSum_snoc]
  have hA0 : 0 ≤ A := (abs_nonneg _).trans (hA 0 hn0)
  refine ⟨forest, bb, e1, fun c hcl => ⟨_, e2 c hcl, ?_⟩⟩
  obtain ⟨g, hgk, hg⟩ : ∃ g : Nat → K, (∀ (k : Nat) (hk : k < (out.map voterOf).length),
      g k = treeValue (fun p => nt.parse p.toList) fm2 ((out.map voterOf)[k]).1.named c) ∧
      (((out.map voterOf).map (·.1.named)).map fun t => treeValue (fun p => nt.parse p.toList) fm2 t c) =
        (List.range (out.map voterOf).length).map g := by
    refine ⟨fun k => (((out.map voterOf)[k]?).map fun x => treeValue (fun p => nt.parse p.toList) fm2 x.1.named c).getD 0, fun k hk => ?_, ?_⟩
    · simp only [List.getElem?_eq_getElem hk, Option.map_some, Option.getD_some]
    · apply List.ext_getElem
      · simp
      · intro k h1 h2
        have hk : k < (out.map voterOf).length := by simpa using h1
        simp only [List.getElem_map, List.getElem_range, List.getElem?_eq_getElem hk, Option.map_some, Option.getD_some]
  refine ⟨?_, fun hnb hsn hlr2 => ?_⟩
  · have hres : ∀ k ≤ (out.map voterOf).length, ∀ d < n,
        |f.value d - boostedSum nt fm mean lr (((out.map voterOf).take k).map (·.1)) d| ≤ A * (1 + lr) ^ k := by
      intro k
      induction k with
      | zero =>
        intro _ d hd
        simpa [boostedSum] using hA d hd
      | succ k ih =>
        intro hk d hd
        have hk : k < (out.map voterOf).length := hk
        have ih := ih (by omega)
        have hu : |treeValue (fun p => nt.parse p.toList) fm ((out.map voterOf)[k]).1 d| ≤ A * (1 + lr) ^ k := by
          rcases treeValue_by hnt (htrain k hk d hd) with h | ⟨S, h1, h2, h3⟩
          · rw [h, abs_zero]
            positivity
          · rw [h3]
            exact meanBy_abs h2 fun e he => ih e ((hbag _ (List.getElem_mem hk)).1 e (h1.subset he))
        rw [hstep k hk, ← sub_sub]
        refine (abs_sub _ _).trans ?_
        rw [abs_mul, abs_of_pos hlr]
        calc _ ≤ A * (1 + lr) ^ k + lr * (A * (1 + lr) ^ k) := add_le_add (ih d hd) (mul_le_mul_of_nonneg_left hu (le_of_lt hlr))
          _ = _ := by ring
    have hsum : boostedSum nt fm2 mean lr ((out.map voterOf).map (·.1.named)) c - mean = lr * ((List.range (out.map voterOf).length).map g).sum := by
      unfold boostedSum
      rw [← hg]
      ring
    rw [hsum, ← hlen]
    apply answers_bounded hlr
    intro k hk
    rw [hgk k hk]
    rcases treeValue_in hnt (hans k _ (List.getElem?_eq_getElem hk) c hcl) with h | ⟨S, h1, h2, h3⟩
    · rw [h, abs_zero]
      positivity
    · rw [h3]
      exact meanBy_abs h2 fun e he => hres k (le_of_lt hk) e ((hbag _ (List.getElem_mem hk)).1 e (h1.subset he))
  · have hperm : ∀ (k : Nat) (hk : k < (out.map voterOf).length), ((out.map voterOf)[k]).2.Perm (List.range n) := by
      intro k hk
      have hk' : k < out.length := by simpa using hk
      have h := o2 k _ (List.getElem?_eq_getElem hk')
      rw [List.getElem_map]
      refine (List.subperm_of_subset (h.nodup hnb) fun c hcm => List.mem_range.2 (h.range c hcm)).perm_of_length_le ?_
      have hL := h.length
      rw [hnb] at hL
      simp only [voterOf, List.length_range]
      simp at hL
      omega
    have herr : ∀ k ≤ (out.map voterOf).length, squaredError n f.value (boostedSum nt fm mean lr (((out.map voterOf).take k).map (·.1))) ≤
        squaredError n f.value fun _ => mean := by
      intro k
      induction k with
      | zero => intro _; simp [squaredError, boostedSum]
      | succ k ih =>
        intro hk
        have hk : k < (out.map voterOf).length := hk
        refine le_trans ?_ (ih (le_of_lt hk))
        rw [funext (hstep k hk)]
        exact step_error (le_of_lt hlr) hlr2 (voter_orthogonal hnt (hperm k hk) (htrain k hk))
    have hu : ∀ k < (out.map voterOf).length, g k ^ 2 ≤ squaredError n f.value fun _ => mean := by
      intro k hk
      rw [hgk k hk]
      refine le_trans ?_ (herr k (le_of_lt hk))
      rcases treeValue_in hnt (hans k _ (List.getElem?_eq_getElem hk) c hcl) with h | ⟨S, h1, h2, h3⟩
      · rw [h]
        unfold squaredError
        simp only [ne_eq, OfNat.ofNat_ne_zero, not_false_eq_true, zero_pow]
        exact List.sum_nonneg fun x hx => by
          obtain ⟨i, -, rfl⟩ := List.mem_map.1 hx
          positivity
      · rw [h3]
        exact meanBy_sq (h1.nodup ((hperm k hk).nodup_iff.2 List.nodup_range))
          fun e he => (hbag _ (List.getElem_mem hk)).1 e (h1.subset he)
    generalize (squaredError n f.value fun _ => mean) = E at hu ⊢
    have hsum : boostedSum nt fm2 mean lr ((out.map voterOf).map (·.1.named)) c - mean = lr * ((List.range (out.map voterOf).length).map g).sum := by
      unfold boostedSum
      rw [← hg]
      ring
    rw [hsum, ← hlen]
    generalize (out.map voterOf).length = N at hu ⊢
    have h1 := sq_sum_le ((List.range N).map g)
    rw [List.length_map, List.length_range] at h1
    have h2 : (((List.range N).map g).map fun x => x ^ 2).sum ≤ N * E := by
      clear h1
      induction N with
      | zero => simp
      | succ N ih =>
        have := ih fun k hk => hu k (by omega)
        have h3 := hu N (by omega)
        rw [List.range_succ, List.map_append, List.map_append, List.sum_append]
        simp only [List.map_cons, List.map_nil, List.sum_cons, List.sum_nil, add_zero]
        push_cast
        linarith
    have h3 : ((List.range N).map g).sum ^ 2 ≤ N * (N * E) := h1.trans (mul_le_mul_of_nonneg_left h2 (Nat.cast_nonneg N))
    calc (lr * ((List.range N).map g).sum) ^ 2 = lr ^ 2 * ((List.range N).map g).sum ^ 2 := by ring
      _ ≤ lr ^ 2 * (N * (N * E)) := mul_le_mul_of_nonneg_left h3 (sq_nonneg _)
      _ = _ := by ring

/-! ## Examples -/

/-- Grow a boosted forest from a table, read its file and write the predictions for `n` cases of another table. -/
def exBoostedOther (a : GrowArgs) (lr : ℚ) (table table2 : Text) (n : Nat) (own global : Rng) : Option (List (Option (XF ℚ))) :=
  (boostCommand exStrokes (fun s => s.left) a lr 20 id table own global).bind fun file =>
    (applyCommand exStrokes ⟨false, true, false, false⟩ file table2).map fun x =>
      (List.range n).map fun i => x.2.number id ⟨false, true, false, false⟩ x.1.intercept i

/-- Cases of another table, its columns in another order: one with the values of case d of the table the forest was grown from, one with the
values of case a, and two with a missing value. -/
def exBoostNew : Text := ".\tN:b\tN:a\nu\t011\t0111\nv\t01\t0\nw\tNA\t01\nx\t0\tNA\n".toList

/-- The conditions of `c160_other_partial` hold, as shown for `c148_boosted_partial`. The first two cases are predicted like the cases d and a, which they
repeat; the others have predictions of their own. -/
example : (∃ file, boostCommand exStrokes (fun s => s.left) exBoostArgs (1 / 2 : ℚ) 20 id exBoostTable (fun k => (3 / 2 ^ (k % 4)) % 2) (fun k => k) = some file) ∧
    (∃ fm fm2, parseAFM exStrokes exBoostTable = some fm ∧ parseAFM exStrokes exBoostNew = some fm2 ∧ fm2.data ≠ [] ∧
      (fm2.data.map Feature.name).Nodup ∧ fm2.caseLabels.length = 4 ∧
      Alike (allowedFeatures fm [] "N:y" none none) fm2 3 0 ∧ Alike (allowedFeatures fm [] "N:y" none none) fm2 0 1) ∧
    exBoostedOther exBoostArgs (1 / 2) exBoostTable exBoostTable 5 (fun k => (3 / 2 ^ (k % 4)) % 2) (fun k => k) =
      some (([1 / 40, 1 / 40, 1 / 40, 77 / 80, 77 / 80] : List ℚ).map fun q => some (.fin q)) ∧
    exBoostedOther exBoostArgs (1 / 2) exBoostTable exBoostNew 4 (fun k => (3 / 2 ^ (k % 4)) % 2) (fun k => k) =
      some (([77 / 80, 1 / 40, 1 / 4, 7 / 40] : List ℚ).map fun q => some (.fin q)) := by
  refine ⟨Option.isSome_iff_exists.1 (by decide +kernel), ?_, by decide +kernel, by decide +kernel⟩
  have h : (parseAFM exStrokes exBoostTable).any (fun fm => (parseAFM exStrokes exBoostNew).any fun fm2 =>
      match fm.data, fm2.data with
      | [.num y, .num a, .num b], [.num b2, .num a2] => decide (y.name = "N:y" ∧ a.name = "N:a" ∧ b.name = "N:b" ∧ b2.name = "N:b" ∧ a2.name = "N:a" ∧
          fm2.caseLabels.length = 4 ∧
          (a.missing[3]? = a2.missing[0]? ∧ a.numData[3]? = a2.numData[0]?) ∧ (b.missing[3]? = b2.missing[0]? ∧ b.numData[3]? = b2.numData[0]?) ∧
          (a.missing[0]? = a2.missing[1]? ∧ a.numData[0]? = a2.numData[1]?) ∧ (b.missing[0]? = b2.missing[1]? ∧ b.numData[0]? = b2.numData[1]?))
      | _, _ => false) = true := by
    decide +kernel
  obtain ⟨fm, h1, h2⟩ := (Option.any_eq_true _ _).1 h
  obtain ⟨fm2, h3, h4⟩ := (Option.any_eq_true _ _).1 h2
  split at h4
  · rename_i y a b b2 a2 d1 d2
    simp only [decide_eq_true_eq] at h4
    obtain ⟨n1, n2, n3, n4, n5, hl, v1, v2, v3, v4⟩ := h4
    have hal : ∀ f ∈ allowedFeatures fm [] "N:y" none none, f = .num a ∨ f = .num b := by
      intro f hf
      obtain ⟨hf1, hf2⟩ := List.mem_filter.1 hf
      rw [d1] at hf1
      simp only [List.mem_cons, List.not_mem_nil, or_false] at hf1
      rcases hf1 with rfl | hf1
      · have : Allowed [] "N:y" none none (Feature.name (.num y)) := of_decide_eq_true hf2
        exact absurd n1 this.1
      · exact hf1
    have key : ∀ d c, (a.missing[d]? = a2.missing[c]? ∧ a.numData[d]? = a2.numData[c]?) → (b.missing[d]? = b2.missing[c]? ∧ b.numData[d]? = b2.numData[c]?) →
        Alike (allowedFeatures fm [] "N:y" none none) fm2 d c := by
      intro d c g1 g2 f hf
      rw [d2]
      rcases hal f hf with rfl | rfl
      · exact ⟨.num a2, by simp, n5.trans n2.symm, g1.1, fun _ => g1.2⟩
      · exact ⟨.num b2, by simp, n4.trans n3.symm, g2.1, fun _ => g2.2⟩
    refine ⟨fm, fm2, h1, h3, by rw [d2]; simp, ?_, hl, key 3 0 v1 v2, key 0 1 v3 v4⟩
    rw [d2]
    show [b2.name, a2.name].Nodup
    rw [n4, n5]
    decide
  · cases h4

/-- **C160 is false of the code** for tables without a feature of the forest: the first column is taken for it. So the predictions of two cases trade places
when the columns do, neither of which the forest knows. -/
theorem c160_absent :
    exBoostedOther exBoostArgs (1 / 2) exBoostTable ".\tN:z\tN:w\nu\t0111\t0\n".toList 1 (fun k => (3 / 2 ^ (k % 4)) % 2) (fun k => k) =
      some [some (.fin (77 / 80))] ∧
    exBoostedOther exBoostArgs (1 / 2) exBoostTable ".\tN:w\tN:z\nu\t0\t0111\n".toList 1 (fun k => (3 / 2 ^ (k % 4)) % 2) (fun k => k) =
      some [some (.fin (1 / 40))] := by
  decide +kernel

/-- A target that is 1 where one of two features is, and 0 where neither is; no case has both. -/
def exEither : Text := ".\tN:y\tN:a\tN:b\na\t0\t0\t0\nb\t0\t0\t0\nc\t01\t01\t0\nd\t01\t01\t0\ne\t01\t0\t01\nf\t01\t0\t01\n".toList

/-- A boosted forest does extrapolate, at a learning rate of one and with all cases for each tree: the target is 0 or 1, and a case
with both features is predicted to have 3/2. The bound of C145 does not hold for boosted forests; those of C161, with 2/3 as mean, are
`|3/2 - 2/3| ≤ 2/3 * (2 ^ 2 - 1)` and `(3/2 - 2/3) ^ 2 ≤ 2 ^ 2 * (4/3)`. -/
theorem c161_beyond :
    exBoostedOther { exBoostArgs with nTrees := 2, maxDepth := 1 } 1 exEither ".\tN:b\tN:a\nu\t01\t01\n".toList 1 (fun k => (2 / 2 ^ (k % 3)) % 2) (fun k => k) =
      some [some (.fin (3 / 2))] ∧ |(3 / 2 : ℚ) - 2 / 3| ≤ 2 / 3 * ((1 + 1) ^ 2 - 1) ∧ ((3 / 2 : ℚ) - 2 / 3) ^ 2 ≤ (1 * 2) ^ 2 * (4 / 3) := by
  refine ⟨by decide +kernel, by rw [abs_of_pos (by norm_num)]; norm_num, by norm_num⟩

/-- The conditions of `c161_bounded_partial` hold there: the target is known in six cases, and no value is further than 2/3 from the mean. -/
example : ∃ fm f, parseAFM exStrokes exEither = some fm ∧ fm.Clean exBoostArgs.target ∧ .num f ∈ fm.data ∧ f.name = exBoostArgs.target ∧
    fm.caseLabels.length = 6 ∧ (∀ i < 6, f.missing[i]? = some false) ∧
    (∀ i < 6, |f.value i - meanBy f.value (List.range 6)| ≤ 2 / 3) ∧
    inferMTry exStrokes exBoostArgs.mTry (allowedFeatures fm [] "N:y" none none).length = some 1 ∧
    (1 : Int) ≤ (allowedFeatures fm [] "N:y" none none).length ∧
    inferLeafSize exStrokes exBoostArgs.leafSize true 0 6 = some 1 ∧ inferNSamples exStrokes exBoostArgs.nSamples 6 = some 6 := by
  have h : (parseAFM exStrokes exEither).any (fun fm : FeatureMatrix ℚ => cleanCheck fm "N:y" && (match fm.data with
      | .num f :: _ => decide (f.name = "N:y" ∧ f.missing = List.replicate 6 false ∧ f.numData = [.fin 0, .fin 0, .fin 1, .fin 1, .fin 1, .fin 1])
      | _ => false) && decide (fm.caseLabels.length = 6 ∧ (allowedFeatures fm [] "N:y" none none).length = 2)) = true := by
    decide +kernel
  obtain ⟨fm, h1, h2⟩ := (Option.any_eq_true _ _).1 h
  simp only [Bool.and_eq_true, decide_eq_true_eq] at h2
  obtain ⟨⟨c1, c2⟩, c3, c4⟩ := h2
  split at c2
  · rename_i f _ hd
    simp only [decide_eq_true_eq] at c2
    obtain ⟨e1, e2, e3⟩ := c2
    refine ⟨fm, f, h1, cleanCheck_ok c1, by rw [hd]; simp, e1, c3, fun i hi => ?_, fun i hi => ?_, ?_, ?_, by decide +kernel, by decide +kernel⟩
    · rw [e2]
      interval_cases i <;> rfl
    · have hv : ∀ i < 6, f.value i = if i < 2 then 0 else 1 := by
        intro i hi
        unfold NumFeature.value
        rw [e3]
        interval_cases i <;> rfl
      have hm : meanBy f.value (List.range 6) = 2 / 3 := by
        unfold meanBy
        rw [List.map_congr_left fun i hi => hv i (List.mem_range.1 hi)]
        simp [List.range_succ]
        norm_num
      rw [hm, hv i hi, abs_le]
      interval_cases i <;> norm_num
    · rw [c4]
      decide +kernel
    · rw [c4]
      decide
  · cases c2

end CloudForest
