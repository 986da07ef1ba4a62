import Verif.Props.OtherBoost

/-!
# C162: a forest that boosts two classes, applied to other data
-/

set_option linter.unusedSectionVars false

namespace CloudForest
variable {K : Type} [Field K] [LinearOrder K] [IsStrictOrderedRing K]

/-- **C162.** growforest grows a forest from one text that boosts two classes and writes it, applyforest with `-sum` reads the file and applies
the forest to another. There are training cases for each answer: a tree answers with Newton's step over cases of its bag, those that land
where a case goes whose features have the same values under the same names; at a missing value over those before the split. The steps are
taken for the probabilities that training cases have by the trees before. What is predicted is the start, the logarithm of the odds in the
training data, plus `lr` times the sum of the answers. With `-expit` it is the probability for that, which is between 0 and 1 for any case. A
case like a training case is predicted like it.

Missing from the full property: texts without a feature of the forest, `c162_absent`; and what is missing from C149. -/
theorem c162_other_partial [FloorRing K] {nt : NumText K} (hnt : ∀ x, nt.Faithful x) {tanh log : XF K → XF K} {T L : K → K}
    (hT : ∀ x, tanh (.fin x) = .fin (T x)) (hT1 : ∀ x, -1 < T x ∧ T x < 1) (hL : ∀ x, 0 < x → log (.fin x) = .fin (L x))
    {ord : Splitter K → List String}
    (hord : ∀ s : Splitter K, (ord s).Perm s.left) {order : List Nat → List Nat} (horder : ∀ bag, (order bag).Perm bag)
    {text : Text} {fm : FeatureMatrix K} (hp : parseAFM nt text = some fm) {a : GrowArgs} (hc : fm.Clean a.target)
    {f : CatFeature} (hf : .cat f ∈ fm.data) (hn : f.name = a.target) (hids : a.target ∉ a.blacklist) {n : Nat}
    (hcases : fm.caseLabels.length = n) {lab : Nat → String} (hlab : f.Labels n lab) {pos : String}
    (hpos : 0 < hotCount pos lab n) (hneg : hotCount pos lab n < n) {m l s : Int}
    (hm : inferMTry nt a.mTry (allowedFeatures fm a.blacklist a.target a.block a.incl).length = some m)
    (hmle : m ≤ (allowedFeatures fm a.blacklist a.target a.block a.incl).length)
    (hl : inferLeafSize nt a.leafSize true f.cm.nCats n = some l) (hl1 : 1 ≤ l)
    (hs : inferNSamples nt a.nSamples n = some s) (hent : a.entropy = false)
    (hvet : ¬ (a.vet = true ∧ a.evaloob = true)) (hnew : a.dotest = true ∨ a.nTrees ≤ 2) {lr : K} (hlr : 0 < lr) (draws : Nat)
    (own global : Rng)
    {file : Text} (hfile : classBoostCommand nt tanh log ord a lr pos draws order text own global = some file)
    {start : K} (hstart : start = L ((hotCount pos lab n : K) / ((n : K) - hotCount pos lab n))) :
    ∃ voters : List (Tree K × List Nat), voters.length = max 1 a.nTrees ∧
      (∀ x ∈ voters, (∀ c ∈ x.2, c < n) ∧ x.2 ≠ []) ∧
      ∀ (text2 : Text) (fm2 : FeatureMatrix K), parseAFM nt text2 = some fm2 → fm2.data ≠ [] →
        (∀ (k : Nat) x, voters[k]? = some x → ∀ c < fm2.caseLabels.length,
          AnswersIn fm fm2 (fun S p => S ≠ [] ∧ p = String.ofList (nt.fmt (.fin (newtonStep (hot pos lab)
            (fun d => probabilityOf T (boostedSum nt fm start lr ((voters.take k).map (·.1)) d)) S)))) x c) ∧
        (∀ o : ApplyOptions, o.sum = true →
          ∃ forest bb, applyCommand nt o file text2 = some (forest, bb) ∧ forest.target = a.target ∧
            ∀ c < fm2.caseLabels.length, ∃ y, (∀ res, bb.Predicts nt tanh o forest.intercept c res ↔ res = some (String.ofList (nt.fmt (.fin y)))) ∧
              y = (if o.expit then probabilityOf T (boostedSum nt fm2 start lr (voters.map (·.1.named)) c)
                else boostedSum nt fm2 start lr (voters.map (·.1.named)) c) ∧ (o.expit = true → 0 < y ∧ y < 1)) ∧
        ((fm2.data.map Feature.name).Nodup → ∀ d < n, ∀ c, Alike (allowedFeatures fm a.blacklist a.target a.block a.incl) fm2 d c →
          boostedSum nt fm2 start lr (voters.map (·.1.named)) c = boostedSum nt fm start lr (voters.map (·.1)) d) := by
  obtain ⟨out, f', o1, o2, w2, w3, w4, -, w6⟩ := (class_boosted_file hnt hT hT1 hL hord horder hp hc hf hn hids hcases hlab hpos hneg hm hmle hl hl1 hs
    hent hvet hnew hlr draws own global hstart).2 file hfile
  obtain ⟨ti', b, hP⟩ := prepared hp hc hf hn hids
  obtain ⟨-, hI⟩ := c139_afm nt text fm hp
  have hn0 : 0 < n := by omega
  have hs1 : 1 ≤ s := inferNSamples_pos (by omega) hs
  have hall : ∀ x ∈ out, x.1.weight = .fin lr ∧ ∃ ans, AnsweringTree nt fm a s.toNat n ans x ∧ ∀ S S', S.Perm S' → ans S = ans S' := by
    intro x hx
    obtain ⟨k, hk⟩ := List.mem_iff_getElem?.1 hx
    exact ⟨(o2 k x hk).1, _, (o2 k x hk).2, fun _ _ => newtonStep_perm _ _⟩
  refine ⟨out.map voterOf, by rw [List.length_map, o1], fun x hx => ?_, fun text2 fm2 hp2 h0 => ?_⟩
  · obtain ⟨x, hxo, rfl⟩ := List.mem_map.1 hx
    obtain ⟨-, v, h, -⟩ := hall x hxo
    exact ⟨h.range, (h.finite hnt (by omega) hn0).1⟩
  obtain ⟨hR2, hI2⟩ := c139_afm nt text2 fm2 hp2
  refine ⟨fun k x hx c hcn => ?_, fun o ho => ?_, fun hnd d hd c ha =>
    summed_alike (fun x hx => (hall x hx).2.imp fun _ h => h.1) hP ⟨_, hf, hn⟩ hI hI2 hnd hd ha⟩
  · rw [List.getElem?_map] at hx
    obtain ⟨z, hz, rfl⟩ := Option.map_eq_some_iff.1 hx
    have h := (o2 k z hz).2
    exact h.answersIn (fun _ _ => newtonStep_perm _ _) (h.finite hnt (by omega) hn0).1 hR2 hI2 h0 hcn
  · obtain ⟨forest, bb, e1, e2, e3⟩ := summed_other hnt (by omega) hn0 hlr hall w2 w3 w4 w6 hp2 h0 tanh ho
    refine ⟨forest, bb, e1, e2, fun c hcl => ⟨_, fun res => ?_, rfl, fun h => ?_⟩⟩
    · have := e3 c hcl res
      rw [show ∀ x : K, o.transform tanh (.fin x) = .fin (if o.expit then probabilityOf T x else x) by
        intro x
        unfold ApplyOptions.transform
        split
        · rw [expit_fin hT, probabilityOf_eq]
        · rfl] at this
      exact this
    · rw [if_pos h]
      exact probabilityOf_bounds hT1 _

/-! ## Examples -/

/-- Grow a forest that boosts classes from a table, read its file and write the predictions for `n` cases of another table. -/
def exClassOther (a : GrowArgs) (lr : ℚ) (pos : String) (o : ApplyOptions) (table table2 : Text) (n : Nat) (own global : Rng) :
    Option (List (Option (XF ℚ))) :=
  (classBoostCommand exStrokes exSquash exLess (fun s => s.left) a lr pos 20 id table own global).bind fun file =>
    (applyCommand exStrokes o file table2).map fun x => (List.range n).map fun i => x.2.number exSquash o x.1.intercept i

/-- The conditions of `c162_other_partial` hold, as shown for `c149_boosted_partial`. The first two cases are predicted like the cases d and a, which they
repeat; the others, with a missing value each, have predictions of their own. -/
example : (∃ file, classBoostCommand exStrokes exSquash exLess (fun s => s.left) exClassArgs (1 / 2 : ℚ) "yes" 20 id exClassTable
      (fun k => (3 / 2 ^ (k % 4)) % 2) (fun k => k) = some file) ∧
    (∃ fm fm2, parseAFM exStrokes exClassTable = some fm ∧ parseAFM exStrokes exBoostNew = some fm2 ∧ fm2.data ≠ [] ∧
      (fm2.data.map Feature.name).Nodup ∧ fm2.caseLabels.length = 4 ∧
      Alike (allowedFeatures fm [] "C:y" none none) fm2 3 0 ∧ Alike (allowedFeatures fm [] "C:y" none none) fm2 0 1) ∧
    exClassOther exClassArgs (1 / 2) "yes" ⟨false, true, false, false⟩ exClassTable exBoostNew 4 (fun k => (3 / 2 ^ (k % 4)) % 2) (fun k => k) =
      some (([3, -7 / 3, -5 / 3, -1] : List ℚ).map fun q => some (.fin q)) ∧
    exClassOther exClassArgs (1 / 2) "yes" ⟨false, true, true, false⟩ exClassTable exBoostNew 4 (fun k => (3 / 2 ^ (k % 4)) % 2) (fun k => k) =
      some (([3 / 4, 1 / 4, 1 / 4, 1 / 4] : List ℚ).map fun q => some (.fin q)) := by
  refine ⟨Option.isSome_iff_exists.1 (by decide +kernel), ?_, by decide +kernel, by decide +kernel⟩
  have h : (parseAFM exStrokes exClassTable).any (fun fm : FeatureMatrix ℚ => (parseAFM exStrokes exBoostNew).any fun fm2 : FeatureMatrix ℚ =>
      match fm.data, fm2.data with
      | [.cat y, .num a, .num b], [.num b2, .num a2] => decide (y.name = "C:y" ∧ a.name = "N:a" ∧ b.name = "N:b" ∧ b2.name = "N:b" ∧ a2.name = "N:a" ∧
          fm2.caseLabels.length = 4 ∧
          (a.missing[3]? = a2.missing[0]? ∧ a.numData[3]? = a2.numData[0]?) ∧ (b.missing[3]? = b2.missing[0]? ∧ b.numData[3]? = b2.numData[0]?) ∧
          (a.missing[0]? = a2.missing[1]? ∧ a.numData[0]? = a2.numData[1]?) ∧ (b.missing[0]? = b2.missing[1]? ∧ b.numData[0]? = b2.numData[1]?))
      | _, _ => false) = true := by
    decide +kernel
  obtain ⟨fm, h1, h2⟩ := (Option.any_eq_true _ _).1 h
  obtain ⟨fm2, h3, h4⟩ := (Option.any_eq_true _ _).1 h2
  split at h4
  · rename_i y a b b2 a2 d1 d2
    simp only [decide_eq_true_eq] at h4
    obtain ⟨n1, n2, n3, n4, n5, hl, v1, v2, v3, v4⟩ := h4
    have hal : ∀ f ∈ allowedFeatures fm [] "C:y" none none, f = .num a ∨ f = .num b := by
      intro f hf
      obtain ⟨hf1, hf2⟩ := List.mem_filter.1 hf
      rw [d1] at hf1
      simp only [List.mem_cons, List.not_mem_nil, or_false] at hf1
      rcases hf1 with rfl | hf1
      · have : Allowed [] "C:y" none none (Feature.name (.cat y : Feature ℚ)) := of_decide_eq_true hf2
        exact absurd n1 this.1
      · exact hf1
    have key : ∀ d c, (a.missing[d]? = a2.missing[c]? ∧ a.numData[d]? = a2.numData[c]?) → (b.missing[d]? = b2.missing[c]? ∧ b.numData[d]? = b2.numData[c]?) →
        Alike (allowedFeatures fm [] "C:y" none none) fm2 d c := by
      intro d c g1 g2 f hf
      rw [d2]
      rcases hal f hf with rfl | rfl
      · exact ⟨.num a2, by simp, n5.trans n2.symm, g1.1, fun _ => g1.2⟩
      · exact ⟨.num b2, by simp, n4.trans n3.symm, g2.1, fun _ => g2.2⟩
    refine ⟨fm, fm2, h1, h3, by rw [d2]; simp, ?_, hl, key 3 0 v1 v2, key 0 1 v3 v4⟩
    rw [d2]
    show [b2.name, a2.name].Nodup
    rw [n4, n5]
    decide
  · cases h4

/-- **C162 is false of the code** for tables without a feature of the forest: the first column is taken for it. -/
theorem c162_absent :
    exClassOther exClassArgs (1 / 2) "yes" ⟨false, true, false, false⟩ exClassTable ".\tN:z\tN:w\nu\t0111\t0\n".toList 1
      (fun k => (3 / 2 ^ (k % 4)) % 2) (fun k => k) = some [some (.fin 3)] ∧
    exClassOther exClassArgs (1 / 2) "yes" ⟨false, true, false, false⟩ exClassTable ".\tN:w\tN:z\nu\t0\t0111\n".toList 1
      (fun k => (3 / 2 ^ (k % 4)) % 2) (fun k => k) = some [some (.fin (-7 / 3))] := by
  decide +kernel

end CloudForest
