import Verif.Lemmas.Ballot
import Mathlib.Tactic.NormNum
import Mathlib.Tactic.FinCases

/-!
# Properties C25, C26, C28, C29, C51 and C52: ballot boxes
-/

set_option linter.unusedSectionVars false

namespace CloudForest
variable {K : Type} [Field K] [LinearOrder K] [IsStrictOrderedRing K]

/-! ## C25 -/

/-- **C25.** After any votes of finite weight, whatever order Go iterates over the votes of a case
in, `Tally` returns a category with the largest total weight if that is positive, and "NA"
otherwise. -/
theorem c25_tally (size : Nat) (votes : List (FVote K)) (h : ∀ v ∈ votes, v.case < size) :
    ∃ bb, castAll CatBox.vote (CatBox.new size) (votes.map FVote.ballot) = some bb ∧
      ∀ i < size, (∃ res, bb.Tallies i res) ∧ ∀ res, bb.Tallies i res → ∃ p, res = some p ∧
        ((p = "NA" ∧ ∀ q, weightFor votes i q ≤ 0) ∨
         (0 < weightFor votes i p ∧ ∀ q, weightFor votes i q ≤ weightFor votes i p)) := by
  obtain ⟨bb, e, hb⟩ := catBox_castAll size votes h
  refine ⟨bb, e, fun i hi => ⟨?_, ?_⟩⟩
  · exact ⟨_, _, _, List.getElem?_eq_getElem (by rw [hb.len]; exact hi), List.Perm.refl _, rfl⟩
  · rintro res ⟨m, es, hm, hp, rfl⟩
    have hmem : ∀ k x, (k, x) ∈ es ↔ _ := fun k x => (hp.mem_iff).trans (hb.mem i m hm k x)
    have hfin : ∀ e ∈ es, ∃ y, e.2 = XF.fin y := by
      rintro ⟨k, x⟩ he
      obtain ⟨p, -, rfl, -⟩ := (hmem k x).1 he
      exact ⟨_, rfl⟩
    obtain ⟨y, h1, h2, h3, h4⟩ := tallyLoop_spec es hfin 0 0
    have hle : ∀ q, weightFor votes i q ≤ y := by
      intro q
      by_cases hex : ∃ v ∈ votes, v.case = i ∧ v.pred = q
      · obtain ⟨u, hu, hu1, hu2⟩ := hex
        obtain ⟨k, hk, he⟩ := List.mem_iff_getElem.1 (hb.known u hu)
        have hin := (hmem k (.fin (weightFor votes i q))).2
          ⟨q, by rw [List.getElem?_eq_getElem hk, he, hu2], rfl, u, hu, hu1, hu2⟩
        exact h3 _ hin _ rfl
      · rw [weightFor_none hex]; exact h2
    unfold CatBox.tallyIn
    simp only
    rcases h4 with h4 | ⟨h4, h5⟩
    · rw [h4] at h1 ⊢
      cases h1
      rw [if_neg (show ¬ (XF.fin 0 : XF K) < .fin 0 from lt_irrefl _)]
      exact ⟨"NA", rfl, .inl ⟨rfl, hle⟩⟩
    · rw [h1, if_pos (show (XF.fin 0 : XF K) < .fin y from h5)]
      obtain ⟨k, hk⟩ : ∃ k, k = (tallyLoop es 0 (.fin 0)).1 := ⟨_, rfl⟩
      have hkx : (k, XF.fin y) ∈ es := by
        rw [hk, ← h1]; exact h4
      obtain ⟨p, hp1, hp2, -⟩ := (hmem k _).1 hkx
      rw [← hk]
      refine ⟨p, hp1, .inr ?_⟩
      have : y = weightFor votes i p := by cases hp2; rfl
      rw [← this]
      exact ⟨h5, hle⟩

/-- **C25, order.** A strict winner wins, in whatever order the same votes arrive and whatever
order the map is iterated in. -/
theorem c25_order (size : Nat) (votes votes' : List (FVote K)) (h : ∀ v ∈ votes, v.case < size)
    (hp : votes'.Perm votes) (i : Nat) (hi : i < size) (p : String)
    (hpos : 0 < weightFor votes i p) (hwin : ∀ q, q ≠ p → weightFor votes i q < weightFor votes i p) :
    ∃ bb, castAll CatBox.vote (CatBox.new size) (votes'.map FVote.ballot) = some bb ∧
      ∀ res, bb.Tallies i res → res = some p := by
  obtain ⟨bb, e, hb⟩ := c25_tally size votes' (fun v hv => h v (hp.mem_iff.1 hv))
  have hw : ∀ q, weightFor votes' i q = weightFor votes i q := by
    intro q
    unfold weightFor
    exact ((hp.filter _).map _).sum_eq
  refine ⟨bb, e, fun res hr => ?_⟩
  obtain ⟨q, rfl, hq⟩ := (hb i hi).2 res hr
  simp only [hw] at hq
  rcases hq with ⟨-, hq⟩ | ⟨-, hq⟩
  · exact absurd (hq p) (not_le.2 hpos)
  · by_contra hne
    have hne : q ≠ p := fun h => hne (by rw [h])
    exact absurd (hq p) (not_le.2 (hwin q hne))

/-- Votes for two cases. -/
def exCatVotes : List (FVote ℚ) :=
  [⟨0, "a", 1⟩, ⟨0, "b", 1 / 2⟩, ⟨1, "b", 1⟩, ⟨0, "b", 3 / 4⟩, ⟨1, "a", 1⟩]

example : (∀ v ∈ exCatVotes, v.case < 3) ∧ weightFor exCatVotes 0 "b" = 5 / 4 ∧
    weightFor exCatVotes 0 "a" = 1 ∧
    ((castAll CatBox.vote (CatBox.new 3) (exCatVotes.map FVote.ballot)).bind fun bb =>
      bb.tallyIn [(0, .fin 1), (1, .fin (5 / 4))]) = some "b" ∧
    ((castAll CatBox.vote (CatBox.new 3) (exCatVotes.map FVote.ballot)).map (·.box)) =
      some [[(0, .fin 1), (1, .fin (5 / 4))], [(1, .fin 1), (0, .fin 1)], []] := by
  refine ⟨by decide, by decide +kernel, by decide +kernel, by decide +kernel, by decide +kernel⟩

/-! ## C26 -/

/-- **C26, averages.** After votes of positive weight whose predictions are finite numbers, NaN or
no numbers at all, `NumBallotBox` reports for each case the weighted mean of the finite numbers
voted for it, whatever their order; `Tally` is "NA" exactly if there are none. -/
theorem c26_mean (parse : String → Option (XF K)) (fmt : XF K → String) (size : Nat)
    (votes : List (FVote K))
    (h : ∀ v ∈ votes, v.case < size ∧ 0 < v.weight ∧
      ∀ x, parse v.pred = some x → x = .nan ∨ ∃ y, x = .fin y) :
    ∃ bb, castAll (NumBox.vote parse) (NumBox.new size) (votes.map FVote.ballot) = some bb ∧
      ∀ i < size,
        (numVotes parse votes i = [] → bb.tally fmt i = some "NA") ∧
        (numVotes parse votes i ≠ [] →
          bb.tallyNum i = some (.fin (weightedSum (numVotes parse votes i) /
            totalWeight (numVotes parse votes i))) ∧
          bb.tally fmt i = some (fmt (.fin (weightedSum (numVotes parse votes i) /
            totalWeight (numVotes parse votes i))))) := by
  obtain ⟨bb, e, hb⟩ := castAll_inv (NumBox.vote parse) (NumBoxInv parse size)
    (fun v => v.case < size ∧ 0 < v.weight ∧
      ∀ x, parse v.pred = some x → x = .nan ∨ ∃ y, x = .fin y) _ (numBox_inv_new parse size)
    (fun _ _ v hb hv => numBox_vote hb v hv.1 hv.2.2 (.inl hv.2.1)) votes h
  refine ⟨bb, e, fun i hi => ?_⟩
  obtain ⟨m, hm⟩ : ∃ m, bb[i]? = some m := ⟨_, List.getElem?_eq_getElem (by rw [hb.len]; exact hi)⟩
  rcases hb.vals i m hm with ⟨hnil, rfl⟩ | ⟨hpos, rfl⟩
  · refine ⟨fun _ => ?_, fun h => absurd hnil h⟩
    simp only [NumBox.tally, hm, Option.bind_eq_bind, Option.bind_some, RunningMean.new]
    rw [if_neg (show ¬ (XF.fin 0 : XF K) < .fin 0 from lt_irrefl _)]
  · refine ⟨fun h => ?_, fun _ => ⟨?_, ?_⟩⟩
    · rw [h] at hpos; simp [totalWeight] at hpos
    · simp [NumBox.tallyNum, hm]
    · simp only [NumBox.tally, hm, Option.bind_eq_bind, Option.bind_some]
      rw [if_pos (show (XF.fin 0 : XF K) < .fin _ from hpos)]

/-- **C26, order.** Rearranging the votes changes nothing. -/
theorem c26_order (parse : String → Option (XF K)) (votes votes' : List (FVote K))
    (hp : votes'.Perm votes) (i : Nat) :
    weightedSum (numVotes parse votes' i) = weightedSum (numVotes parse votes i) ∧
    totalWeight (numVotes parse votes' i) = totalWeight (numVotes parse votes i) ∧
    (numVotes parse votes' i = [] ↔ numVotes parse votes i = []) := by
  have h : (numVotes parse votes' i).Perm (numVotes parse votes i) := hp.filterMap _
  refine ⟨(h.map _).sum_eq, (h.map _).sum_eq, ?_⟩
  constructor <;> intro h' <;> rw [h'] at h
  · exact List.nil_perm.1 h
  · exact List.perm_nil.1 h

/-- **C26, sums.** After votes of finite weight whose predictions are finite numbers or no numbers
at all, `SumBallotBox` reports the weighted sum of the numbers voted for each case. -/
theorem c26_sum (parse : String → Option (XF K)) (size : Nat) (votes : List (FVote K))
    (h : ∀ v ∈ votes, v.case < size ∧ ∀ x, parse v.pred = some x → ∃ y, x = .fin y) :
    ∃ bb, castAll (SumBox.vote parse) (SumBox.new size) (votes.map FVote.ballot) = some bb ∧
      ∀ i < size, bb.tallyNum i = some (.fin (weightedSum (numVotes parse votes i))) := by
  obtain ⟨bb, e, hb⟩ := castAll_inv (SumBox.vote parse) (SumBoxInv parse size)
    (fun v => v.case < size ∧ ∀ x, parse v.pred = some x → ∃ y, x = .fin y) (SumBox.new size)
    ⟨by simp [SumBox.new], fun i x hx => by
      simp only [SumBox.new, List.getElem?_replicate] at hx
      split at hx
      · cases hx; simp [numVotes, weightedSum]
      · cases hx⟩
    (fun _ _ v hb hv => sumBox_vote hb v hv.1 hv.2) votes h
  refine ⟨bb, e, fun i hi => ?_⟩
  obtain ⟨x, hx⟩ : ∃ x, bb[i]? = some x := ⟨_, List.getElem?_eq_getElem (by rw [hb.len]; exact hi)⟩
  rw [SumBox.tallyNum, hx, hb.vals i x hx]

/-- A parser for three words. -/
def exParse : String → Option (XF ℚ)
  | "2" => some (.fin 2)
  | "5" => some (.fin 5)
  | "NaN" => some .nan
  | _ => none

/-- Numerical votes for two cases. -/
def exNumVotes : List (FVote ℚ) := [⟨0, "2", 1⟩, ⟨1, "NaN", 1⟩, ⟨0, "5", 2⟩, ⟨0, "x", 7⟩]

example : (∀ v ∈ exNumVotes, v.case < 3 ∧ 0 < v.weight ∧
      ∀ x, exParse v.pred = some x → x = .nan ∨ ∃ y, x = .fin y) ∧
    numVotes exParse exNumVotes 0 = [(2, 1), (5, 2)] ∧ numVotes exParse exNumVotes 1 = [] ∧
    ((castAll (NumBox.vote exParse) (NumBox.new 3) (exNumVotes.map FVote.ballot)).bind fun bb =>
      bb.tallyNum 0) = some (.fin 4) := by
  refine ⟨?_, by decide +kernel, by decide +kernel, by decide +kernel⟩
  intro v hv
  simp only [exNumVotes, List.mem_cons, List.not_mem_nil, or_false] at hv
  rcases hv with rfl | rfl | rfl | rfl <;> simp [exParse]

example : ((castAll (SumBox.vote exParse) (SumBox.new 2)
      ([⟨0, "2", 3⟩, ⟨0, "5", -1⟩, ⟨1, "x", 1⟩].map (FVote.ballot (K := ℚ)))).bind fun bb =>
      bb.tallyNum 0) = some (.fin 1) ∧
    (∀ v ∈ ([⟨0, "2", 3⟩, ⟨0, "5", -1⟩, ⟨1, "x", 1⟩] : List (FVote ℚ)), v.case < 2 ∧
      ∀ x, exParse v.pred = some x → ∃ y, x = .fin y) := by
  refine ⟨by decide +kernel, ?_⟩
  intro v hv
  simp only [List.mem_cons, List.not_mem_nil, or_false] at hv
  rcases hv with rfl | rfl | rfl <;> simp [exParse]

/-! ## C51: votes of weight zero -/

/-- **C51 is false of the code.** A vote of weight zero for a case without votes makes its average
NaN, and no later vote repairs it. -/
theorem c51_zero_weight_nan (votes : List (FVote ℚ)) (h : ∀ v ∈ votes, v.case < 1) :
    ∃ bb, castAll (NumBox.vote exParse) (NumBox.new 1)
        ((⟨0, "2", 0⟩ :: votes).map FVote.ballot) = some bb ∧ bb.tallyNum 0 = some .nan := by
  have key : ∀ (votes : List (FVote ℚ)), (∀ v ∈ votes, v.case < 1) → ∀ c,
      ∃ bb, castAll (NumBox.vote exParse) [⟨.nan, c⟩] (votes.map FVote.ballot) = some bb ∧
        bb.tallyNum 0 = some .nan := by
    intro votes
    induction votes with
    | nil => intro _ c; exact ⟨_, rfl, rfl⟩
    | cons v votes ih =>
      intro h c
      have hv : v.case = 0 := by have := h v (by simp); omega
      have ih := ih (fun u hu => h u (by simp [hu]))
      simp only [castAll, List.map_cons, List.foldlM_cons, FVote.ballot] at ih ⊢
      rw [hv]
      cases hp : exParse v.pred with
      | none =>
        simp only [NumBox.vote, hp, Option.bind_eq_bind, Option.bind_some]
        exact ih c
      | some x =>
        simp only [NumBox.vote, hp, Option.bind_eq_bind, List.getElem?_cons_zero,
          Option.bind_some, List.set_cons_zero, RunningMean.weightedAdd]
        split_ifs
        · have : (XF.nan * c + .fin v.weight * x) / (c + .fin v.weight) = (XF.nan : XF ℚ) := by
            show XF.div (XF.add (XF.mul .nan c) _) _ = _
            simp only [XF.mul, XF.add, XF.div]
          rw [this]
          exact ih _
        · exact ih c
  obtain ⟨bb, e, hb⟩ := key votes h (.fin 0)
  refine ⟨bb, ?_, hb⟩
  have h0 : NumBox.vote exParse (NumBox.new 1) 0 "2" (.fin 0) = some [⟨.nan, .fin 0⟩] := by
    decide +kernel
  rw [← e, castAll, List.map_cons, List.foldlM_cons]
  simp only [FVote.ballot, h0, Option.bind_eq_bind, Option.bind_some]
  rfl

/-- **C51, partial.** Votes of weight zero do no harm if the first number voted for a case has a
positive weight: the result is the weighted mean, to which they do not contribute. -/
theorem c51_later_zeros_partial (parse : String → Option (XF K)) (size : Nat)
    (votes : List (FVote K))
    (h : ∀ v ∈ votes, v.case < size ∧ 0 ≤ v.weight ∧
      ∀ x, parse v.pred = some x → x = .nan ∨ ∃ y, x = .fin y)
    (hfirst : ∀ pre v post, votes = pre ++ v :: post → numVotes parse pre v.case = [] →
      0 < v.weight) :
    ∃ bb, castAll (NumBox.vote parse) (NumBox.new size) (votes.map FVote.ballot) = some bb ∧
      ∀ i < size, numVotes parse votes i ≠ [] →
        bb.tallyNum i = some (.fin (weightedSum ((numVotes parse votes i).filter fun yw => 0 < yw.2) /
          totalWeight ((numVotes parse votes i).filter fun yw => 0 < yw.2))) := by
  have hinv : ∀ pre post, votes = pre ++ post →
      ∃ bb, castAll (NumBox.vote parse) (NumBox.new size) (pre.map FVote.ballot) = some bb ∧
        NumBoxInv parse size pre bb := by
    intro pre
    induction pre using List.reverseRecOn with
    | nil => intro _ _; exact ⟨_, rfl, numBox_inv_new parse size⟩
    | append_singleton pre v ih =>
      intro post hpost
      have hpost' : votes = pre ++ v :: post := by rw [hpost]; simp
      obtain ⟨b, e, hb⟩ := ih (v :: post) hpost'
      have hv := h v (by rw [hpost']; simp)
      obtain ⟨b', e', hb'⟩ := numBox_vote hb v hv.1 hv.2.2 (by
        by_cases hn : numVotes parse pre v.case = []
        · exact .inl (hfirst pre v post hpost' hn)
        · exact .inr ⟨hv.2.1, hn⟩)
      refine ⟨b', ?_, hb'⟩
      rw [List.map_append, castAll_append, e]
      simp [castAll, FVote.ballot, e']
  obtain ⟨bb, e, hb⟩ := hinv votes [] (by simp)
  refine ⟨bb, e, fun i hi hne => ?_⟩
  obtain ⟨m, hm⟩ : ∃ m, bb[i]? = some m := ⟨_, List.getElem?_eq_getElem (by rw [hb.len]; exact hi)⟩
  rcases hb.vals i m hm with ⟨hnil, -⟩ | ⟨hpos, rfl⟩
  · exact absurd hnil hne
  · have hnn : ∀ yw ∈ numVotes parse votes i, 0 ≤ yw.2 := by
      intro yw hyw
      obtain ⟨v, hv, hv'⟩ := List.mem_filterMap.1 hyw
      split at hv'
      · split at hv'
        · cases hv'; exact (h v hv).2.1
        · cases hv'
      · cases hv'
    have hdrop : ∀ l : List (K × K), (∀ yw ∈ l, 0 ≤ yw.2) →
        weightedSum (l.filter fun yw => 0 < yw.2) = weightedSum l ∧
        totalWeight (l.filter fun yw => 0 < yw.2) = totalWeight l := by
      intro l
      induction l with
      | nil => intro _; exact ⟨rfl, rfl⟩
      | cons a l ih =>
        intro hl
        have ih := ih (fun yw h => hl yw (by simp [h]))
        have ha := hl a (by simp)
        unfold weightedSum totalWeight at ih ⊢
        rw [List.filter_cons]
        by_cases h0 : 0 < a.2
        · simp [h0, ih.1, ih.2]
        · have : a.2 = 0 := le_antisymm (not_lt.1 h0) ha
          simp [h0, this, ih.1, ih.2]
    rw [(hdrop _ hnn).1, (hdrop _ hnn).2]
    simp [NumBox.tallyNum, hm]

example : ∃ bb, castAll (NumBox.vote exParse) (NumBox.new 1)
    (([⟨0, "2", 1⟩, ⟨0, "5", 0⟩] : List (FVote ℚ)).map FVote.ballot) = some bb ∧
    bb.tallyNum 0 = some (.fin 2) ∧
    (∀ pre v post, ([⟨0, "2", 1⟩, ⟨0, "5", 0⟩] : List (FVote ℚ)) = pre ++ v :: post →
      numVotes exParse pre v.case = [] → 0 < v.weight) := by
  refine ⟨[⟨.fin 2, .fin 1⟩], by decide +kernel, by decide +kernel, ?_⟩
  intro pre v post h hn
  match pre, h with
  | [], h => cases h; decide +kernel
  | [a], h => cases h; exact absurd hn (by decide +kernel)
  | [a, b], h => cases h
  | a :: b :: c :: l, h => cases h

/-! ## C28 -/

/-- **C28.** The error is the mean over the classes of the fraction of wrongly predicted cases. -/
theorem c28_error (f : CatFeature) (hf : f.Known) (hc : 0 < f.cm.nCats)
    (hall : ∀ k < f.cm.nCats, f.classCases k ≠ []) (tally : Nat → Option String)
    (ht : ∀ i < f.catData.length, (tally i).isSome) :
    catTallyError f tally = some (.fin (((List.range f.cm.nCats).map fun k =>
      ((wrongCases f tally k).length : K) / ((f.classCases k).length : K)).sum /
        (f.cm.nCats : K))) := by
  have hn : ((f.cm.nCats : Nat) : K) ≠ 0 := by exact_mod_cast hc.ne'
  have hpos : ∀ k ∈ List.range f.cm.nCats, (f.classCases k).length ≠ 0 := fun k hk =>
    (List.length_pos_of_ne_nil (hall k (List.mem_range.1 hk))).ne'
  unfold catTallyError
  rw [catErrorCounts_eq f hf tally ht]
  simp only [Option.bind_eq_bind, Option.bind_some]
  rw [foldl_ratio _ _ hpos, XF.ofNat, XF.fin_div _ hn, XF.fin_sub, zero_add]
  congr 2
  have hsum : ∀ ks : List Nat, (∀ k ∈ ks, (f.classCases k).length ≠ 0) →
      (ks.map fun k => ((wrongCases f tally k).length : K) / ((f.classCases k).length : K)).sum =
      (ks.length : K) - (ks.map fun k => ((((f.classCases k).filter fun i =>
        decide (tally i = f.cm.back[k]?)).length : Nat) : K) / ((f.classCases k).length : K)).sum := by
    intro ks
    induction ks with
    | nil => intro _; simp
    | cons k ks ih =>
      intro h
      have hk : (((f.classCases k).length : Nat) : K) ≠ 0 := by
        have := h k (by simp)
        exact_mod_cast this
      have hrw := right_add_wrong f tally k
      have hrw' : ((wrongCases f tally k).length : K) = ((f.classCases k).length : K) -
          ((((f.classCases k).filter fun i => decide (tally i = f.cm.back[k]?)).length : Nat) : K) := by
        rw [← hrw]; push_cast; ring
      simp only [List.map_cons, List.sum_cons, List.length_cons]
      rw [ih (fun k hk => h k (by simp [hk])), hrw', sub_div, div_self hk]
      push_cast
      ring
  rw [hsum _ hpos, List.length_range, sub_div, div_self hn]

/-- **C28, range.** The error lies between zero and one, and is zero exactly if every case with
known class is predicted right. -/
theorem c28_range (f : CatFeature) (hf : f.Known) (hc : 0 < f.cm.nCats)
    (hall : ∀ k < f.cm.nCats, f.classCases k ≠ []) (tally : Nat → Option String)
    (ht : ∀ i < f.catData.length, (tally i).isSome) :
    ∃ e : K, catTallyError f tally = some (.fin e) ∧ 0 ≤ e ∧ e ≤ 1 ∧
      (e = 0 ↔ ∀ i k, f.missing[i]? = some false → f.catData[i]? = some k →
        tally i = f.cm.back[k]?) := by
  refine ⟨_, c28_error f hf hc hall tally ht, ?_, ?_, ?_⟩
  · refine div_nonneg (List.sum_nonneg ?_) (Nat.cast_nonneg _)
    simp only [List.mem_map, forall_exists_index, and_imp]
    rintro x k - rfl
    positivity
  · have hn : (0 : K) < ((f.cm.nCats : Nat) : K) := by exact_mod_cast hc
    rw [div_le_one hn]
    have : ∀ ks : List Nat, (ks.map fun k =>
        ((wrongCases f tally k).length : K) / ((f.classCases k).length : K)).sum ≤ (ks.length : K) := by
      intro ks
      induction ks with
      | nil => simp
      | cons k ks ih =>
        simp only [List.map_cons, List.sum_cons, List.length_cons]
        have h1 : ((wrongCases f tally k).length : K) / ((f.classCases k).length : K) ≤ 1 := by
          apply div_le_one_of_le₀
          · exact_mod_cast List.length_filter_le _ _
          · exact Nat.cast_nonneg _
        push_cast
        linarith
    simpa using this (List.range f.cm.nCats)
  · have hn : ((f.cm.nCats : Nat) : K) ≠ 0 := by exact_mod_cast hc.ne'
    rw [div_eq_zero_iff, or_iff_left hn]
    have hz : ∀ ks : List Nat, (∀ k ∈ ks, (f.classCases k).length ≠ 0) → ((ks.map fun k =>
        ((wrongCases f tally k).length : K) / ((f.classCases k).length : K)).sum = 0 ↔
          ∀ k ∈ ks, wrongCases f tally k = []) := by
      intro ks
      induction ks with
      | nil => intro _; simp
      | cons k ks ih =>
        intro h
        have hk : (((f.classCases k).length : Nat) : K) ≠ 0 := by
          have := h k (by simp)
          exact_mod_cast this
        have h0 : (0 : K) ≤ ((wrongCases f tally k).length : K) / ((f.classCases k).length : K) := by
          positivity
        have h1 : (0 : K) ≤ (ks.map fun k =>
            ((wrongCases f tally k).length : K) / ((f.classCases k).length : K)).sum := by
          refine List.sum_nonneg ?_
          simp only [List.mem_map, forall_exists_index, and_imp]
          rintro x k - rfl
          positivity
        simp only [List.map_cons, List.sum_cons, List.forall_mem_cons]
        rw [add_eq_zero_iff_of_nonneg h0 h1, ih (fun k hk => h k (by simp [hk])), div_eq_zero_iff,
          or_iff_left hk]
        simp
    rw [hz _ (fun k hk => (List.length_pos_of_ne_nil (hall k (List.mem_range.1 hk))).ne')]
    constructor
    · intro h i k hm hk
      have hkl : k < f.cm.nCats := hf.vals i k hk
      have hi : i < f.catData.length := (List.getElem?_eq_some_iff.1 hk).1
      by_contra hne
      have : i ∈ wrongCases f tally k := by
        simp only [wrongCases, CatFeature.classCases, List.mem_filter, List.mem_range,
          decide_eq_true_eq]
        exact ⟨⟨hi, hm, hk⟩, hne⟩
      rw [h k (List.mem_range.2 hkl)] at this
      cases this
    · intro h k _
      rw [wrongCases, List.filter_eq_nil_iff]
      intro i hi
      simp only [CatFeature.classCases, List.mem_filter, List.mem_range, decide_eq_true_eq] at hi
      simp only [decide_eq_true_eq, not_not]
      exact h i k hi.2.1 hi.2.2

/-- A target of five cases, the last with missing value. -/
def exTarget : CatFeature :=
  { cm := ⟨fun s => if s = "a" then some 0 else if s = "b" then some 1 else none, ["a", "b"]⟩,
    catData := [0, 1, 0, 1, 0],
    missing := [false, false, false, false, true], name := "t", randomSearch := false,
    hasMissing := true }

/-- Predictions for them: case 3 is wrong. -/
def exTally (i : Nat) : Option String := [some "a", some "b", some "a", some "a", some "b"].getD i none

example : exTarget.Known ∧ 0 < exTarget.cm.nCats ∧
    (∀ k < exTarget.cm.nCats, exTarget.classCases k ≠ []) ∧
    (∀ i < exTarget.catData.length, (exTally i).isSome) ∧
    catTallyError (K := ℚ) exTarget exTally = some (.fin (1 / 4)) := by
  refine ⟨⟨rfl, ?_⟩, by decide, by decide, by decide, by decide +kernel⟩
  intro i k h
  match i, h with
  | 0, h | 1, h | 2, h | 3, h | 4, h => cases h; decide
  | n + 5, h => cases h

/-- The condition on classes is needed: with a class without cases the error is NaN. -/
example : catTallyError (K := ℚ) { exTarget with cm := ⟨fun s =>
      if s = "a" then some 0 else if s = "b" then some 1 else if s = "c" then some 2 else none,
      ["a", "b", "c"]⟩ } exTally = some .nan := by decide +kernel

/-! ## C29 -/

/-- **C29.** The squared error is the mean of the squared differences over the cases with known
target and a prediction; without such cases the program ends. -/
theorem c29_squared_error (f : NumFeature K) (bb : NumBox K) (y p : Nat → K)
    (hlen : ∀ i < f.missing.length, (bb.tallyNum i).isSome)
    (hy : ∀ i ∈ knownCases f.missing, f.numData[i]? = some (.fin (y i)))
    (hp : ∀ i ∈ knownCases f.missing, bb.tallyNum i = some .nan ∨ bb.tallyNum i = some (.fin (p i))) :
    bb.tallySquaredError f = if judgedCases f.missing bb.tallyNum = [] then none else
      some (.fin (meanSquare (judgedCases f.missing bb.tallyNum) y p)) := by
  unfold NumBox.tallySquaredError
  rw [squaredError_loop f bb y p hlen hy hp]
  simp only [Option.bind_eq_bind, Option.bind_some, List.length_eq_zero_iff]
  split_ifs with h
  · rfl
  · have hl : (((judgedCases f.missing bb.tallyNum).length : Nat) : K) ≠ 0 := by
      have := List.length_pos_of_ne_nil h
      exact_mod_cast this.ne'
    rw [XF.ofNat, XF.fin_div _ hl, meanSquare]
    simp only [sq]

/-- **C29, relative error and score.** `TallyError` is the squared error divided by the variance of
the target, and `TallyR2Score` one minus that. -/
theorem c29_error (f : NumFeature K) (bb : NumBox K) (y : Nat → K)
    (hy : ∀ i ∈ knownCases f.missing, f.numData[i]? = some (.fin (y i)))
    (hne : knownCases f.missing ≠ []) :
    bb.tallyError f = (bb.tallySquaredError f).map (fun e =>
      e / .fin (meanSquare (knownCases f.missing) y fun _ => meanOver (knownCases f.missing) y)) ∧
    bb.tallyR2 f = (bb.tallyError f).map (fun e => .fin 1 - e) := by
  constructor
  · unfold NumBox.tallyError
    rw [knownMean_eq f y hy hne]
    simp only [Option.bind_eq_bind, Option.bind_some]
    rw [knownVariance_eq f y hy hne]
    simp only [Option.bind_some, meanSquare, meanOver, sq]
    cases bb.tallySquaredError f <;> rfl
  · unfold NumBox.tallyR2
    cases bb.tallyError f <;> rfl

/-- **C29, extremes.** If the target varies, right predictions score one and the mean as the
prediction of every case scores zero. -/
theorem c29_scores (f : NumFeature K) (bb : NumBox K) (y : Nat → K)
    (hlen : ∀ i < f.missing.length, (bb.tallyNum i).isSome)
    (hy : ∀ i ∈ knownCases f.missing, f.numData[i]? = some (.fin (y i)))
    (hvar : ∃ i ∈ knownCases f.missing, ∃ j ∈ knownCases f.missing, y i ≠ y j) :
    ((∀ i ∈ knownCases f.missing, bb.tallyNum i = some (.fin (y i))) →
      bb.tallyR2 f = some (.fin 1)) ∧
    ((∀ i ∈ knownCases f.missing,
        bb.tallyNum i = some (.fin (meanOver (knownCases f.missing) y))) →
      bb.tallyR2 f = some (.fin 0)) := by
  have hne : knownCases f.missing ≠ [] := by
    obtain ⟨i, hi, -⟩ := hvar
    exact List.ne_nil_of_mem hi
  have hl : (((knownCases f.missing).length : Nat) : K) ≠ 0 := by
    have := List.length_pos_of_ne_nil hne
    exact_mod_cast this.ne'
  have hvz : meanSquare (knownCases f.missing) y (fun _ => meanOver (knownCases f.missing) y) ≠ 0 := by
    intro h0
    rw [meanSquare, div_eq_zero_iff, or_iff_left hl] at h0
    have hall : ∀ i ∈ knownCases f.missing, y i = meanOver (knownCases f.missing) y := by
      intro i hi
      have hle := List.single_le_sum (l := (knownCases f.missing).map fun i =>
        (y i - meanOver (knownCases f.missing) y) ^ 2) (by
          simp only [List.mem_map, forall_exists_index, and_imp]
          rintro x k - rfl
          positivity) _ (List.mem_map.2 ⟨i, hi, rfl⟩)
      rw [h0] at hle
      have : (y i - meanOver (knownCases f.missing) y) ^ 2 = 0 := le_antisymm hle (sq_nonneg _)
      exact sub_eq_zero.1 (by simpa using this)
    obtain ⟨i, hi, j, hj, hij⟩ := hvar
    exact hij ((hall i hi).trans (hall j hj).symm)
  have hj : ∀ p : Nat → K, (∀ i ∈ knownCases f.missing, bb.tallyNum i = some (.fin (p i))) →
      judgedCases f.missing bb.tallyNum = knownCases f.missing := by
    intro p hp
    rw [judgedCases, List.filter_eq_self]
    intro i hi
    simp [hp i hi]
  obtain ⟨h1, h2⟩ := c29_error f bb y hy hne
  constructor
  · intro hp
    rw [h2, h1, c29_squared_error f bb y y hlen hy (fun i hi => .inr (hp i hi)), hj y hp, if_neg hne]
    have : meanSquare (knownCases f.missing) y y = 0 := by simp [meanSquare]
    rw [this, Option.map_some, Option.map_some, XF.fin_div _ hvz, XF.fin_sub]
    simp
  · intro hp
    rw [h2, h1, c29_squared_error f bb y _ hlen hy (fun i hi => .inr (hp i hi)), hj _ hp, if_neg hne]
    rw [Option.map_some, Option.map_some, XF.fin_div _ hvz, XF.fin_sub, div_self hvz]
    simp

/-- A numerical target of three cases, the last with missing value. -/
def exNumTarget : NumFeature ℚ :=
  ⟨[.fin 2, .fin 5, .fin 9], [false, false, true], "n", true⟩

example : knownCases exNumTarget.missing = [0, 1] ∧
    NumBox.tallySquaredError [⟨.fin 3, .fin 1⟩, ⟨.fin 5, .fin 2⟩, ⟨.fin 0, .fin 0⟩] exNumTarget =
      some (.fin (1 / 2)) ∧
    NumBox.tallyError [⟨.fin 3, .fin 1⟩, ⟨.fin 5, .fin 2⟩, ⟨.fin 0, .fin 0⟩] exNumTarget =
      some (.fin (2 / 9)) ∧
    NumBox.tallyR2 [⟨.fin 3, .fin 1⟩, ⟨.fin 5, .fin 2⟩, ⟨.fin 0, .fin 0⟩] exNumTarget =
      some (.fin (7 / 9)) := by
  refine ⟨by decide +kernel, by decide +kernel, by decide +kernel, by decide +kernel⟩

/-! ## C52: cases without votes -/

/-- **C52 is false of the code.** Case 0 is predicted exactly and case 1 is not voted on, but the
squared error is not zero: it counts case 1 as predicted 0. -/
theorem c52_unvoted_counted :
    ((castAll (NumBox.vote exParse) (NumBox.new 3) [⟨0, "2", .fin 1⟩]).bind fun bb =>
      bb.tallySquaredError exNumTarget) = some (.fin (25 / 2)) := by decide +kernel

/-- **C52, partial.** What the squared error is, for any votes of positive weight: cases with known
target and without votes count as if 0 had been predicted. It is the error of the votes if every
case with known target has one. -/
theorem c52_squared_error_partial (parse : String → Option (XF K)) (votes : List (FVote K))
    (f : NumFeature K) (y : Nat → K)
    (h : ∀ v ∈ votes, v.case < f.missing.length ∧ 0 < v.weight ∧
      ∀ x, parse v.pred = some x → x = .nan ∨ ∃ y, x = .fin y)
    (hy : ∀ i ∈ knownCases f.missing, f.numData[i]? = some (.fin (y i)))
    (hne : knownCases f.missing ≠ []) :
    ((castAll (NumBox.vote parse) (NumBox.new f.missing.length) (votes.map FVote.ballot)).bind
      fun bb => bb.tallySquaredError f) =
      some (.fin (meanSquare (knownCases f.missing) y fun i =>
        if numVotes parse votes i = [] then 0 else
          weightedSum (numVotes parse votes i) / totalWeight (numVotes parse votes i))) := by
  obtain ⟨bb, e, hb⟩ := castAll_inv (NumBox.vote parse) (NumBoxInv parse f.missing.length)
    (fun v => v.case < f.missing.length ∧ 0 < v.weight ∧
      ∀ x, parse v.pred = some x → x = .nan ∨ ∃ y, x = .fin y) _
    (numBox_inv_new parse f.missing.length)
    (fun _ _ v hb hv => numBox_vote hb v hv.1 hv.2.2 (.inl hv.2.1)) votes h
  have ht : ∀ i < f.missing.length, bb.tallyNum i = some (.fin (if numVotes parse votes i = []
      then 0 else weightedSum (numVotes parse votes i) / totalWeight (numVotes parse votes i))) := by
    intro i hi
    obtain ⟨m, hm⟩ : ∃ m, bb[i]? = some m :=
      ⟨_, List.getElem?_eq_getElem (by rw [hb.len]; exact hi)⟩
    rcases hb.vals i m hm with ⟨hnil, rfl⟩ | ⟨hpos, rfl⟩
    · simp [NumBox.tallyNum, hm, hnil, RunningMean.new]
    · have : numVotes parse votes i ≠ [] := by
        intro h0; rw [h0] at hpos; simp [totalWeight] at hpos
      simp [NumBox.tallyNum, hm, this]
  have hk : ∀ i ∈ knownCases f.missing, i < f.missing.length := by
    intro i hi
    simp only [knownCases, List.mem_filter, List.mem_range] at hi
    exact hi.1
  have hj : judgedCases f.missing bb.tallyNum = knownCases f.missing := by
    rw [judgedCases, List.filter_eq_self]
    intro i hi
    simp [ht i (hk i hi)]
  rw [e, Option.bind_some, c29_squared_error f bb y _ (fun i hi => by rw [ht i hi]; rfl) hy
    (fun i hi => .inr (ht i (hk i hi))), hj, if_neg hne]

end CloudForest
