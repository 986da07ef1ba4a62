import Verif.Model.Oob
import Verif.Props.Apply
import Verif.Props.Sampling

/-!
# C103 and C104: cases without bagging, and out-of-bag predictions
-/

set_option linter.unusedSectionVars false

namespace CloudForest
variable {K : Type} [Field K] [LinearOrder K] [IsStrictOrderedRing K]

/-! ## Without bagging -/

theorem nobagCases_eq (missing : List Bool) (n : Nat) (hn : n ≤ missing.length) :
    nobagCases (missing[·]?) n = some ((List.range n).filter fun i => missing[i]? == some false) := by
  unfold nobagCases
  induction n with
  | zero => rfl
  | succ n ih =>
    rw [List.range_succ, List.foldlM_append, ih (by omega), List.filter_append]
    simp only [Option.bind_eq_bind, Option.bind_some, List.foldlM_cons, List.foldlM_nil,
      List.getElem?_eq_getElem (show n < missing.length by omega)]
    have hg := List.getElem?_eq_getElem (show n < missing.length by omega)
    cases h : missing[n]'(by omega) <;> rw [h] at hg <;> simp [hg]

/-- The cases whose target is known. -/
def bagKnown (missing : List Bool) : List Nat := (List.range missing.length).filter fun i => missing[i]? == some false

theorem bagKnown_length (missing : List Bool) : (bagKnown missing).length ≤ missing.length := by
  have := List.length_filter_le (fun i => missing[i]? == some false) (List.range missing.length)
  simpa [bagKnown] using this

/-- If all are known, they are all cases. -/
theorem bagKnown_all {missing : List Bool} (h : (bagKnown missing).length = missing.length) :
    bagKnown missing = List.range missing.length := by
  unfold bagKnown at h ⊢
  exact List.filter_eq_self.2 (List.length_filter_eq_length_iff.1 (by simpa using h))

/-- C103. With `-nobag` and the default number of samples every tree is grown from the cases with known target, each
once: `nNonMissing` is their number, `cases` the worker's list in any order. -/
theorem c103_all (missing : List Bool) (rng : Rng) (given : Int) (hg : given ≤ 0) (cases start : List Nat)
    (hs : nobagCases (missing[·]?) (bagKnown missing).length = some start) (hp : cases.Perm start) :
    ∃ out rng', nobagTree (missing[·]?) missing.length (defaultSamples given (bagKnown missing).length).toNat cases rng =
      some (out, rng') ∧ out.Perm (bagKnown missing) := by
  have hd : (defaultSamples given (bagKnown missing).length).toNat = (bagKnown missing).length := by
    simp [defaultSamples, hg]
  rw [hd, nobagTree]
  by_cases h : (bagKnown missing).length ≠ missing.length
  · rw [if_pos h, nobagCases_eq _ _ le_rfl]
    obtain ⟨deck', s, rng', e, h1, -, h3, -, -, h6⟩ := c19_sampleFirstN (bagKnown missing) (bagKnown missing).length 0
      (by omega) rng
    have e' := e
    unfold bagKnown at e' ⊢
    simp only [Option.bind_eq_bind, Option.bind_some, e']
    refine ⟨_, _, rfl, ?_⟩
    have : s = deck' := by
      apply h3.eq_of_length
      rw [h6 rfl, h1.length_eq]
      simp
    rw [this]
    exact h1
  · rw [if_neg h]
    refine ⟨_, _, rfl, hp.trans ?_⟩
    push_neg at h
    rw [h, nobagCases_eq _ _ le_rfl] at hs
    cases hs
    exact .refl _

example : bagKnown [false, true, false, false] = [0, 2, 3] ∧ nobagCases ([false, true, false, false][·]?) 3 = some [0, 2] ∧
    (nobagTree ([false, true, false, false][·]?) 4 (defaultSamples 0 3).toNat [2, 0] (fun k => k)).map (·.1) =
      some [0, 3, 2] := by decide +kernel

/-- C103, with `-nSamples`. A number other than that of all cases gives so many of the known cases, or all of them,
drawn without repetition. -/
theorem c103_some_partial (missing : List Bool) (rng : Rng) (k : Nat) (hk : k ≠ missing.length) (cases : List Nat) :
    ∃ out rng', nobagTree (missing[·]?) missing.length k cases rng = some (out, rng') ∧
      out.length = min k (bagKnown missing).length ∧ out.Nodup ∧ ∀ i ∈ out, missing[i]? = some false := by
  rw [nobagTree, if_pos hk, nobagCases_eq _ _ le_rfl]
  obtain ⟨deck', s, rng', e, h1, -, h3, -, -, h6⟩ := c19_sampleFirstN (bagKnown missing) k 0 (by omega) rng
  have e' := e
  unfold bagKnown at e' ⊢
  simp only [Option.bind_eq_bind, Option.bind_some, e']
  refine ⟨_, _, rfl, h6 rfl, ?_, fun i hi => ?_⟩
  · exact h3.sublist.nodup (h1.nodup_iff.2 (List.nodup_range.filter _))
  · have := h1.mem_iff.1 (h3.subset hi)
    simpa using (List.mem_filter.1 this).2

example : (nobagTree ([false, true, false, false][·]?) 4 2 [2, 0] (fun k => k)).map (·.1) = some [0, 3] := by
  decide +kernel

/-- **C103 is false of the code** if `-nSamples` is the number of all cases while the target of some is missing: only
the first `nNonMissing` cases are looked at (growforest.go:605-611). Case 3 is known, but in no tree. -/
theorem c103_tail_lost : bagKnown [false, true, false, false] = [0, 2, 3] ∧
    ∃ start, nobagCases ([false, true, false, false][·]?) (bagKnown [false, true, false, false]).length = some start ∧
      ∀ (cases : List Nat) (rng : Rng), cases.Perm start →
        ∃ out, (nobagTree ([false, true, false, false][·]?) 4 (defaultSamples 4 3).toNat cases rng) =
          some (out, rng) ∧ 3 ∉ out := by
  refine ⟨by decide, [0, 2], by decide, fun cases rng hp => ⟨cases, rfl, fun h => ?_⟩⟩
  have := hp.mem_iff.1 h
  simp at this

/-! ## Out-of-bag votes -/

theorem usable_mono {fm : FeatureMatrix K} {cases cases' : List Nat} (hs : ∀ c ∈ cases', c ∈ cases) (n : Node K) :
    Usable fm cases n → Usable fm cases' n := by
  induction n with
  | nil => exact fun h => h
  | mk coded fi l r m pred spl ihl ihr ihm =>
    by_cases hsp : splits coded spl = true
    · rw [usable_split hsp, usable_split hsp]
      rintro ⟨hn, h1, h2, h3⟩
      refine ⟨?_, ihl h1, ihr h2, h3.imp_right ihm⟩
      match coded, spl with
      | some code, _ =>
        obtain ⟨f, h4, h5, h6, h7⟩ := hn
        exact ⟨f, h4, h5, h6, fun c hc => h7 c (hs c hc)⟩
      | none, some s =>
        obtain ⟨f, h4, h5, h6⟩ := hn
        exact ⟨f, h4, h5, fun c hc => h6 c (hs c hc)⟩
      | none, none => exact hn
    · rw [usable_leaf (by simpa using hsp), usable_leaf (by simpa using hsp)]
      exact fun h => h

/-- The trees that were grown without case `i`. -/
def treesWithout (runs : List (Tree K × List Nat)) (i : Nat) : List (Tree K) :=
  (runs.filter fun r => decide (i ∉ r.2)).map (·.1)

/-- A run of trees with their cases: the cases exist, the trees can be used on all cases and have finite weights. -/
def RunsFit (fm : FeatureMatrix K) (n : Nat) (runs : List (Tree K × List Nat)) : Prop :=
  ∀ r ∈ runs, (∀ c ∈ r.2, c < n) ∧ (∃ x, r.1.weight = .fin x) ∧ Usable fm (List.range n) r.1.root

/-- The votes that trees should cast out of their bags. -/
def outsideVotes (fm : FeatureMatrix K) (n : Nat) (runs : List (Tree K × List Nat)) : List (FVote K) :=
  runs.flatMap fun r => (List.range n).filterMap fun c =>
    if c ∈ r.2 then none else (r.1.opinion fm c).map fun p => ⟨c, p, r.1.say⟩

/-- What one tree casts on a list of cases. -/
theorem voteCases_fvotes {t : Tree K} {fm : FeatureMatrix K} {cases : List Nat} (hw : ∃ x, t.weight = .fin x)
    (hu : Usable fm cases t.root) :
    ∃ (fv : List (FVote K)) (out : List Nat), t.voteCases fm cases = some (fv.map FVote.ballot, out) ∧
      fv.Perm (cases.filterMap fun c => (t.opinion fm c).map fun p => ⟨c, p, t.say⟩) := by
  obtain ⟨votes, cs, h1, -, h3⟩ := c06_one_vote_per_case t fm cases hu
  have hmap : cases.filterMap (fun c => (landing fm t.root c).map fun x =>
      (⟨c, x.2, t.voteWeight⟩ : Ballot K)) =
      (cases.filterMap fun c => (t.opinion fm c).map fun p => (⟨c, p, t.say⟩ : FVote K)).map FVote.ballot := by
    simp only [List.map_filterMap, Tree.voteWeight_say hw, Tree.opinion, Option.map_map]
    rfl
  rw [hmap] at h3
  obtain ⟨fv, h4, h5⟩ : ∃ fv : List (FVote K), fv.map FVote.ballot = votes ∧
      fv.Perm (cases.filterMap fun c => (t.opinion fm c).map fun p => ⟨c, p, t.say⟩) := by
    have hback : ∀ b ∈ votes, ∃ v : FVote K, v.ballot = b := by
      intro b hb
      obtain ⟨v, -, hv⟩ := List.mem_map.1 (h3.mem_iff.1 hb)
      exact ⟨v, hv⟩
    obtain ⟨fv, rfl⟩ : ∃ fv : List (FVote K), fv.map FVote.ballot = votes := by
      clear h1 h3
      induction votes with
      | nil => exact ⟨[], rfl⟩
      | cons b vs ih =>
        obtain ⟨v, rfl⟩ := hback b (by simp)
        obtain ⟨fv, rfl⟩ := ih fun b hb => hback b (List.mem_cons_of_mem _ hb)
        exact ⟨v :: fv, rfl⟩
    have hinj : Function.Injective (FVote.ballot (K := K)) := by
      rintro ⟨a, b, c⟩ ⟨a', b', c'⟩ h
      simp only [FVote.ballot, Ballot.mk.injEq, XF.fin.injEq] at h
      obtain ⟨rfl, rfl, rfl⟩ := h
      rfl
    exact ⟨fv, rfl, (List.map_perm_map_iff hinj).1 h3⟩
  exact ⟨fv, cs, by rw [h1, h4], h5⟩

theorem oobCases_eq (n : Nat) (cases : List Nat) (h : ∀ c ∈ cases, c < n) :
    oobCases n cases = some ((List.range n).filter fun i => decide (i ∉ cases)) := by
  obtain ⟨oob, e, h1, h2⟩ := c20_oob n cases h
  rw [e]
  congr 1
  refine List.Perm.eq_of_pairwise (le := (· < ·)) (fun a b _ _ h h' => absurd (h.trans h') (lt_irrefl _)) h2
    (List.Pairwise.filter _ List.pairwise_lt_range) ?_
  rw [List.perm_ext_iff_of_nodup (h2.imp fun h => ne_of_lt h) (List.nodup_range.filter _)]
  intro i
  rw [h1]
  simp

theorem oob_casts (nt : NumText K) {fm : FeatureMatrix K} {n : Nat} :
    ∀ (runs : List (Tree K × List Nat)), RunsFit fm n runs →
    ∃ fv : List (FVote K), fv.Perm (outsideVotes fm n runs) ∧ ∀ bb : Box K,
      oobVotes nt fm n bb runs = bb.castVotes nt (fv.map FVote.ballot) := by
  intro runs
  induction runs with
  | nil => intro _; exact ⟨[], .nil, fun bb => (Box.castVotes_nil nt bb).symm⟩
  | cons r runs ih =>
    intro h
    obtain ⟨hlt, hw, hu⟩ := h r (by simp)
    obtain ⟨fv, out, h1, h2⟩ := voteCases_fvotes (cases := (List.range n).filter fun i => decide (i ∉ r.2)) hw
      (usable_mono (fun c hc => (List.mem_filter.1 hc).1) _ hu)
    obtain ⟨fv', h3, h4⟩ := ih fun t ht => h t (by simp [ht])
    refine ⟨fv ++ fv', ?_, ?_⟩
    · have : outsideVotes fm n (r :: runs) = ((List.range n).filter fun i => decide (i ∉ r.2)).filterMap
          (fun c => (r.1.opinion fm c).map fun p => (⟨c, p, r.1.say⟩ : FVote K)) ++ outsideVotes fm n runs := by
        simp only [outsideVotes, List.flatMap_cons, List.filterMap_filter]
        congr 1
        apply List.filterMap_congr
        intro c _
        by_cases hc : c ∈ r.2 <;> simp [hc]
      rw [this]
      exact h2.append h3
    · intro bb
      unfold oobVotes at h4 ⊢
      rw [List.foldlM_cons, oobCases_eq n r.2 hlt, List.map_append, Box.castVotes_append]
      simp only [Option.bind_eq_bind, Option.bind_some, h1]
      cases bb.castVotes nt (fv.map FVote.ballot) with
      | none => rfl
      | some bb => exact h4 bb

theorem outsideVotes_cons (fm : FeatureMatrix K) (n : Nat) (r : Tree K × List Nat) (runs : List (Tree K × List Nat)) :
    outsideVotes fm n (r :: runs) = outsideVotes fm n [r] ++ outsideVotes fm n runs := by
  simp [outsideVotes]

/-- The part of one tree in the votes for a case. -/
theorem outside_one (fm : FeatureMatrix K) (n : Nat) (r : Tree K × List Nat) (i : Nat) (hi : i < n) :
    (outsideVotes fm n [r]).filter (fun v => decide (v.case = i)) =
      (forestVotes fm n (treesWithout [r] i)).filter (fun v => decide (v.case = i)) := by
  have h1 : ∀ g : Nat → Option String, ((List.range n).filterMap fun c =>
      (g c).map fun p => (⟨c, p, r.1.say⟩ : FVote K)).filter (fun v => decide (v.case = i)) =
      ((g i).map fun p => (⟨i, p, r.1.say⟩ : FVote K)).toList := by
    intro g
    rw [← filterMap_range_case n i hi (fun c => (g c).map fun p => (⟨c, p, r.1.say⟩ : FVote K)),
      List.filter_filterMap]
    apply List.filterMap_congr
    intro c _
    cases g c <;> by_cases h : c = i <;> simp [h]
  have h2 := h1 fun c => if c ∈ r.2 then none else r.1.opinion fm c
  have h3 : outsideVotes fm n [r] = (List.range n).filterMap fun c =>
      ((if c ∈ r.2 then none else r.1.opinion fm c).map fun p => (⟨c, p, r.1.say⟩ : FVote K)) := by
    simp only [outsideVotes, List.flatMap_cons, List.flatMap_nil, List.append_nil]
    apply List.filterMap_congr
    intro c _
    by_cases hc : c ∈ r.2 <;> simp [hc]
  rw [h3, h2]
  by_cases hc : i ∈ r.2
  · simp [hc, treesWithout, forestVotes]
  · have h4 := h1 (r.1.opinion fm)
    simp only [hc, if_false, treesWithout, forestVotes, List.filter_cons, not_false_eq_true, decide_true, if_true,
      List.filter_nil, List.map_cons, List.map_nil, List.flatMap_cons, List.flatMap_nil, List.append_nil, h4]

theorem outside_case (fm : FeatureMatrix K) (n : Nat) (runs : List (Tree K × List Nat)) (i : Nat) (hi : i < n) :
    (outsideVotes fm n runs).filter (fun v => decide (v.case = i)) =
      (forestVotes fm n (treesWithout runs i)).filter (fun v => decide (v.case = i)) := by
  induction runs with
  | nil => rfl
  | cons r runs ih =>
    have h1 : treesWithout (r :: runs) i = treesWithout [r] i ++ treesWithout runs i := by
      unfold treesWithout
      rw [← List.map_append, ← List.filter_append]
      rfl
    have h2 : ∀ a b : List (Tree K), forestVotes fm n (a ++ b) = forestVotes fm n a ++ forestVotes fm n b := by
      intro a b; simp [forestVotes]
    rw [outsideVotes_cons, List.filter_append, ih, outside_one fm n r i hi, h1, h2, List.filter_append]

theorem outside_weight (fm : FeatureMatrix K) (n : Nat) (runs : List (Tree K × List Nat)) (i : Nat) (hi : i < n)
    (p : String) : weightFor (outsideVotes fm n runs) i p = weightOf fm (treesWithout runs i) i p := by
  rw [← weightFor_forest fm n _ i hi]
  unfold weightFor
  have : ∀ l : List (FVote K), l.filter (fun v => decide (v.case = i ∧ v.pred = p)) =
      (l.filter fun v => decide (v.case = i)).filter fun v => decide (v.pred = p) := by
    intro l
    rw [List.filter_filter]
    apply List.filter_congr
    intro v _
    rw [Bool.decide_and, Bool.and_comm]
  rw [this, this, outside_case fm n runs i hi]

theorem outside_numbers (nt : NumText K) (fm : FeatureMatrix K) (n : Nat) (runs : List (Tree K × List Nat)) (i : Nat)
    (hi : i < n) : numVotes (fun s => nt.parse s.toList) (outsideVotes fm n runs) i =
      numbersOf nt fm (treesWithout runs i) i := by
  rw [← numVotes_forest nt fm n _ i hi]
  have : ∀ l : List (FVote K), numVotes (fun s => nt.parse s.toList) l i =
      numVotes (fun s => nt.parse s.toList) (l.filter fun v => decide (v.case = i)) i := by
    intro l
    induction l with
    | nil => rfl
    | cons v l ih =>
      by_cases h : v.case = i
      · rw [List.filter_cons, if_pos (by simpa using h)]
        simp only [numVotes, List.filterMap_cons] at ih ⊢
        rw [ih]
      · rw [List.filter_cons, if_neg (by simpa using h), ← ih]
        simp [numVotes, h]
  rw [this, this (forestVotes _ _ _), outside_case fm n runs i hi]

theorem mem_outside {fm : FeatureMatrix K} {n : Nat} {runs : List (Tree K × List Nat)} {v : FVote K}
    (h : v ∈ outsideVotes fm n runs) :
    v.case < n ∧ ∃ r ∈ runs, v.case ∉ r.2 ∧ r.1.opinion fm v.case = some v.pred ∧ v.weight = r.1.say := by
  simp only [outsideVotes, List.mem_flatMap, List.mem_filterMap, List.mem_range] at h
  obtain ⟨r, hr, c, hc, h⟩ := h
  split at h
  · cases h
  · obtain ⟨p, hp, rfl⟩ := Option.map_eq_some_iff.1 h
    exact ⟨hc, r, hr, by assumption, hp, rfl⟩

/-- C104, classes. The out-of-bag prediction for a case is a class with the largest total weight of those trees that
were grown without it, "NA" if there are none of positive weight. -/
theorem c104_classes (nt : NumText K) (fm : FeatureMatrix K) (n nCats : Nat) (hcats : nCats ≠ 0)
    (runs : List (Tree K × List Nat)) (hr : RunsFit fm n runs) :
    ∃ bb, oobVotes nt fm n (oobBox nCats n) runs = some bb ∧ ∀ i < n,
      (∃ res, bb.Tallies nt i res) ∧ ∀ res, bb.Tallies nt i res → ∃ p, res = some p ∧
        ((p = "NA" ∧ ∀ q, weightOf fm (treesWithout runs i) i q ≤ 0) ∨
         (0 < weightOf fm (treesWithout runs i) i p ∧
          ∀ q, weightOf fm (treesWithout runs i) i q ≤ weightOf fm (treesWithout runs i) i p)) := by
  obtain ⟨fv, h1, h2⟩ := oob_casts nt runs hr
  obtain ⟨bb, e, hb⟩ := c25_tally n fv fun v hv => (mem_outside (h1.mem_iff.1 hv)).1
  refine ⟨.cat bb, by rw [h2, oobBox, if_neg hcats, Box.castVotes, e]; rfl, fun i hi => ?_⟩
  have hw : ∀ q, weightFor fv i q = weightOf fm (treesWithout runs i) i q := fun q =>
    (weightFor_perm h1 i q).trans (outside_weight fm n runs i hi q)
  have := hb i hi
  simp only [hw] at this
  exact this

/-- C104, numbers. The out-of-bag prediction is the weighted mean of the numbers predicted by those trees that were
grown without the case, "NA" if there are none. -/
theorem c104_numbers (nt : NumText K) (fm : FeatureMatrix K) (n : Nat) (runs : List (Tree K × List Nat))
    (hr : RunsFit fm n runs) (hpos : ∀ r ∈ runs, 0 < r.1.say)
    (hfin : ∀ r ∈ runs, ∀ i < n, ∀ p x, r.1.opinion fm i = some p → nt.parse p.toList = some x →
      x = .nan ∨ ∃ y, x = .fin y) :
    ∃ bb, oobVotes nt fm n (oobBox 0 n) runs = some (.num bb) ∧ ∀ i < n,
      (numbersOf nt fm (treesWithout runs i) i = [] → ∀ res, (Box.num bb).Tallies nt i res ↔ res = some "NA") ∧
      (numbersOf nt fm (treesWithout runs i) i ≠ [] →
        bb.tallyNum i = some (.fin (weightedSum (numbersOf nt fm (treesWithout runs i) i) /
          totalWeight (numbersOf nt fm (treesWithout runs i) i)))) := by
  obtain ⟨fv, h1, h2⟩ := oob_casts nt runs hr
  obtain ⟨bb, e, hb⟩ := c26_mean (fun s => nt.parse s.toList) (fun x => String.ofList (nt.fmt x)) n fv (by
    intro v hv
    obtain ⟨h3, r, hr, -, h4, h5⟩ := mem_outside (h1.mem_iff.1 hv)
    exact ⟨h3, by rw [h5]; exact hpos r hr, fun x hx => hfin r hr v.case h3 _ x h4 hx⟩)
  refine ⟨bb, by rw [h2, oobBox, if_pos rfl, Box.castVotes, e]; rfl, fun i hi => ?_⟩
  obtain ⟨h3, h4⟩ := hb i hi
  obtain ⟨e1, e2, e3⟩ := c26_order (fun s => nt.parse s.toList) _ _ h1 i
  rw [outside_numbers nt fm n runs i hi] at e1 e2 e3
  refine ⟨fun h res => ?_, fun h => ?_⟩
  · simp only [Box.Tallies, h3 (e3.2 h)]
  · rw [(h4 fun h' => h (e3.1 h')).1, e1, e2]

/-- Two runs on the example data: case 1 is in the first bag only, case 4 in neither. -/
def exRuns : List (Tree ℚ × List Nat) := [(exTree, [0, 1, 1, 2]), (leafTree "y" 1, [3, 0])]

theorem exRuns_fit : RunsFit exFM 5 exRuns := by
  intro r hr
  simp only [exRuns, List.mem_cons, List.not_mem_nil, or_false] at hr
  have hv : ∀ c ∈ List.range 5, (Feature.cat (K := ℚ) exCat).ValidCase c := by
    intro c hc
    apply exCat_valid
    revert c; decide
  rcases hr with rfl | rfl
  · exact ⟨by decide, ⟨2, rfl⟩, ⟨.cat exCat, rfl, trivial, fun _ _ => rfl, hv⟩, ⟨⟨.cat exCat, rfl,
      fun _ _ => rfl, hv⟩, ⟨rfl, rfl⟩, ⟨rfl, rfl⟩, .inl rfl⟩, ⟨rfl, rfl⟩, .inr ⟨rfl, rfl⟩⟩
  · exact ⟨by decide, ⟨1, rfl⟩, ⟨rfl, rfl⟩⟩

example : (List.range 5).map (fun i => (treesWithout exRuns i).map fun t => (t.opinion exFM i, t.say)) =
    [[], [(some "y", 1)], [(some "y", 1)], [(some "y", 2)], [(some "x", 2), (some "y", 1)]] := by decide +kernel

example : RunsFit exFM 5 [(leafTree "2" 1, [0]), (leafTree "-3" 1, [1, 1])] ∧
    ((oobVotes exNums exFM 5 (oobBox 0 5) [(leafTree "2" 1, [0]), (leafTree "-3" 1, [1, 1])]).map fun bb =>
      match bb with
      | .num bb => [0, 1, 2].map bb.tallyNum
      | _ => []) = some [some (.fin (-3)), some (.fin 2), some (.fin (-1 / 2))] := by
  refine ⟨fun r hr => ?_, by decide +kernel⟩
  simp only [List.mem_cons, List.not_mem_nil, or_false] at hr
  rcases hr with rfl | rfl
  · exact ⟨by decide, ⟨1, rfl⟩, ⟨rfl, rfl⟩⟩
  · exact ⟨by decide, ⟨1, rfl⟩, ⟨rfl, rfl⟩⟩

/-! ## Boosted trees -/

/-- **C104 is false of gradient boosting.** All trees have the learning rate as their weight, and each predicts a number
for every case. growforest reports the error of their mean, the number `r` here, whether on test data (this theorem) or
out of bag (`c104_numbers`). The forest that it writes predicts the intercept plus `lr * m * r` for `m` trees. -/
theorem c104_boosted (nt : NumText K) (fm : FeatureMatrix K) (n : Nat) (trees : List (Tree K)) (lr c : K)
    (target : String) (value : Tree K → Nat → K) (hc : fm.allCases = some (List.range n)) (hlr : 0 < lr)
    (ht : ∀ t ∈ trees, t.weight = .fin lr ∧ Usable fm (List.range n) t.root ∧
      ∀ i < n, ∃ p, t.opinion fm i = some p ∧ nt.parse p.toList = some (.fin (value t i)))
    (hne : trees ≠ []) :
    ∃ bb bb', testVotes nt fm (oobBox 0 n) trees = some (.num bb) ∧
      applyForest nt ⟨false, true, false, false⟩ ⟨target, trees, .fin c⟩ fm = some (.sum bb') ∧
      ∀ i < n, ∃ r, bb.tallyNum i = some (.fin r) ∧
        (Box.sum bb').number id ⟨false, true, false, false⟩ (.fin c) i =
          some (.fin (c + lr * (trees.length : K) * r)) := by
  have hsay : ∀ t ∈ trees, t.say = lr := fun t h => by
    simp only [Tree.say, (ht t h).1, if_pos hlr.le]
  have hfit : (⟨target, trees, .fin c⟩ : Forest K).Fits fm := by
    intro t h
    refine ⟨⟨lr, (ht t h).1⟩, fun cases hcs => ?_⟩
    rw [hc] at hcs
    cases hcs
    exact (ht t h).2.1
  have hnums : ∀ i < n, numbersOf nt fm trees i = trees.map fun t => (value t i, lr) := by
    intro i hi
    unfold numbersOf
    rw [← List.filterMap_eq_map]
    apply List.filterMap_congr
    intro t h
    obtain ⟨p, h1, h2⟩ := (ht t h).2.2 i hi
    simp [h1, h2, hsay t h]
  have hfin : ∀ t ∈ trees, ∀ i < n, ∀ p x, t.opinion fm i = some p → nt.parse p.toList = some x → ∃ y, x = .fin y := by
    intro t h i hi p x hp hx
    obtain ⟨p', h1, h2⟩ := (ht t h).2.2 i hi
    rw [hp] at h1
    cases h1
    rw [hx] at h2
    exact ⟨_, Option.some.inj h2⟩
  obtain ⟨fv, h1, h2⟩ := forest_casts nt hc trees fun t h => ⟨⟨lr, (ht t h).1⟩, (ht t h).2.1⟩
  obtain ⟨bb, e, hb⟩ := c26_mean (fun s => nt.parse s.toList) (fun x => String.ofList (nt.fmt x)) n fv (by
    intro v hv
    obtain ⟨h3, t, h, h4, h5⟩ := mem_forestVotes (h1.mem_iff.1 hv)
    exact ⟨h3, by rw [h5, hsay t h]; exact hlr, fun x hx => .inr (hfin t h v.case h3 _ x h4 hx)⟩)
  obtain ⟨bb', e', hb'⟩ := c26_sum (fun s => nt.parse s.toList) n fv (by
    intro v hv
    obtain ⟨h3, t, h, h4, h5⟩ := mem_forestVotes (h1.mem_iff.1 hv)
    exact ⟨h3, fun x hx => hfin t h v.case h3 _ x h4 hx⟩)
  refine ⟨bb, bb', ?_, ?_, fun i hi => ?_⟩
  · have := h2 (.num (.new n))
    rw [oobBox, if_pos rfl, testVotes, this, Box.castVotes, e]
    rfl
  · obtain ⟨f, hf0, hlen⟩ : ∃ f, fm.data[0]? = some f ∧ f.length = n := by
      simp only [FeatureMatrix.allCases, Option.bind_eq_bind, Option.bind_eq_some_iff] at hc
      obtain ⟨f, h, hr⟩ := hc
      refine ⟨f, h, ?_⟩
      have := congrArg List.length (Option.some.inj hr)
      simpa using this
    have := h2 (.sum (.new n))
    unfold applyForest
    simp only [hf0, Option.bind_eq_bind, Option.bind_some, hlen]
    rw [(chooseBox_eq _ _ n).1 rfl]
    refine this.trans ?_
    rw [Box.castVotes, e']
    rfl
  · obtain ⟨e1, e2, e3⟩ := c26_order (fun s => nt.parse s.toList) _ _ h1 i
    rw [numVotes_forest nt fm n trees i hi, hnums i hi] at e1 e2 e3
    have hne' : numVotes (fun s => nt.parse s.toList) fv i ≠ [] := by
      intro h
      have := e3.1 h
      simp [hne] at this
    refine ⟨_, ((hb i hi).2 hne').1, ?_⟩
    have hm : (trees.length : K) ≠ 0 := by
      have := List.length_pos_of_ne_nil hne
      exact_mod_cast this.ne'
    have hS : weightedSum (trees.map fun t => (value t i, lr)) = lr * (trees.map fun t => value t i).sum := by
      clear * -
      induction trees with
      | nil => simp [weightedSum]
      | cons t ts ih =>
        simp only [weightedSum, List.map_cons, List.sum_cons] at ih ⊢
        rw [ih]
        ring
    have hT : totalWeight (trees.map fun t => (value t i, lr)) = (trees.length : K) * lr := by
      unfold totalWeight
      rw [List.map_map]
      simp [Function.comp_def]
    simp only [Box.number, hb' i hi, Option.bind_eq_bind, Option.bind_some, XF.fin_add, e1, e2, hS, hT,
      Bool.false_eq_true, if_false]
    congr 2
    have := hlr.ne'
    field_simp
    ring

/-- Five cases with the values 12, 12, 12, 7, 7; the first three are small. -/
def exOobFM : FeatureMatrix ℚ :=
  ⟨[.num ⟨[.fin 0, .fin 0, .fin 0, .fin 1, .fin 1], List.replicate 5 false, "N:x", false⟩,
    .num ⟨[.fin 12, .fin 12, .fin 12, .fin 7, .fin 7], List.replicate 5 false, "N:y", false⟩],
   fun s => if s = "N:x" then some 0 else if s = "N:y" then some 1 else none, ["a", "b", "c", "d", "e"]⟩

/-- The tree for the residuals after the mean, 10. -/
def exResidualTree : Tree ℚ :=
  ⟨.mk none 0 (leafTree "2" 1).root (leafTree "-3" 1).root .nil "" (some ⟨"N:x", true, .fin (1 / 2), []⟩), "", .fin 1⟩

example : exOobFM.allCases = some (List.range 5) ∧ exResidualTree.weight = .fin 1 ∧
    Usable exOobFM (List.range 5) exResidualTree.root ∧
    ∀ i < 5, ∃ p, exResidualTree.opinion exOobFM i = some p ∧
      exNums.parse p.toList = some (.fin (if i < 3 then 2 else -3)) := by
  refine ⟨by decide, rfl, ⟨⟨_, rfl, ?_, ?_⟩, ⟨rfl, rfl⟩, ⟨rfl, rfl⟩, .inl rfl⟩, ?_⟩
  · intro c hc
    simp only [Feature.isMissing, List.getElem?_replicate] at hc
    split at hc <;> cases hc
  · intro c hc
    simp only [List.mem_range] at hc
    exact ⟨hc, hc⟩
  · intro i hi
    have h : ∀ i < 5, (exResidualTree.opinion exOobFM i = some "2" ∧ i < 3) ∨
        (exResidualTree.opinion exOobFM i = some "-3" ∧ ¬ i < 3) := by decide +kernel
    rcases h i hi with ⟨h1, h2⟩ | ⟨h1, h2⟩
    · exact ⟨_, h1, by rw [if_pos h2]; decide +kernel⟩
    · exact ⟨_, h1, by rw [if_neg h2]; decide +kernel⟩

/-- **C104 is false of gradient boosting**, an instance: with the intercept 10 and learning rate one, one tree predicts
every case exactly, but the error reported is a hundred sixths. -/
theorem c104_boosted_witness :
    ((applyForest exNums ⟨false, true, false, false⟩ ⟨"N:y", [exResidualTree], .fin 10⟩ exOobFM).map fun bb =>
      (List.range 5).map fun i => bb.number id ⟨false, true, false, false⟩ (.fin 10) i) =
      some [some (.fin 12), some (.fin 12), some (.fin 12), some (.fin 7), some (.fin 7)] ∧
    (((exOobFM.data[1]?).bind fun y => (testVotes exNums exOobFM (oobBox 0 5) [exResidualTree]).bind fun bb =>
      bb.error (fun _ => none) y) = some (.fin (100 / 6))) := by decide +kernel

/-- **C104 is false of boosted classes**: the trees of `GradBoostClassTarget` predict numbers, their votes are counted
as votes for classes of those names, and so the out-of-bag error is one, whatever they have learnt. -/
theorem c104_class_boosted (nt : NumText K) (fm : FeatureMatrix K) (n : Nat) (runs : List (Tree K × List Nat))
    (hr : RunsFit fm n runs) (f : CatFeature) (hf : f.Known) (hn : f.catData.length = n) (hc : 0 < f.cm.nCats)
    (hall : ∀ k < f.cm.nCats, f.classCases k ≠ []) (hNA : "NA" ∉ f.cm.back)
    (hpred : ∀ r ∈ runs, ∀ i < n, ∀ p, r.1.opinion fm i = some p → p ∉ f.cm.back) :
    ∃ bb, oobVotes nt fm n (oobBox f.cm.nCats n) runs = some bb ∧
      ∀ tally, (∀ i < n, bb.Tallies nt i (tally i)) → bb.error tally (.cat f) = some (.fin 1) := by
  obtain ⟨bb, h1, h2⟩ := c104_classes nt fm n f.cm.nCats (by omega) runs hr
  refine ⟨bb, h1, fun tally ht => ?_⟩
  obtain ⟨fv, -, h3⟩ := oob_casts nt runs hr
  have hcat : ∃ b, bb = .cat b := by
    rw [h3, oobBox, if_neg (by omega), Box.castVotes] at h1
    obtain ⟨b, -, rfl⟩ := Option.map_eq_some_iff.1 h1
    exact ⟨b, rfl⟩
  have hout : ∀ i < n, ∃ p, tally i = some p ∧ p ∉ f.cm.back := by
    intro i hi
    obtain ⟨p, hp, hq⟩ := (h2 i hi).2 _ (ht i hi)
    refine ⟨p, hp, ?_⟩
    rcases hq with ⟨rfl, -⟩ | ⟨hpos, -⟩
    · exact hNA
    · by_contra hmem
      have : weightOf fm (treesWithout runs i) i p = 0 := by
        unfold weightOf
        rw [List.filter_eq_nil_iff.2]
        · rfl
        · intro t ht' ho
          obtain ⟨r, hr', rfl⟩ := List.mem_map.1 ht'
          exact hpred r (List.mem_filter.1 hr').1 i hi p (by simpa using ho) hmem
      rw [this] at hpos
      exact lt_irrefl _ hpos
  obtain ⟨b, rfl⟩ := hcat
  show catTallyError f tally = _
  rw [c28_error f hf hc hall tally (fun i hi => by
    obtain ⟨p, hp, -⟩ := hout i (by omega)
    rw [hp]; rfl)]
  have hw : ∀ k ∈ List.range f.cm.nCats, ((wrongCases f tally k).length : K) / ((f.classCases k).length : K) = 1 := by
    intro k hk
    have hk := List.mem_range.1 hk
    have : wrongCases f tally k = f.classCases k := by
      unfold wrongCases
      rw [List.filter_eq_self]
      intro i hi
      have hin : i < n := by
        have := (List.mem_filter.1 hi).1
        rw [← hn]
        exact List.mem_range.1 this
      obtain ⟨p, hp, hq⟩ := hout i hin
      simp only [hp, ne_eq, decide_eq_true_eq]
      intro e
      exact hq (List.mem_of_getElem? e.symm)
    rw [this, div_self]
    have := List.length_pos_of_ne_nil (hall k hk)
    exact_mod_cast this.ne'
  rw [List.map_congr_left hw]
  have hn0 : (f.cm.nCats : K) ≠ 0 := by exact_mod_cast hc.ne'
  simp [hn0]

example : "NA" ∉ exTarget.cm.back ∧ exTarget.catData.length = 5 ∧
    (∀ k < exTarget.cm.nCats, exTarget.classCases k ≠ []) ∧
    ∀ i < 5, (leafTree "0.5" 1).opinion exFM i = some "0.5" ∧ "0.5" ∉ exTarget.cm.back := by decide +kernel

end CloudForest
