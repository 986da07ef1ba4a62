import Verif.Lemmas.RoundedVotes
import Verif.Props.Ballot

/-!
# C136: averages of votes in floating point
-/

set_option linter.unusedSectionVars false

namespace CloudForest
variable {K : Type} [Field K] [LinearOrder K] [IsStrictOrderedRing K]

/-- What the rounded ballot box holds. -/
structure NumBoxInvR (r : K → XF K) (parse : String → Option (XF K)) (size : Nat) (votes : List (FVote K))
    (bb : NumBox K) : Prop where
  len : bb.length = size
  vals : ∀ i < size, bb[i]? = some (meanFold r ((numVotes parse votes i).map (·.1)))

theorem numBox_voteR {r : K → XF K} {parse : String → Option (XF K)} {size : Nat} {votes : List (FVote K)} {bb : NumBox K}
    (h : NumBoxInvR r parse size votes bb) (v : FVote K) (hc : v.case < size) (hw : v.weight = 1)
    (hp : ∀ x, parse v.pred = some x → x = .nan ∨ ∃ y, x = .fin y) :
    ∃ bb', NumBox.voteR r parse bb v.case v.pred (.fin v.weight) = some bb' ∧
      NumBoxInvR r parse size (votes ++ [v]) bb' := by
  unfold NumBox.voteR
  cases hx : parse v.pred with
  | none =>
    refine ⟨bb, rfl, h.len, fun i hi => ?_⟩
    rw [numVotes_append, h.vals i hi]
    simp [numVotes, hx]
  | some x =>
    simp only [h.vals v.case hc, Option.bind_eq_bind, Option.bind_some]
    refine ⟨_, rfl, by rw [List.length_set]; exact h.len, fun i hi => ?_⟩
    rw [List.getElem?_set, numVotes_append]
    rcases hp x hx with rfl | ⟨y, rfl⟩
    · by_cases hi' : v.case = i
      · subst hi'
        rw [if_pos rfl, if_pos (by rw [h.len]; exact hc)]
        simp [numVotes, hx, RunningMean.weightedAddR, XF.isNaN]
      · rw [if_neg hi', h.vals i hi]
        simp [numVotes, hi']
    · by_cases hi' : v.case = i
      · subst hi'
        rw [if_pos rfl, if_pos (by rw [h.len]; exact hc), hw]
        simp [numVotes, hx, meanFold_append]
      · rw [if_neg hi', h.vals i hi]
        simp [numVotes, hi']

/-- **C136.** Up to 2⁴⁰ votes of weight one for a case, all of them doubles of at most `V` in size: the tally in double
precision differs from the mean of the votes by at most (n + 1)·V/2⁵². (`V` is between 2⁻⁹⁰⁰ and 2⁹⁰⁰.) Missing from the
full property: trees that agree, see `c136_agree`. -/
theorem c136_mean_partial (parse : String → Option (XF ℚ)) (size : Nat) (votes : List (FVote ℚ)) {V : ℚ}
    (hV : 1 / 2 ^ 900 ≤ V) (hV' : V ≤ 2 ^ 900)
    (h : ∀ v ∈ votes, v.case < size ∧ v.weight = 1 ∧
      ∀ x, parse v.pred = some x → x = .nan ∨ ∃ y, x = .fin y ∧ Rep64 y ∧ |y| ≤ V) :
    ∃ bb, castAll (NumBox.voteR F64.round parse) (NumBox.new size) (votes.map FVote.ballot) = some bb ∧
      ∀ i < size, numVotes parse votes i ≠ [] → (numVotes parse votes i).length ≤ 2 ^ 40 →
        ∃ m, bb.tallyNum i = some (.fin m) ∧
          |m - ((numVotes parse votes i).map (·.1)).sum / (numVotes parse votes i).length| ≤
            ((numVotes parse votes i).length + 1) * V / 2 ^ 52 := by
  obtain ⟨bb, e, hb⟩ := castAll_inv (NumBox.voteR F64.round parse) (NumBoxInvR F64.round parse size)
    (fun v => v.case < size ∧ v.weight = 1 ∧ ∀ x, parse v.pred = some x → x = .nan ∨ ∃ y, x = .fin y) (NumBox.new size)
    ⟨by simp [NumBox.new], fun i hi => by simp [NumBox.new, hi, numVotes, meanFold]⟩
    (fun _ _ v hb hv => numBox_voteR hb v hv.1 hv.2.1 hv.2.2) votes
    (fun v hv => ⟨(h v hv).1, (h v hv).2.1, fun x hx => ((h v hv).2.2 x hx).imp_right fun ⟨y, e, _⟩ => ⟨y, e⟩⟩)
  refine ⟨bb, e, fun i hi hne hlen => ?_⟩
  have hys : ∀ y ∈ (numVotes parse votes i).map (·.1), Rep64 y ∧ |y| ≤ V := by
    intro y hy
    obtain ⟨⟨y', w⟩, hm, rfl⟩ := List.mem_map.1 hy
    obtain ⟨v, hv, he⟩ := List.mem_filterMap.1 hm
    split_ifs at he with hc
    cases hx : parse v.pred with
    | none => rw [hx] at he; cases he
    | some x =>
      rw [hx] at he
      rcases (h v hv).2.2 x hx with rfl | ⟨y, rfl, hy2⟩
      · cases he
      · cases he
        exact hy2
  obtain ⟨M, h1, h2⟩ := meanFold_err hV hV' ((numVotes parse votes i).map (·.1)) (by rw [List.length_map]; exact hlen) hys
  rw [List.length_map] at h1 h2
  refine ⟨M, by simp [NumBox.tallyNum, hb.vals i hi, h1], ?_⟩
  obtain ⟨n, hn⟩ : ∃ n, n = (numVotes parse votes i).length := ⟨_, rfl⟩
  rw [← hn] at h2 ⊢
  have hn0 : (0 : ℚ) < n := by
    have : 0 < n := by rw [hn]; exact List.length_pos_of_ne_nil hne
    exact_mod_cast this
  clear hV hV'
  have e1 : M - ((numVotes parse votes i).map (·.1)).sum / n = (n * M - ((numVotes parse votes i).map (·.1)).sum) / n := by
    field_simp
  rw [e1, abs_div, abs_of_pos hn0, div_le_iff₀ hn0]
  refine h2.trans (le_of_eq ?_)
  unfold ulp64
  rw [show (2 : ℚ) ^ 53 = 2 * 2 ^ 52 by norm_num]
  field_simp

/-- **C136, order.** Votes for a case in another order give nearly the same tally. -/
theorem c136_order (parse : String → Option (XF ℚ)) (size : Nat) (votes votes' : List (FVote ℚ)) {V : ℚ}
    (hp : votes'.Perm votes) (hV : 1 / 2 ^ 900 ≤ V) (hV' : V ≤ 2 ^ 900)
    (h : ∀ v ∈ votes, v.case < size ∧ v.weight = 1 ∧
      ∀ x, parse v.pred = some x → x = .nan ∨ ∃ y, x = .fin y ∧ Rep64 y ∧ |y| ≤ V) :
    ∃ bb bb', castAll (NumBox.voteR F64.round parse) (NumBox.new size) (votes.map FVote.ballot) = some bb ∧
      castAll (NumBox.voteR F64.round parse) (NumBox.new size) (votes'.map FVote.ballot) = some bb' ∧
      ∀ i < size, numVotes parse votes i ≠ [] → (numVotes parse votes i).length ≤ 2 ^ 40 →
        ∃ m m', bb.tallyNum i = some (.fin m) ∧ bb'.tallyNum i = some (.fin m') ∧
          |m - m'| ≤ ((numVotes parse votes i).length + 1) * V / 2 ^ 51 := by
  obtain ⟨bb, e, hb⟩ := c136_mean_partial parse size votes hV hV' h
  obtain ⟨bb', e', hb'⟩ := c136_mean_partial parse size votes' hV hV' fun v hv => h v (hp.mem_iff.1 hv)
  refine ⟨bb, bb', e, e', fun i hi hne hlen => ?_⟩
  have hperm : (numVotes parse votes' i).Perm (numVotes parse votes i) := hp.filterMap _
  obtain ⟨m, h1, h2⟩ := hb i hi hne hlen
  obtain ⟨m', h3, h4⟩ := hb' i hi (fun h => hne (by rw [h] at hperm; exact hperm.symm.eq_nil))
    (by rw [hperm.length_eq]; exact hlen)
  rw [hperm.length_eq, (hperm.map _).sum_eq] at h4
  refine ⟨m, m', h1, h3, ?_⟩
  clear hV hV'
  have e3 : ((numVotes parse votes i).length + 1 : ℚ) * V / 2 ^ 51 =
      ((numVotes parse votes i).length + 1) * V / 2 ^ 52 + ((numVotes parse votes i).length + 1) * V / 2 ^ 52 := by
    rw [show (2 : ℚ) ^ 52 = 2 ^ 51 * 2 by norm_num]
    field_simp
    norm_num
  rw [e3]
  have := abs_sub_le m (((numVotes parse votes i).map (·.1)).sum / (numVotes parse votes i).length) m'
  rw [abs_sub_comm (_ / _) m'] at this
  linarith

/-- The doubles nearest to 0.1, 0.2 and 0.3. -/
def exTenths : String → Option (XF ℚ)
  | "0.1" => some (.fin (3602879701896397 / 2 ^ 55))
  | "0.2" => some (.fin (3602879701896397 / 2 ^ 54))
  | "0.3" => some (.fin (5404319552844595 / 2 ^ 54))
  | _ => none

example : F64.round (1 / 10) = .fin (3602879701896397 / 2 ^ 55) ∧ F64.round (2 / 10) = .fin (3602879701896397 / 2 ^ 54) ∧
    F64.round (3 / 10) = .fin (5404319552844595 / 2 ^ 54) := by
  decide +kernel

/-- **C136 is false of the code.** Three trees that predict 0.1 together predict 0.10000000000000002, more than any of
them. -/
theorem c136_agree : (castAll (NumBox.voteR F64.round exTenths) (NumBox.new 1)
      [⟨0, "0.1", .fin 1⟩, ⟨0, "0.1", .fin 1⟩, ⟨0, "0.1", .fin 1⟩]).bind (fun bb => bb.tallyNum 0) =
      some (F64.round (1000000000000000200 / 10000000000000000000)) ∧
    (exTenths "0.1").map (fun x => decide (x < F64.round (1000000000000000200 / 10000000000000000000))) = some true := by
  decide +kernel

/-- **C136.** The order of the votes, which with several workers is up to the scheduler, may show in the last digits: 0.1,
0.2 and 0.3 give 0.20000000000000004 in this order and 0.19999999999999998 in the other. -/
theorem c136_schedule : (castAll (NumBox.voteR F64.round exTenths) (NumBox.new 1)
      [⟨0, "0.1", .fin 1⟩, ⟨0, "0.2", .fin 1⟩, ⟨0, "0.3", .fin 1⟩]).bind (fun bb => bb.tallyNum 0) =
      some (F64.round (20000000000000004 / 100000000000000000)) ∧
    (castAll (NumBox.voteR F64.round exTenths) (NumBox.new 1)
      [⟨0, "0.3", .fin 1⟩, ⟨0, "0.2", .fin 1⟩, ⟨0, "0.1", .fin 1⟩]).bind (fun bb => bb.tallyNum 0) =
      some (F64.round (19999999999999998 / 100000000000000000)) ∧
    F64.round (20000000000000004 / 100000000000000000) ≠ F64.round (19999999999999998 / 100000000000000000) := by
  decide +kernel

theorem exTenths_rep (p : String) (x : XF ℚ) (h : exTenths p = some x) : x = .nan ∨ ∃ y, x = .fin y ∧ Rep64 y ∧ |y| ≤ 1 := by
  right
  unfold exTenths at h
  split at h
  · cases h
    exact ⟨_, rfl, rep64_frac (m := 3602879701896397) (k := 55) (by norm_num) (by omega), by norm_num [abs_le]⟩
  · cases h
    exact ⟨_, rfl, rep64_frac (m := 3602879701896397) (k := 54) (by norm_num) (by omega), by norm_num [abs_le]⟩
  · cases h
    exact ⟨_, rfl, rep64_frac (m := 5404319552844595) (k := 54) (by norm_num) (by omega), by norm_num [abs_le]⟩
  · cases h

/-- Three votes for one case and two for another meet the hypotheses. -/
example : ∃ bb bb', castAll (NumBox.voteR F64.round exTenths) (NumBox.new 2)
      ([⟨0, "0.1", 1⟩, ⟨1, "0.2", 1⟩, ⟨0, "0.3", 1⟩, ⟨1, "x", 1⟩, ⟨0, "0.2", 1⟩].map FVote.ballot) = some bb ∧
    castAll (NumBox.voteR F64.round exTenths) (NumBox.new 2)
      ([⟨0, "0.2", 1⟩, ⟨1, "x", 1⟩, ⟨0, "0.3", 1⟩, ⟨1, "0.2", 1⟩, ⟨0, "0.1", 1⟩].map FVote.ballot) = some bb' ∧
    ∃ m m', bb.tallyNum 0 = some (.fin m) ∧ bb'.tallyNum 0 = some (.fin m') ∧ |m - m'| ≤ (3 + 1) * 1 / 2 ^ 51 := by
  obtain ⟨bb, bb', h1, h2, h3⟩ := c136_order exTenths 2
    [⟨0, "0.1", 1⟩, ⟨1, "0.2", 1⟩, ⟨0, "0.3", 1⟩, ⟨1, "x", 1⟩, ⟨0, "0.2", 1⟩]
    [⟨0, "0.2", 1⟩, ⟨1, "x", 1⟩, ⟨0, "0.3", 1⟩, ⟨1, "0.2", 1⟩, ⟨0, "0.1", 1⟩] (V := 1) (List.reverse_perm [_, _, _, _, _])
    (by rw [div_le_one (pow_pos (by norm_num) _)]; exact one_le_pow₀ (by norm_num)) (one_le_pow₀ (by norm_num))
    (fun v hv => ⟨by fin_cases hv <;> decide, by fin_cases hv <;> rfl, exTenths_rep v.pred⟩)
  obtain ⟨m, m', h4, h5, h6⟩ := h3 0 (by decide) (by decide +kernel) (by decide +kernel)
  refine ⟨bb, bb', h1, h2, m, m', h4, h5, ?_⟩
  have : (numVotes exTenths
    [⟨0, "0.1", 1⟩, ⟨1, "0.2", 1⟩, ⟨0, "0.3", 1⟩, ⟨1, "x", 1⟩, ⟨0, "0.2", 1⟩] 0).length = 3 := by decide +kernel
  rw [this] at h6
  exact_mod_cast h6

end CloudForest
