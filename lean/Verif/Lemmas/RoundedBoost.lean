import Verif.Model.RoundedBoost
import Verif.Lemmas.RoundedVotes
import Verif.Props.Boost

/-! # Lemmas on gradient boosting in floating point -/

set_option linter.unusedSectionVars false

namespace CloudForest
variable {K : Type} [Field K] [LinearOrder K] [IsStrictOrderedRing K]

/-! ## Case by case -/

/-- Ballots that each change the entry of their case. -/
theorem foldlM_cases (h : Ballot K → XF K → XF K) : ∀ (bs : List (Ballot K)) (xs : List (XF K)),
    (∀ b ∈ bs, b.case < xs.length) →
    ∃ xs', bs.foldlM (fun (xs : List (XF K)) b => (xs[b.case]?).bind fun x => some (xs.set b.case (h b x))) xs = some xs' ∧
      xs'.length = xs.length ∧
      ∀ i : Nat, xs'[i]? = xs[i]?.map fun x => (bs.filter fun b => b.case == i).foldl (fun x b => h b x) x := by
  intro bs
  induction bs with
  | nil => intro xs _; exact ⟨xs, rfl, rfl, fun i => by cases xs[i]? <;> rfl⟩
  | cons b bs ih =>
    intro xs hb
    have hlt := hb b (by simp)
    obtain ⟨xs', e, hl, hi⟩ := ih (xs.set b.case (h b xs[b.case])) fun d hd => by
      rw [List.length_set]; exact hb d (List.mem_cons_of_mem _ hd)
    refine ⟨xs', ?_, by rw [hl, List.length_set], fun i => ?_⟩
    · rw [List.foldlM_cons, List.getElem?_eq_getElem hlt]
      exact e
    · rw [hi, List.getElem?_set]
      by_cases hbi : b.case = i
      · subst hbi
        rw [if_pos rfl, if_pos hlt, List.getElem?_eq_getElem hlt, List.filter_cons]
        simp
      · rw [if_neg hbi, List.filter_cons, if_neg (by simpa using hbi)]

/-- One step of boosting for one case. -/
def resStep (r : K → XF K) (parse : String → Option (XF K)) (lr : XF K) (p : String) (x : XF K) : XF K :=
  XF.rounded r (x - XF.rounded r (lr * (parse p).getD (.fin 0)))

/-- One vote for one case. -/
def sumStep (r : K → XF K) (parse : String → Option (XF K)) (w : XF K) (p : String) (s : XF K) : XF K :=
  match parse p with
  | none => s
  | some v => XF.rounded r (s + XF.rounded r (v * w))

theorem updateR_step (r : K → XF K) (f : NumFeature K) (lr mean p : XF K) : ∀ (cases : List Nat) (xs : List (XF K)),
    (∀ c ∈ cases, c < xs.length) →
    GradBoost.updateR r ⟨{ f with numData := xs, missing := List.replicate xs.length false }, lr, mean⟩ cases p =
      (cases.foldlM (fun (xs : List (XF K)) c => (xs[c]?).bind fun x => some (xs.set c (XF.rounded r (x - XF.rounded r (lr * p))))) xs).map
        fun (xs : List (XF K)) => ⟨{ f with numData := xs, missing := List.replicate xs.length false }, lr, mean⟩ := by
  intro cases
  unfold GradBoost.updateR
  induction cases with
  | nil => exact fun xs _ => rfl
  | cons c cs ih =>
    intro xs h
    have hc := h c (by simp)
    have h1 : (List.replicate xs.length false)[c]? = some false := by simp [hc]
    have hset : (List.replicate xs.length false).set c false = List.replicate xs.length false := by
      apply List.ext_getElem?
      intro j
      rw [List.getElem?_set]
      by_cases hij : c = j
      · subst hij; simp [hc]
      · rw [if_neg hij]
    rw [List.foldlM_cons, List.foldlM_cons]
    simp only [h1, List.getElem?_eq_getElem hc, Option.bind_eq_bind, Option.bind_some, Bool.false_eq_true, if_false]
    unfold NumFeature.put wr
    simp only [List.length_replicate, if_pos hc, Option.bind_eq_bind, Option.bind_some, hset]
    have := ih (xs.set c (XF.rounded r (xs[c] - XF.rounded r (lr * p)))) fun d hd => by
      rw [List.length_set]; exact h d (List.mem_cons_of_mem _ hd)
    rw [List.length_set] at this
    exact this

/-- Boosting by a partition, as one step for each ballot. -/
theorem boostR_ballots (r : K → XF K) (parse : String → Option (XF K)) (f : NumFeature K) (lr mean w : XF K)
    (groups : List (List Nat)) (preds : List String) (hl : groups.length = preds.length) (xs : List (XF K))
    (hg : ∀ g ∈ groups.zip preds, ∀ c ∈ g.1, c < xs.length) :
    ∃ xs', GradBoost.boostR r parse ⟨{ f with numData := xs, missing := List.replicate xs.length false }, lr, mean⟩ groups preds =
        some (⟨{ f with numData := xs', missing := List.replicate xs'.length false }, lr, mean⟩, lr) ∧
      xs'.length = xs.length ∧
      ∀ i : Nat, xs'[i]? = xs[i]?.map fun x =>
        ((((groups.zip preds).flatMap fun g => g.1.map fun c => (⟨c, g.2, w⟩ : Ballot K))).filter fun b => b.case == i).foldl
          (fun x b => resStep r parse lr b.pred x) x := by
  have key : ∀ (gs : List (List Nat × String)) (xs : List (XF K)), (∀ g ∈ gs, ∀ c ∈ g.1, c < xs.length) →
      gs.foldlM (fun (g : GradBoost K) cp => g.updateR r cp.1 ((parse cp.2).getD (.fin 0)))
        ⟨{ f with numData := xs, missing := List.replicate xs.length false }, lr, mean⟩ =
      ((gs.flatMap fun g => g.1.map fun c => (⟨c, g.2, w⟩ : Ballot K)).foldlM (fun (xs : List (XF K)) b =>
        (xs[b.case]?).bind fun x => some (xs.set b.case (resStep r parse lr b.pred x))) xs).map
        fun (xs : List (XF K)) => ⟨{ f with numData := xs, missing := List.replicate xs.length false }, lr, mean⟩ := by
    intro gs
    induction gs with
    | nil => exact fun xs _ => rfl
    | cons g gs ih =>
      intro xs h
      rw [List.foldlM_cons, updateR_step r f lr mean _ g.1 xs (h g (by simp)), List.flatMap_cons, List.foldlM_append,
        List.foldlM_map]
      obtain ⟨xs', e, hl, -⟩ := foldlM_cases (fun b x => resStep r parse lr b.pred x)
        (g.1.map fun c => (⟨c, g.2, w⟩ : Ballot K)) xs (by
          intro b hb
          obtain ⟨c, hc, rfl⟩ := List.mem_map.1 hb
          exact h g (by simp) c hc)
      rw [List.foldlM_map] at e
      simp only [Option.bind_eq_bind] at e ⊢
      unfold resStep at e
      rw [e]
      simp only [Option.map_some, Option.bind_some]
      unfold resStep
      rw [e]
      exact ih xs' fun g' hg' c hc => by rw [hl]; exact h g' (List.mem_cons_of_mem _ hg') c hc
  obtain ⟨xs', e, hlen, hi⟩ := foldlM_cases (fun b x => resStep r parse lr b.pred x)
    ((groups.zip preds).flatMap fun g => g.1.map fun c => (⟨c, g.2, w⟩ : Ballot K)) xs (by
      intro b hb
      obtain ⟨g, hg', hb⟩ := List.mem_flatMap.1 hb
      obtain ⟨c, hc, rfl⟩ := List.mem_map.1 hb
      exact hg g hg' c hc)
  refine ⟨xs', ?_, hlen, hi⟩
  unfold GradBoost.boostR
  rw [foldlM_zipIdx (fun (g : GradBoost K) cp => g.updateR r cp.1 ((parse cp.2).getD (.fin 0))) groups preds hl,
    key _ xs hg, e]
  rfl

theorem castAllR_each (r : K → XF K) (parse : String → Option (XF K)) (bs : List (Ballot K)) (xs : SumBox K)
    (h : ∀ b ∈ bs, b.case < xs.length) :
    ∃ xs' : SumBox K, castAll (SumBox.voteR r parse) xs bs = some xs' ∧ xs'.length = xs.length ∧
      ∀ i : Nat, xs'[i]? = xs[i]?.map fun s => (bs.filter fun b => b.case == i).foldl
        (fun s b => sumStep r parse b.weight b.pred s) s := by
  obtain ⟨xs', e, h1, h2⟩ := foldlM_cases (fun b s => sumStep r parse b.weight b.pred s) bs xs h
  refine ⟨xs', ?_, h1, h2⟩
  rw [← e]
  unfold castAll
  clear e h1 h2
  induction bs generalizing xs with
  | nil => rfl
  | cons b bs ih =>
    have hb := h b (by simp)
    rw [List.foldlM_cons, List.foldlM_cons]
    have hstep : SumBox.voteR r parse xs b.case b.pred b.weight =
        (xs[b.case]?).bind fun x => some (xs.set b.case (sumStep r parse b.weight b.pred x)) := by
      unfold SumBox.voteR sumStep
      rw [List.getElem?_eq_getElem hb]
      cases parse b.pred with
      | none =>
        simp only [Option.bind_some]
        rw [List.set_getElem_self]
      | some v => rfl
    rw [hstep, List.getElem?_eq_getElem hb]
    simp only [Option.bind_eq_bind, Option.bind_some]
    have := ih (xs.set b.case (sumStep r parse b.weight b.pred xs[b.case])) fun d hd => by
      rw [List.length_set]; exact h d (List.mem_cons_of_mem _ hd)
    exact this

/-- What a tree's partition and its votes say about each case. -/
theorem tree_ballots (fm : FeatureMatrix K) (n : Nat) (t : Tree K) (hc : fm.allCases = some (List.range n))
    (hu : Usable fm (List.range n) t.root) :
    ∃ groups preds votes, t.partition fm = some (groups, preds) ∧ t.vote fm = some votes ∧
      votes = ((groups.zip preds).flatMap fun g => g.1.map fun c => ⟨c, g.2, t.voteWeight⟩) ∧
      groups.length = preds.length ∧ (∀ g ∈ groups.zip preds, ∀ c ∈ g.1, c < n) ∧
      ∀ i < n, votes.filter (fun b => b.case == i) =
        ((landing fm t.root i).map fun x => (⟨i, x.2, t.voteWeight⟩ : Ballot K)).toList := by
  obtain ⟨groups, preds, votes, h1, h2, h3⟩ := c07_votes t fm _ hc hu
  obtain ⟨groups', preds', _, paths, h1', -, h4, h5, -, h6, -⟩ := c07_partition t fm _ hc hu
  rw [h1] at h1'
  cases h1'
  refine ⟨groups, preds, votes, h1, h2, h3, h4, ?_, ?_⟩
  · intro g hg
    obtain ⟨k, hk, rfl⟩ := List.getElem_of_mem hg
    have hk1 : k < groups.length := by simp at hk; omega
    have hk2 : k < preds.length := by omega
    obtain ⟨h7, h8⟩ := h6 k hk1 hk2 (by omega)
    rw [List.getElem_zip]
    intro c hcm
    exact List.mem_range.1 (List.mem_filter.1 (h7.subset hcm)).1
  · intro i hi
    obtain ⟨votes', o, e1, e2⟩ := c06_independent t fm _ hu i
    have hv : t.vote fm = some votes' := by
      simp only [Tree.vote, hc, e1, Option.bind_eq_bind, Option.bind_some]
    rw [h2] at hv
    cases hv
    rw [e2]
    cases landing fm t.root i with
    | none => rfl
    | some x =>
      have : (List.range n).count i = 1 := List.count_eq_one_of_mem List.nodup_range (List.mem_range.2 hi)
      simp [this]

/-- The predictions of some trees for a case, in order. -/
def predsFor (fm : FeatureMatrix K) (trees : List (Tree K)) (i : Nat) : List String :=
  trees.flatMap fun t => ((landing fm t.root i).map (·.2)).toList

/-- All rounds, case by case. -/
theorem roundsR_each (r : K → XF K) (parse : String → Option (XF K)) (fm : FeatureMatrix K) (ti n : Nat) (f : NumFeature K)
    (lr mean : XF K) (hti : fm.data[ti]? = some (.num f)) (hc : fm.allCases = some (List.range n))
    (hf : (Feature.num f).length = n) : ∀ (trees : List (Tree K)) (xs : List (XF K)), xs.length = n →
    (∀ t ∈ trees, Usable fm (List.range n) t.root ∧ t.root.Avoids fm ti) →
    ∃ fm' xs', GradBoost.roundsR r parse ti
        ({ fm with data := fm.data.set ti (.num { f with numData := xs, missing := List.replicate xs.length false }) },
          ⟨{ f with numData := xs, missing := List.replicate xs.length false }, lr, mean⟩) trees =
        some ((fm', ⟨{ f with numData := xs', missing := List.replicate xs'.length false }, lr, mean⟩),
          trees.map fun t => { t with weight := lr }) ∧
      xs'.length = n ∧ ∀ i < n, xs'[i]? = xs[i]?.map fun x =>
        (predsFor fm trees i).foldl (fun x p => resStep r parse lr p x) x := by
  intro trees
  induction trees with
  | nil =>
    intro xs hx _
    refine ⟨_, xs, rfl, hx, fun i _ => ?_⟩
    cases xs[i]? <;> rfl
  | cons t ts ih =>
    intro xs hx ht
    obtain ⟨hu, ha⟩ := ht t (by simp)
    obtain ⟨groups, preds, votes, h1, -, h3, h4, h5, h6⟩ := tree_ballots fm n t hc hu
    have hw : (Feature.num { f with numData := xs, missing := List.replicate xs.length false }).length =
        (Feature.num f).length := by
      rw [hf]; simp [Feature.length, hx]
    have hpart : t.partition ({ fm with data := fm.data.set ti (.num { f with numData := xs, missing := List.replicate xs.length false }) } :
          FeatureMatrix K) = some (groups, preds) := by
      rw [← h1]
      unfold Tree.partition
      rw [allCases_set fm ti _ _ hti hw]
      simp only [recurse_avoids fm ti _ _ ha]
    obtain ⟨xs1, e1, hl1, hi1⟩ := boostR_ballots r parse f lr mean t.voteWeight groups preds h4 xs
      (fun g hg c hcc => by rw [hx]; exact h5 g hg c hcc)
    rw [← h3] at hi1
    obtain ⟨fm', xs', e2, hl2, hi2⟩ := ih xs1 (hl1.trans hx) fun x hx => ht x (by simp [hx])
    refine ⟨fm', xs', ?_, hl2, fun i hi => ?_⟩
    · rw [GradBoost.roundsR, GradBoost.roundR, hpart]
      simp only [Option.bind_eq_bind, Option.bind_some]
      rw [e1]
      simp only [Option.bind_some, List.set_set]
      rw [e2]
      rfl
    · rw [hi2 i hi, hi1 i, h6 i hi]
      unfold predsFor
      simp only [List.flatMap_cons, List.foldl_append, Option.map_map]
      cases landing fm t.root i <;> rfl

/-- The sums of votes, case by case. -/
theorem applySumR_each (r : K → XF K) (parse : String → Option (XF K)) (fm : FeatureMatrix K) (n : Nat) (lr mean : XF K)
    (hlr : (.fin 0 : XF K) ≤ lr) (hc : fm.allCases = some (List.range n)) (trees : List (Tree K))
    (ht : ∀ t ∈ trees, Usable fm (List.range n) t.root) :
    ∃ preds, applySumR r parse mean (trees.map fun t => ({ t with weight := lr } : Tree K)) fm = some preds ∧
      preds.length = n ∧ ∀ i < n, preds[i]? = some (XF.rounded r
        ((predsFor fm trees i).foldl (fun s p => sumStep r parse lr p s) (.fin 0) + mean)) := by
  have key : ∀ (ts : List (Tree K)) (xs : SumBox K), xs.length = n → (∀ t ∈ ts, Usable fm (List.range n) t.root) →
      ∃ xs' : SumBox K, (ts.map fun t => ({ t with weight := lr } : Tree K)).foldlM (fun (bb : SumBox K) t =>
        (t.vote fm).bind fun votes => castAll (SumBox.voteR r parse) bb votes) xs = some xs' ∧ xs'.length = n ∧
        ∀ i < n, xs'[i]? = xs[i]?.map fun s => (predsFor fm ts i).foldl (fun s p => sumStep r parse lr p s) s := by
    intro ts
    induction ts with
    | nil =>
      intro xs hx _
      refine ⟨xs, rfl, hx, fun i _ => ?_⟩
      cases xs[i]? <;> rfl
    | cons t ts ih =>
      intro xs hx hts
      obtain ⟨groups, preds, votes, -, h2, h3, -, h5, h6⟩ := tree_ballots fm n { t with weight := lr } hc (hts t (by simp))
      have hwt : Tree.voteWeight { t with weight := lr } = lr := by
        unfold Tree.voteWeight
        rw [if_pos hlr]
      obtain ⟨xs1, e1, hl1, hi1⟩ := castAllR_each r parse votes xs (by
        intro b hb
        rw [h3] at hb
        obtain ⟨g, hg, hb⟩ := List.mem_flatMap.1 hb
        obtain ⟨c, hcc, rfl⟩ := List.mem_map.1 hb
        rw [hx]
        exact h5 g hg c hcc)
      obtain ⟨xs', e2, hl2, hi2⟩ := ih xs1 (hl1.trans hx) fun x hx => hts x (by simp [hx])
      refine ⟨xs', ?_, hl2, fun i hi => ?_⟩
      · rw [List.map_cons, List.foldlM_cons, h2]
        simp only [Option.bind_eq_bind, Option.bind_some]
        rw [e1]
        exact e2
      · rw [hi2 i hi, hi1 i, h6 i hi, hwt]
        unfold predsFor
        simp only [List.flatMap_cons, List.foldl_append, Option.map_map]
        cases landing fm t.root i <;> rfl
  have hlen0 : ∃ F, fm.data[0]? = some F ∧ F.length = n := by
    simp only [FeatureMatrix.allCases, Option.bind_eq_bind, Option.bind_eq_some_iff, Option.some.injEq] at hc
    obtain ⟨F, h1, h2⟩ := hc
    exact ⟨F, h1, by simpa using congrArg List.length h2⟩
  obtain ⟨F, hF, hFl⟩ := hlen0
  obtain ⟨xs', e, hl, hi⟩ := key trees (SumBox.new n) (by simp [SumBox.new]) ht
  refine ⟨xs'.map fun s => XF.rounded r (s + mean), ?_, by rw [List.length_map, hl], fun i hi' => ?_⟩
  · unfold applySumR
    rw [hF]
    simp only [Option.bind_eq_bind, Option.bind_some, hFl]
    rw [e]
    rfl
  · rw [List.getElem?_map, hi i hi']
    have : (SumBox.new n : SumBox K)[i]? = some (.fin 0) := by simp [SumBox.new, hi']
    rw [this]
    rfl

/-! ## Sums in floating point -/

/-- Adding some numbers one after the other. -/
theorem sum_fold_err {M B x0 : ℚ} (hM0 : 0 < M) (htM : tiny64 ≤ ulp64 * M / 1000)
    (round_big : ∀ x : ℚ, |x| ≤ 2 * M → ∃ y, F64.round x = .fin y ∧ |y - x| ≤ ulp64 * |x| + tiny64)
    (qs : List ℚ) (hn : qs.length ≤ 2 ^ 40) (hq : ∀ q ∈ qs, |q| ≤ B) (hM : |x0| + qs.length * B ≤ M) :
    ∃ x, qs.foldl (fun x q => XF.rounded F64.round (x + .fin q)) (.fin x0) = .fin x ∧
      |x - (x0 + qs.sum)| ≤ 3 / 2 * qs.length * (ulp64 * M) := by
  induction qs using List.reverseRecOn with
  | nil => exact ⟨x0, rfl, by simp⟩
  | append_singleton qs q ih =>
    rw [List.length_append, List.length_singleton] at hn hM
    have hqB := hq q (by simp)
    have hB : 0 ≤ B := (abs_nonneg q).trans hqB
    push_cast at hM
    obtain ⟨x, h1, h2⟩ := ih (by omega) (fun z hz => hq z (by simp [hz])) (by nlinarith)
    obtain ⟨n, hn'⟩ : ∃ n, n = qs.length := ⟨_, rfl⟩
    rw [← hn'] at hn hM h2
    have hN : (n : ℚ) ≤ 2 ^ 40 := by
      have : n ≤ 2 ^ 40 := by omega
      exact_mod_cast this
    have hu := ulp64_pos
    have hsum : |qs.sum| ≤ n * B := by
      rw [hn']
      clear h1 h2 ih hn hN hn' hM
      induction qs with
      | nil => simp
      | cons a l ih =>
        have h1 := hq a (by simp)
        have h2 := ih fun z hz => hq z (by simp only [List.cons_append, List.mem_cons]; exact .inr hz)
        rw [List.sum_cons, List.length_cons]
        push_cast
        have := abs_add_le a l.sum
        linarith
    have herr : 3 / 2 * n * (ulp64 * M) ≤ M / 1000 := by
      have e : 3 / 2 * 2 ^ 40 * ulp64 ≤ 1 / 1000 := by unfold ulp64; norm_num
      have : 3 / 2 * (n : ℚ) * ulp64 ≤ 1 / 1000 := by nlinarith
      have := mul_le_mul_of_nonneg_right this hM0.le
      linarith
    have hxq : |x + q| ≤ M * (1 + 1 / 1000) := by
      have e : x + q = (x - (x0 + qs.sum)) + (x0 + (qs.sum + q)) := by ring
      have l1 := abs_add_le (x - (x0 + qs.sum)) (x0 + (qs.sum + q))
      have l2 := abs_add_le x0 (qs.sum + q)
      have l3 := abs_add_le qs.sum q
      rw [e]
      linarith
    obtain ⟨y, e, hy⟩ := round_big (x + q) (hxq.trans (by linarith))
    refine ⟨y, ?_, ?_⟩
    · rw [List.foldl_append, h1]
      exact e
    · rw [List.length_append, List.length_singleton, List.sum_append, List.sum_singleton, ← hn']
      push_cast
      have k1 : y - (x0 + (qs.sum + q)) = (y - (x + q)) + (x - (x0 + qs.sum)) := by ring
      have k2 := abs_add_le (y - (x + q)) (x - (x0 + qs.sum))
      have k3 := mul_le_mul_of_nonneg_left hxq hu.le
      have k4 : 0 ≤ ulp64 * M := by positivity
      rw [k1]
      have : 3 / 2 * ((n : ℚ) + 1) * (ulp64 * M) = 3 / 2 * n * (ulp64 * M) + 3 / 2 * (ulp64 * M) := by ring
      rw [this]
      linarith

end CloudForest
