import Verif.Lemmas.Concurrent
import Verif.Props.Ballot

/-!
# Property C27: concurrent voting
-/

set_option linter.unusedSectionVars false

namespace CloudForest
variable {K : Type} [Field K] [LinearOrder K] [IsStrictOrderedRing K]

/-- **C27, in general.** Goroutines that add votes under the mutex of the box never wait for each
other for ever, stop after a bounded number of steps, and end as if the votes had been added one by
one in some order. `eff` is the effect of each addition on its own box; additions may read other
shared memory before they lock, if none of them changes it. -/
theorem c27_linearisable {C σ R : Type} (eff : Section C σ R → σ → σ) (c₀ : C) (box₀ : Nat → σ)
    (r : R) (progs : List (List (Section C σ R)))
    (heff : ∀ p ∈ progs, ∀ s ∈ p, s.Effect c₀ (eff s))
    (sched : List Nat) (s' : Sys (Mem C σ) R)
    (hrun : (Sys.ofSections ⟨c₀, box₀⟩ r progs).run sched = some s') :
    (¬ s'.Finished → ∃ t s'', s'.step t = some s'') ∧
    sched.length ≤ ((progs.map fun p => (p.flatMap Section.code).length).sum) ∧
    (s'.Finished → ∃ order, order.Perm progs.flatten ∧
      s'.mem = ⟨c₀, seqBoxes eff box₀ order⟩) := by
  have hall : ∀ sec ∈ progs.flatten, sec.Effect c₀ (eff sec) := by
    intro sec hsec
    obtain ⟨p, hp, hs⟩ := List.mem_flatten.1 hsec
    exact heff p hp sec hs
  obtain ⟨ph, l, h⟩ := (LockInv.init (eff := eff) (c₀ := c₀) (box₀ := box₀) r progs heff).run hall hrun
  refine ⟨h.progress, ?_, fun hf => ⟨l, (h.finished hf).1, (h.finished hf).2⟩⟩
  have := Sys.run_left hrun
  have e : (Sys.ofSections ⟨c₀, box₀⟩ r progs).left =
      (progs.map fun p => (p.flatMap Section.code).length).sum := by
    simp [Sys.left, Sys.ofSections, Function.comp_def]
  omega

theorem flatMap_single {α β : Type} (f : α → β) (l : List α) : (l.flatMap fun a => [f a]) = l.map f := by
  induction l with
  | nil => rfl
  | cons a l ih => simp [ih]

theorem perm_flatMap_exists {α β : Type} (g : α → List β) (hg : ∀ a, (g a).length ≤ 1)
    (l : List β) (as : List α) (h : l.Perm (as.flatMap g)) :
    ∃ as' : List α, as'.Perm as ∧ as'.flatMap g = l := by
  induction l generalizing as with
  | nil => exact ⟨as, List.Perm.refl _, List.nil_perm.1 h⟩
  | cons x l ih =>
    have hx : x ∈ as.flatMap g := h.mem_iff.1 (by simp)
    obtain ⟨a, ha, hxa⟩ := List.mem_flatMap.1 hx
    have hga : g a = [x] := by
      have := hg a
      match hq : g a, hxa, this with
      | [y], hxa, _ => simp only [List.mem_singleton] at hxa; rw [hxa]
      | y :: z :: w, _, this => simp at this
    obtain ⟨s, t, rfl⟩ := List.append_of_mem ha
    have hp : (s ++ a :: t).Perm (a :: (s ++ t)) := List.perm_middle
    have h2 : (x :: l).Perm (x :: (s ++ t).flatMap g) := by
      refine h.trans ((hp.flatMap_right g).trans ?_)
      rw [List.flatMap_cons, hga]
      exact List.Perm.refl _
    obtain ⟨as', h3, h4⟩ := ih _ (List.Perm.cons_inv h2)
    exact ⟨a :: as', (h3.cons a).trans hp.symm, by rw [List.flatMap_cons, hga, h4]; rfl⟩

/-- Sequential voting and the sequence of effects agree. -/
theorem castAll_boxes {C σ R β : Type} (vote : β → Nat → String → XF K → Option β)
    (view : (Nat → σ) → β) (code : Ballot K → List (Section C σ R)) (eff : Section C σ R → σ → σ)
    (size : Nat)
    (hstep : ∀ box (b : Ballot K), b.case < size →
      vote (view box) b.case b.pred b.weight = some (view (seqBoxes eff box (code b))))
    (box : Nat → σ) (bs : List (Ballot K)) (h : ∀ b ∈ bs, b.case < size) :
    castAll vote (view box) bs = some (view (seqBoxes eff box (bs.flatMap code))) := by
  induction bs generalizing box with
  | nil => rfl
  | cons b bs ih =>
    rw [castAll, List.foldlM_cons, hstep box b (h b (by simp))]
    have := ih (seqBoxes eff box (code b)) (fun b hb => h b (by simp [hb]))
    rw [castAll] at this
    simp only [Option.bind_eq_bind, Option.bind_some, this]
    rw [List.flatMap_cons, seqBoxes, seqBoxes, seqBoxes, List.foldl_append]

/-- The first `size` boxes. -/
def boxList {σ : Type} (size : Nat) (box : Nat → σ) : List σ := (List.range size).map box

theorem boxList_set {σ : Type} (size : Nat) (box : Nat → σ) (c : Nat) (x : σ) :
    (boxList size box).set c x = boxList size fun d => if d = c then x else box d := by
  apply List.ext_getElem?
  intro i
  rw [List.getElem?_set]
  by_cases hi : i < size
  · by_cases hc : c = i
    · subst hc; simp [boxList, hi]
    · have : ¬ i = c := fun h => hc h.symm
      simp [boxList, hi, hc, this]
  · by_cases hc : c = i
    · subst hc; simp [boxList, hi]
    · simp [boxList, hi, hc]

theorem boxList_get {σ : Type} {size : Nat} (box : Nat → σ) {c : Nat} (h : c < size) :
    (boxList size box)[c]? = some (box c) := by simp [boxList, h]

/-- The effect of a section without accesses outside its lock, from variables `r`. -/
def bodyEff {C σ R : Type} (r : R) (s : Section C σ R) (x : σ) : σ := runBody s.body x r

theorem meanSection_effect (c : Nat) (v w : XF K) (r₀ : MeanRegs K) :
    (meanSection c v w).Effect () (bodyEff r₀ (meanSection c v w)) := fun _ _ => rfl

theorem sumSection_effect (c : Nat) (v w : XF K) (r₀ : XF K) :
    (sumSection c v w).Effect () (bodyEff r₀ (sumSection c v w)) := fun _ _ => rfl

theorem counterSection_effect (i j v : Int) (r₀ : Int) :
    (counterSection i j v).Effect () (bodyEff r₀ (counterSection i j v)) := fun _ _ => rfl

/-- **C27, averages.** Goroutines voting in a `NumBallotBox`: whatever the schedule, they do not
deadlock, stop, and leave the state that sequential voting in some order leaves. -/
theorem c27_num (parse : String → Option (XF K)) (size : Nat) (votes : List (List (Ballot K)))
    (h : ∀ b ∈ votes.flatten, b.case < size) (sched : List Nat) (s' : _)
    (hrun : (numSys parse votes).run sched = some s') :
    (¬ s'.Finished → ∃ t s'', s'.step t = some s'') ∧
    sched.length ≤ 7 * votes.flatten.length ∧
    (s'.Finished → ∃ order, order.Perm votes.flatten ∧
      castAll (NumBox.vote parse) (NumBox.new size) order = some (boxList size s'.mem.box)) := by
  have hcode : ∀ b : Ballot K, ∀ s ∈ numVoteCode parse b,
      s.Effect () (bodyEff (.fin 0, .fin 0) s) ∧ s.code.length = 7 := by
    intro b s hs
    unfold numVoteCode at hs
    split at hs
    · cases hs
    · split_ifs at hs
      · rw [List.mem_singleton] at hs
        subst hs
        exact ⟨meanSection_effect _ _ _ _, rfl⟩
      · cases hs
  have hlen : ∀ b : Ballot K, (numVoteCode parse b).length ≤ 1 := by
    intro b
    unfold numVoteCode
    split
    · simp
    · split_ifs <;> simp
  obtain ⟨h1, h2, h3⟩ := c27_linearisable (bodyEff (.fin 0, .fin 0)) () (fun _ => RunningMean.new) _ _
    (by
      intro p hp s hs
      obtain ⟨vs, -, rfl⟩ := List.mem_map.1 hp
      obtain ⟨b, -, hb⟩ := List.mem_flatMap.1 hs
      exact (hcode b s hb).1) sched s' hrun
  refine ⟨h1, h2.trans ?_, fun hf => ?_⟩
  · rw [List.map_map]
    have hone : ∀ b : Ballot K, (((numVoteCode parse b).flatMap Section.code).length) ≤ 7 := by
      intro b
      match hq : numVoteCode parse b, hlen b with
      | [], _ => simp
      | [s], _ =>
        have := (hcode b s (by rw [hq]; simp)).2
        simp [this]
      | s :: s' :: l, hl => simp at hl
    have hvs : ∀ vs : List (Ballot K),
        ((vs.flatMap (numVoteCode parse)).flatMap Section.code).length ≤ 7 * vs.length := by
      intro vs
      induction vs with
      | nil => simp
      | cons b vs ih =>
        have := hone b
        simp only [List.flatMap_cons, List.flatMap_append, List.length_append, List.length_cons]
        omega
    clear h2 h3 hrun h
    induction votes with
    | nil => simp
    | cons vs votes ih =>
      have := hvs vs
      simp only [List.map_cons, List.sum_cons, List.flatten_cons, List.length_append,
        Function.comp_def] at ih ⊢
      omega
  · obtain ⟨secs, hp, hm⟩ := h3 hf
    have hfl : (votes.map fun vs => vs.flatMap (numVoteCode parse)).flatten =
        votes.flatten.flatMap (numVoteCode parse) := by
      simp [List.flatMap_def, List.map_flatten, List.flatten_flatten, Function.comp_def]
    rw [hfl] at hp
    obtain ⟨order, ho, he⟩ := perm_flatMap_exists _ hlen _ _ hp
    refine ⟨order, ho, ?_⟩
    have hc := castAll_boxes (NumBox.vote parse) (boxList size) (numVoteCode parse)
      (bodyEff (.fin 0, .fin 0)) size (by
        intro box b hb
        unfold NumBox.vote numVoteCode
        cases hq : parse b.pred with
        | none => rfl
        | some v =>
          simp only [boxList_get box hb, Option.bind_eq_bind, Option.bind_some, boxList_set]
          unfold RunningMean.weightedAdd
          split_ifs with hn
          · congr 2
            funext d
            simp only [seqBoxes, List.foldl_cons, List.foldl_nil, meanSection]
            split_ifs with hd
            · subst hd; rfl
            · rfl
          · congr 2
            funext d
            split_ifs with hd
            · subst hd; rfl
            · rfl)
      (fun _ => RunningMean.new) order (fun b hb => h b (ho.mem_iff.1 hb))
    have hnew : boxList size (fun _ => (RunningMean.new : RunningMean K)) = NumBox.new size := by
      simp [boxList, NumBox.new]
    rw [hnew] at hc
    rw [hc, he, hm]

/-- **C27, result.** Hence the weighted mean of the votes, whatever the schedule. -/
theorem c27_num_mean (parse : String → Option (XF K)) (fmt : XF K → String)
    (votes : List (List (FVote K))) (size : Nat)
    (h : ∀ v ∈ votes.flatten, v.case < size ∧ 0 < v.weight ∧
      ∀ x, parse v.pred = some x → x = .nan ∨ ∃ y, x = .fin y) (sched : List Nat) (s' : _)
    (hrun : (numSys parse (votes.map fun vs => vs.map FVote.ballot)).run sched = some s')
    (hf : s'.Finished) :
    ∀ i < size,
      (numVotes parse votes.flatten i = [] →
        NumBox.tally fmt (boxList size s'.mem.box) i = some "NA") ∧
      (numVotes parse votes.flatten i ≠ [] →
        s'.mem.box i = ⟨.fin (weightedSum (numVotes parse votes.flatten i) /
          totalWeight (numVotes parse votes.flatten i)),
          .fin (totalWeight (numVotes parse votes.flatten i))⟩) := by
  have hfl : (votes.map fun vs => vs.map FVote.ballot).flatten = votes.flatten.map FVote.ballot := by
    rw [List.map_flatten]
  obtain ⟨-, -, h3⟩ := c27_num parse size _ (by
    rw [hfl]
    intro b hb
    obtain ⟨v, hv, rfl⟩ := List.mem_map.1 hb
    exact (h v hv).1) sched s' hrun
  obtain ⟨order, ho, hc⟩ := h3 hf
  rw [hfl] at ho
  have ho' : order.Perm (votes.flatten.flatMap fun v => [FVote.ballot v]) := by
    rw [show (votes.flatten.flatMap fun v => [FVote.ballot v]) = votes.flatten.map FVote.ballot from
      flatMap_single _ _]
    exact ho
  obtain ⟨order', hp, he⟩ := perm_flatMap_exists (fun v : FVote K => [v.ballot]) (by simp) _ _ ho'
  have he' : order = order'.map FVote.ballot := by
    rw [← he]; exact flatMap_single _ _
  rw [he'] at hc
  obtain ⟨bb, e, hb⟩ := castAll_inv (NumBox.vote parse) (NumBoxInv parse size)
    (fun v => v.case < size ∧ 0 < v.weight ∧
      ∀ x, parse v.pred = some x → x = .nan ∨ ∃ y, x = .fin y) _ (numBox_inv_new parse size)
    (fun _ _ v hb hv => numBox_vote hb v hv.1 hv.2.2 (.inl hv.2.1)) order'
    (fun v hv => h v (hp.mem_iff.1 hv))
  have hbb : bb = boxList size s'.mem.box := by
    rw [hc] at e
    exact (Option.some.inj e).symm
  intro i hi
  have hget : bb[i]? = some (s'.mem.box i) := by rw [hbb, boxList_get _ hi]
  obtain ⟨e1, e2, e3⟩ := c26_order parse votes.flatten order' hp i
  have hv := hb.vals i _ hget
  rw [e1, e2, e3] at hv
  rcases hv with ⟨hnil, hm⟩ | ⟨hpos, hm⟩
  · refine ⟨fun _ => ?_, fun h => absurd hnil h⟩
    rw [← hbb]
    simp only [NumBox.tally, hget, hm, Option.bind_eq_bind, Option.bind_some, RunningMean.new]
    rw [if_neg (show ¬ (XF.fin 0 : XF K) < .fin 0 from lt_irrefl _)]
  · refine ⟨fun h => ?_, fun _ => hm⟩
    rw [h] at hpos; simp [totalWeight] at hpos

/-- **C27, sums.** Goroutines voting in a `SumBallotBox`. -/
theorem c27_sum (parse : String → Option (XF K)) (size : Nat) (votes : List (List (Ballot K)))
    (h : ∀ b ∈ votes.flatten, b.case < size) (sched : List Nat) (s' : _)
    (hrun : (sumSys parse votes).run sched = some s') :
    (¬ s'.Finished → ∃ t s'', s'.step t = some s'') ∧
    (s'.Finished → ∃ order, order.Perm votes.flatten ∧
      castAll (SumBox.vote parse) (SumBox.new size) order = some (boxList size s'.mem.box)) := by
  have hcode : ∀ b : Ballot K, ∀ s ∈ sumVoteCode parse b, s.Effect () (bodyEff (.fin 0) s) := by
    intro b s hs
    unfold sumVoteCode at hs
    split at hs
    · cases hs
    · rw [List.mem_singleton] at hs
      subst hs
      exact sumSection_effect _ _ _ _
  have hlen : ∀ b : Ballot K, (sumVoteCode parse b).length ≤ 1 := by
    intro b
    unfold sumVoteCode
    split <;> simp
  obtain ⟨h1, -, h3⟩ := c27_linearisable (bodyEff (.fin 0)) () (fun _ => (.fin 0 : XF K)) _ _
    (by
      intro p hp s hs
      obtain ⟨vs, -, rfl⟩ := List.mem_map.1 hp
      obtain ⟨b, -, hb⟩ := List.mem_flatMap.1 hs
      exact hcode b s hb) sched s' hrun
  refine ⟨h1, fun hf => ?_⟩
  obtain ⟨secs, hp, hm⟩ := h3 hf
  have hfl : (votes.map fun vs => vs.flatMap (sumVoteCode parse)).flatten =
      votes.flatten.flatMap (sumVoteCode parse) := by
    simp [List.flatMap_def, List.map_flatten, List.flatten_flatten, Function.comp_def]
  rw [hfl] at hp
  obtain ⟨order, ho, he⟩ := perm_flatMap_exists _ hlen _ _ hp
  refine ⟨order, ho, ?_⟩
  have hc := castAll_boxes (SumBox.vote parse) (boxList size) (sumVoteCode parse)
    (bodyEff (.fin 0)) size (by
      intro box b hb
      unfold SumBox.vote sumVoteCode
      cases hq : parse b.pred with
      | none => rfl
      | some v =>
        simp only [boxList_get box hb, Option.bind_eq_bind, Option.bind_some, boxList_set]
        congr 2
        funext d
        simp only [seqBoxes, List.foldl_cons, List.foldl_nil, sumSection]
        split_ifs with hd
        · subst hd; rfl
        · rfl)
    (fun _ => (.fin 0 : XF K)) order (fun b hb => h b (ho.mem_iff.1 hb))
  have hnew : boxList size (fun _ => (.fin 0 : XF K)) = SumBox.new size := by
    simp [boxList, SumBox.new]
  rw [hnew] at hc
  rw [hc, he, hm]

theorem counterSection_get (i j v i' j' : Int) (m : CounterMap) :
    (bodyEff 0 (counterSection i j v) m).get i' j' =
      m.get i' j' + if i = i' ∧ j = j' then v else 0 := by
  by_cases hi : i = i'
  · subst hi
    by_cases hj : j = j'
    · subst hj
      rcases m with _ | rows
      · simp [bodyEff, counterSection, runBody, CounterMap.get, CounterMap.put]
      · cases hr : rows i with
        | none => simp [bodyEff, counterSection, runBody, CounterMap.get, CounterMap.put, hr]
        | some row => simp [bodyEff, counterSection, runBody, CounterMap.get, CounterMap.put, hr]
    · have hj' : ¬ j' = j := fun h => hj h.symm
      rcases m with _ | rows
      · simp [bodyEff, counterSection, runBody, CounterMap.get, CounterMap.put, hj, hj']
      · cases hr : rows i with
        | none => simp [bodyEff, counterSection, runBody, CounterMap.get, CounterMap.put, hr, hj, hj']
        | some row =>
          simp [bodyEff, counterSection, runBody, CounterMap.get, CounterMap.put, hr, hj, hj']
  · have hi' : ¬ i' = i := fun h => hi h.symm
    rcases m with _ | rows
    · simp [bodyEff, counterSection, runBody, CounterMap.get, CounterMap.put, hi, hi']
    · simp [bodyEff, counterSection, runBody, CounterMap.get, CounterMap.put, hi, hi']

/-- **C27, counts.** Goroutines adding to a `SparseCounter` lose nothing: in the end every entry is
the sum of what was added to it. -/
theorem c27_counter (adds : List (List (Int × Int × Int))) (sched : List Nat) (s' : _)
    (hrun : (counterSys adds).run sched = some s') :
    (¬ s'.Finished → ∃ t s'', s'.step t = some s'') ∧
    (s'.Finished → ∀ i j, (s'.mem.box 0).get i j =
      ((adds.flatten.filter fun a => decide (a.1 = i ∧ a.2.1 = j)).map fun a => a.2.2).sum) := by
  obtain ⟨h1, -, h3⟩ := c27_linearisable (bodyEff 0) () (fun _ => (none : CounterMap)) _ _
    (by
      intro p hp s hs
      obtain ⟨vs, -, rfl⟩ := List.mem_map.1 hp
      obtain ⟨b, -, rfl⟩ := List.mem_map.1 hs
      exact counterSection_effect _ _ _ _) sched s' hrun
  refine ⟨h1, fun hf i j => ?_⟩
  obtain ⟨secs, hp, hm⟩ := h3 hf
  rw [← List.map_flatten] at hp
  have hp' : secs.Perm (adds.flatten.flatMap fun a => [counterSection a.1 a.2.1 a.2.2]) := by
    rw [show (adds.flatten.flatMap fun a => [counterSection a.1 a.2.1 a.2.2]) =
      adds.flatten.map fun a => counterSection a.1 a.2.1 a.2.2 from flatMap_single _ _]
    exact hp
  obtain ⟨order, ho, he⟩ := perm_flatMap_exists _ (by simp) _ _ hp'
  have he' : secs = order.map fun a => counterSection a.1 a.2.1 a.2.2 := by
    rw [← he]; exact flatMap_single _ _
  have key : ∀ (l : List (Int × Int × Int)) (box : Nat → CounterMap),
      (seqBoxes (bodyEff 0) box (l.map fun a => counterSection a.1 a.2.1 a.2.2) 0).get i j =
        (box 0).get i j +
          ((l.filter fun a => decide (a.1 = i ∧ a.2.1 = j)).map fun a => a.2.2).sum := by
    intro l
    induction l with
    | nil => intro box; simp [seqBoxes]
    | cons a l ih =>
      intro box
      have e := ih (fun d => if d = 0 then bodyEff 0 (counterSection a.1 a.2.1 a.2.2) (box d) else box d)
      simp only [seqBoxes, List.map_cons, List.foldl_cons, counterSection] at e ⊢
      rw [e]
      simp only [if_true]
      have e2 := counterSection_get a.1 a.2.1 a.2.2 i j (box 0)
      simp only [counterSection] at e2
      rw [e2, List.filter_cons]
      by_cases hc : a.1 = i ∧ a.2.1 = j
      · simp [hc, add_assoc]
      · simp [hc]
  rw [hm, he', key order]
  have : (CounterMap.get none i j) = 0 := rfl
  rw [this, zero_add]
  exact ((ho.filter _).map _).sum_eq

/-- Two goroutines with one vote each for case 0. -/
def exRace : Sys (Mem CatMap (List (Nat × XF ℚ))) CatRegs :=
  catSys (CatBox.new 1) [[⟨0, "a", .fin 1⟩], [⟨0, "b", .fin 2⟩]]

/-- A schedule: both look their category up before either has added it. -/
def exRaceSched : List Nat := [0, 1, 0, 1, 0, 0, 0, 1, 1, 1, 0, 0, 0, 1, 1, 1]

/-- **C27 is false of `CatBallotBox`.** Case 0 gets weight 1 for "a" and 2 for "b". There is a
schedule after which the prediction is "a": `CatToNum` is not protected by any lock, both new
categories get number 0. In every sequential order it is "b". -/
theorem c27_cat_race :
    (∃ s', exRace.run exRaceSched = some s' ∧ s'.Finished ∧
      ∀ res, CatBox.Tallies ⟨s'.mem.shared, boxList 1 s'.mem.box⟩ 0 res → res = some "a") ∧
    ∀ order : List (FVote ℚ), order.Perm ([⟨0, "a", 1⟩, ⟨0, "b", 2⟩] : List (FVote ℚ)) →
      ∃ bb, castAll CatBox.vote (CatBox.new 1) (order.map FVote.ballot) = some bb ∧
        ∀ res, bb.Tallies 0 res → res = some "b" := by
  constructor
  · obtain ⟨s', hs'⟩ := Option.isSome_iff_exists.1
      (by decide +kernel : (exRace.run exRaceSched).isSome = true)
    have h1 : (exRace.run exRaceSched).map (fun s => s.threads.map fun th => th.code.length) =
        some [0, 0] := by decide +kernel
    have h2 : (exRace.run exRaceSched).map (fun s => s.mem.box 0) = some [(0, .fin 3)] := by
      decide +kernel
    have h3 : (exRace.run exRaceSched).map (fun s => s.mem.shared.back) = some ["a", "b"] := by
      decide +kernel
    rw [hs', Option.map_some, Option.some.injEq] at h1 h2 h3
    refine ⟨s', hs', ?_, ?_⟩
    · intro th hth
      have : th.code.length ∈ s'.threads.map fun th => th.code.length :=
        List.mem_map.2 ⟨th, hth, rfl⟩
      rw [h1] at this
      simpa using this
    · rintro res ⟨m, es, hm, hp, rfl⟩
      have hm' : m = [(0, .fin 3)] := by
        rw [boxList_get _ (by decide : 0 < 1), h2] at hm
        exact (Option.some.inj hm).symm
      rw [hm', List.perm_singleton] at hp
      subst hp
      have h0 : (XF.fin 0 : XF ℚ) < .fin 3 := by decide +kernel
      simp [CatBox.tallyIn, tallyLoop, h0, h3]
  · intro order ho
    exact c25_order 1 _ order (by simp) ho 0 (by decide) "b" (by decide +kernel) (by
      intro q hq
      by_cases ha : q = "a"
      · subst ha; decide +kernel
      · have : weightFor ([⟨0, "a", 1⟩, ⟨0, "b", 2⟩] : List (FVote ℚ)) 0 q = 0 := by
          have h1 : ¬ "a" = q := fun h => ha h.symm
          have h2 : ¬ "b" = q := fun h => hq h.symm
          simp [weightFor, h1, h2]
        rw [this]; decide +kernel)

theorem catSection_effect (cm : CatMap) (b : Ballot K) (n : Nat) (h : cm.map b.pred = some n) :
    (catSection b).Effect cm (addEntry n b.weight) := by
  intro r
  refine ⟨⟨n, true, r.back⟩, fun box => by simp [h], ?_⟩
  refine ⟨⟨n, true, r.back⟩, fun box => by simp, ?_⟩
  refine ⟨⟨n, true, r.back⟩, fun box => by simp, ?_⟩
  refine ⟨⟨n, true, r.back⟩, fun box => by simp, ?_⟩
  refine ⟨⟨n, true, r.back⟩, fun box => by simp, ?_⟩
  intro x
  rfl

/-- The effect of `catSection` if the category map is `cm` throughout. -/
def catEff (cm : CatMap) (s : Section CatMap (List (Nat × XF K)) CatRegs) (x : List (Nat × XF K)) :
    List (Nat × XF K) :=
  runBody s.body x (s.pre.foldl (fun r f => (f ⟨cm, fun _ => []⟩ r).2) ⟨0, false, []⟩)

theorem catEff_eq (cm : CatMap) (b : Ballot K) (n : Nat) (h : cm.map b.pred = some n) :
    catEff cm (catSection b) = addEntry n b.weight := by
  funext x
  simp [catEff, catSection, h, runBody]

/-- **C27, categories, partial.** If every category voted for is already in the map of the ballot
box, goroutines voting in a `CatBallotBox` do not deadlock, and leave the state that sequential
voting in some order leaves. -/
theorem c27_cat_partial (bb : CatBox K) (votes : List (List (Ballot K)))
    (h : ∀ b ∈ votes.flatten, b.case < bb.box.length ∧ (bb.cm.map b.pred).isSome)
    (sched : List Nat) (s' : _) (hrun : (catSys bb votes).run sched = some s') :
    (¬ s'.Finished → ∃ t s'', s'.step t = some s'') ∧
    (s'.Finished → ∃ order, order.Perm votes.flatten ∧
      castAll CatBox.vote bb order = some ⟨s'.mem.shared, boxList bb.box.length s'.mem.box⟩) := by
  obtain ⟨h1, -, h3⟩ := c27_linearisable (catEff bb.cm) bb.cm (fun i => bb.box.getD i []) _ _
    (by
      intro p hp s hs
      obtain ⟨vs, hvs, rfl⟩ := List.mem_map.1 hp
      obtain ⟨b, hb, rfl⟩ := List.mem_map.1 hs
      obtain ⟨n, hn⟩ := Option.isSome_iff_exists.1 (h b (List.mem_flatten.2 ⟨vs, hvs, hb⟩)).2
      rw [catEff_eq _ _ n hn]
      exact catSection_effect _ _ n hn) sched s' hrun
  refine ⟨h1, fun hf => ?_⟩
  obtain ⟨secs, hp, hm⟩ := h3 hf
  rw [← List.map_flatten, ← flatMap_single] at hp
  obtain ⟨order, ho, he⟩ := perm_flatMap_exists _ (by simp) _ _ hp
  refine ⟨order, ho, ?_⟩
  have key : ∀ (l : List (Ballot K)) (box : Nat → List (Nat × XF K)),
      (∀ b ∈ l, b.case < bb.box.length ∧ (bb.cm.map b.pred).isSome) →
      castAll CatBox.vote ⟨bb.cm, boxList bb.box.length box⟩ l =
        some ⟨bb.cm, boxList bb.box.length
          (seqBoxes (catEff bb.cm) box (l.flatMap fun b => [catSection b]))⟩ := by
    intro l
    induction l with
    | nil => intro box _; rfl
    | cons b l ih =>
      intro box hl
      obtain ⟨hc, hs⟩ := hl b (by simp)
      obtain ⟨n, hn⟩ := Option.isSome_iff_exists.1 hs
      have hv : CatBox.vote ⟨bb.cm, boxList bb.box.length box⟩ b.case b.pred b.weight =
          some ⟨bb.cm, boxList bb.box.length
            (fun d => if d = b.case then addEntry n b.weight (box b.case) else box d)⟩ := by
        simp [CatBox.vote, CatMap.catToNum, hn, boxList_get box hc, boxList_set]
      have e := ih (fun d => if d = b.case then addEntry n b.weight (box b.case) else box d)
        (fun b hb => hl b (by simp [hb]))
      rw [castAll] at e ⊢
      rw [List.foldlM_cons, hv]
      simp only [Option.bind_eq_bind, Option.bind_some, e]
      congr 3
      rw [List.flatMap_cons, seqBoxes, seqBoxes, List.foldl_append, List.foldl_cons, List.foldl_nil,
        catEff_eq _ _ n hn]
      congr 1
      funext d
      show _ = if d = b.case then _ else _
      split_ifs with hd
      · rw [hd]
      · rfl
  have hbb : (⟨bb.cm, boxList bb.box.length fun i => bb.box.getD i []⟩ : CatBox K) = bb := by
    obtain ⟨cm, box⟩ := bb
    congr 1
    apply List.ext_getElem?
    intro i
    by_cases hi : i < box.length
    · simp [boxList, hi]
    · simp [boxList, hi]
  have := key order (fun i => bb.box.getD i []) (fun b hb => h b (ho.mem_iff.1 hb))
  rw [hbb, he] at this
  rw [this, hm]

/-- Two goroutines voting in a ballot box that has seen both categories. -/
def exSeen : CatBox ℚ :=
  ⟨⟨fun s => if s = "a" then some 0 else if s = "b" then some 1 else none, ["a", "b"]⟩, [[(0, .fin 1)]]⟩

example : (∀ b ∈ ([[⟨0, "a", .fin 1⟩], [⟨0, "b", .fin 2⟩]] : List (List (Ballot ℚ))).flatten,
      b.case < exSeen.box.length ∧ (exSeen.cm.map b.pred).isSome) ∧
    ((catSys exSeen [[⟨0, "a", .fin 1⟩], [⟨0, "b", .fin 2⟩]]).run exRaceSched).map
      (fun s => (s.mem.box 0, s.threads.map fun th => th.code.length)) =
      some ([(0, .fin 2), (1, .fin 2)], [0, 0]) := by
  refine ⟨by decide, by decide +kernel⟩

/-- Three goroutines adding to running means, with a goroutine waiting for a lock on the way. -/
example : (∀ v ∈ ([[⟨0, "2", 1⟩], [⟨0, "5", 2⟩, ⟨1, "2", 1⟩], [⟨0, "x", 7⟩]] :
      List (List (FVote ℚ))).flatten, v.case < 2 ∧ 0 < v.weight) ∧
    ((numSys exParse [[⟨0, "2", .fin 1⟩], [⟨0, "5", .fin 2⟩, ⟨1, "2", .fin 1⟩],
        [⟨0, "x", .fin 7⟩]]).run [0, 0, 0, 1]).isNone ∧
    ((numSys exParse [[⟨0, "2", .fin 1⟩], [⟨0, "5", .fin 2⟩, ⟨1, "2", .fin 1⟩],
        [⟨0, "x", .fin 7⟩]]).run
      [0, 0, 0, 0, 0, 0, 0, 1, 1, 1, 1, 1, 1, 1, 1, 1, 1, 1, 1, 1, 1]).map
      (fun s => (s.mem.box 0, s.mem.box 1, s.threads.map fun th => th.code.length)) =
      some (⟨.fin 4, .fin 3⟩, ⟨.fin 2, .fin 1⟩, [0, 0, 0]) := by
  refine ⟨by decide +kernel, by decide +kernel, by decide +kernel⟩

example : ((counterSys [[(1, 2, 5)], [(1, 2, -2), (0, 0, 1)]]).run
    [1, 1, 1, 1, 1, 1, 1, 0, 0, 1, 0, 0, 0, 0, 0, 1, 1, 1, 1, 1, 1]).isNone ∧
    ((counterSys [[(1, 2, 5)], [(1, 2, -2), (0, 0, 1)]]).run
    [1, 1, 1, 1, 1, 1, 1, 0, 0, 0, 0, 0, 0, 0, 1, 1, 1, 1, 1, 1, 1]).map
      (fun s => ((s.mem.box 0).get 1 2, (s.mem.box 0).get 0 0, s.threads.map fun th => th.code.length)) =
      some (3, 1, [0, 0]) := by
  refine ⟨by decide +kernel, by decide +kernel⟩

end CloudForest
