import Verif.Lemmas.Grow2
import Verif.Props.Tree

/-!
# C08, C09, C42, C45: growing trees

The split search is a parameter here; what is assumed of it is in `Verif.Spec.Grow`.
-/

set_option linter.unusedSectionVars false

namespace CloudForest
variable {K : Type} [Field K] [LinearOrder K] [IsStrictOrderedRing K] {σ : Type}
  {P : σ → Prop} {Q : Nat → Prop}

/-- A search for the examples: categories a and b left, as long as cases 0 and 1 are there. -/
def exGrower : Grower ℚ Unit :=
  { best := fun _ cs _ => some ((), ⟨cs.reverse, 0,
      if cs.contains 0 && cs.contains 1 then some (.int 6) else none, 0⟩)
    findPredicted := fun cs => toString cs.length
    leafSize := 1, maxDepth := 3, splitmissing := true }

theorem exFM_ok : MatrixOk exFM [4, 3, 2, 1, 0, 3] := by
  have h1 : ∀ f ∈ exFM.data, f = .cat exCat := by simp [exFM]
  refine ⟨?_, ?_, ?_, ?_⟩
  · intro f hf; rw [h1 f hf]; exact exCat_valid
  · intro f hf; rw [h1 f hf]; exact fun _ _ => rfl
  · intro f hf; rw [h1 f hf]; exact CatMap.run_wf CatMap.wf_empty _
  · intro i f hf
    match i, hf with
    | 0, hf => cases hf; rfl

theorem exGrower_ok : SearchOk exGrower exFM (fun _ => True) (fun _ => True) [4, 3, 2, 1, 0, 3] := by
  refine ⟨?_, ?_, fun _ _ _ _ _ _ _ _ _ => ⟨trivial, trivial⟩⟩
  · intro st cs nc st' res _ _ _ h
    simp only [exGrower, Option.some.injEq, Prod.mk.injEq] at h
    rw [← h.2]; exact List.reverse_perm cs
  · intro st cs nc st' res code _ _ _ h hs
    simp only [exGrower, Option.some.injEq, Prod.mk.injEq] at h
    rw [← h.2] at hs ⊢
    refine ⟨.cat exCat, rfl, ?_⟩
    simp only [Option.ite_none_right_eq_some, Option.some.injEq] at hs
    rw [← hs.2]; trivial

theorem exGrower_adm : Admissible exGrower exFM (fun _ => True) (fun _ => True) [4, 3, 2, 1, 0, 3] := by
  intro st cs nc st' res code f _ _ _ h hs hf
  simp only [exGrower, Option.some.injEq, Prod.mk.injEq] at h
  rw [← h.2] at hs hf
  cases hf
  simp only [Option.ite_none_right_eq_some, Option.some.injEq, Bool.and_eq_true,
    List.contains_iff_mem] at hs
  rw [← hs.2]
  exact ⟨List.length_pos_of_mem (List.mem_filter.2 ⟨hs.1.2, by decide⟩),
    List.length_pos_of_mem (List.mem_filter.2 ⟨hs.1.1, by decide⟩)⟩

/-- C08. In a tree grown from scratch, every leaf reached by an in-bag case predicts
`FindPredicted` of exactly the in-bag cases that reach it (with repetitions). A leaf for which
this fails is a missing branch at which no in-bag case was missing; it has an empty prediction.
The tree can be used to vote, before and after stripping the codes, with the same result. -/
theorem c08_leaf_predictions {g : Grower K σ} {fm : FeatureMatrix K} {cases : List Nat}
    (hM : MatrixOk fm cases) (hS : SearchOk g fm P Q cases) {fuel : Nat} {st st' : σ} {root : Node K}
    (hP : P st) (hQ : Q 0) (h : grow g fm fuel .fresh st cases 0 0 = some (root, st')) :
    (∀ x ∈ leavesOf root,
      (∃ L, L.Perm (cases.filter fun c => (landing fm root c).map (·.1) == some x.1) ∧
        x.2 = g.findPredicted L) ∨
      (g.splitmissing = true ∧ x.1.getLast? = some .M ∧ x.2 = "" ∧
        ∀ c ∈ cases, (landing fm root c).map (·.1) ≠ some x.1)) ∧
    Usable fm cases root ∧
    (∀ t w, Tree.voteCases ⟨root.stripCodes, t, w⟩ fm cases = Tree.voteCases ⟨root, t, w⟩ fm cases) ∧
    (g.splitmissing = true → ∀ c ∈ cases, landing fm root c ≠ none) := by
  have hg := (grow_grown hM hS fuel 0 "" st cases 0 0 root st' hP hQ (fun _ h => h) h).2 false
  have hu : Usable fm cases root := (hg.usable hM).resolve_left hg.not_nil
  refine ⟨?_, hu, ?_, fun hsm => hg.every_lands hsm⟩
  · intro x hx
    rcases hg.leaves x hx with h | ⟨h1, h2, h3⟩
    · exact .inl h
    · exact .inr ⟨h1, by simpa using h2, h3⟩
  · intro t w
    exact c02_stripCodes ⟨root, t, w⟩ fm cases hu (hg.codesDecoded hM)

/-- The example search grows a real tree: left leaf of 4 cases, right leaf of 1, missing of 1. -/
example : MatrixOk exFM [4, 3, 2, 1, 0, 3] ∧ SearchOk exGrower exFM (fun _ => True) (fun _ => True) [4, 3, 2, 1, 0, 3] ∧
    (grow exGrower exFM 7 .fresh () [4, 3, 2, 1, 0, 3] 0 0).map (fun r => leavesOf r.1) =
      some [([.L], "4"), ([.R], "1"), ([.M], "1")] :=
  ⟨exFM_ok, exGrower_ok, by decide +kernel⟩

/-- C09, termination. If every split found leaves `leafSize ≥ 1` cases on both sides, growing
returns; the result is the same for every bound on the recursion depth above the number of
cases, so no bound is needed. -/
theorem c09_terminates {g : Grower K σ} {fm : FeatureMatrix K} {cases : List Nat}
    (hM : MatrixOk fm cases) (hS : SearchOk g fm P Q cases) (hA : Admissible g fm P Q cases)
    (hls : 1 ≤ g.leafSize)
    (hT : ∀ st cs nc, P st → Q nc → (∀ c ∈ cs, c ∈ cases) → 2 * g.leafSize ≤ cs.length →
      g.best st cs nc ≠ none)
    (st : σ) (hP : P st) (hQ : Q 0) :
    ∃ r, ∀ fuel, cases.length < fuel → grow g fm fuel .fresh st cases 0 0 = some r := by
  obtain ⟨r, hr⟩ := Option.ne_none_iff_exists'.1
    (grow_total hM hS hA hls hT (cases.length + 1) 0 "" st cases 0 0 hP hQ (fun _ h => h) (by omega))
  exact ⟨r, fun fuel hf => grow_fuel_le g fm hf hr⟩

/-- C09, limits. In a grown tree every left or right child is reached by at least `leafSize`
of the in-bag cases, and no node lies deeper than a positive `maxDepth`. -/
theorem c09_limits {g : Grower K σ} {fm : FeatureMatrix K} {cases : List Nat}
    (hM : MatrixOk fm cases) (hS : SearchOk g fm P Q cases) (hA : Admissible g fm P Q cases)
    {fuel : Nat} {st st' : σ} {root : Node K}
    (hP : P st) (hQ : Q 0) (h : grow g fm fuel .fresh st cases 0 0 = some (root, st')) :
    (∀ (p : List Dir) (x : Dir), x ≠ .M → subtreeAt root (p ++ [x]) ≠ .nil →
      g.leafSize ≤ (cases.filter (reaches fm root (p ++ [x]))).length) ∧
    (0 < g.maxDepth → (height root : Int) ≤ g.maxDepth) := by
  have hg := (grow_grown hM hS fuel 0 "" st cases 0 0 root st' hP hQ (fun _ h => h) h).2 false
  refine ⟨hg.leafSize hA (fun _ h => h), fun hpos => ?_⟩
  have := hg.height_le hpos (by simpa using hpos.le)
  simpa using this

/-- The example search is admissible and never panics. -/
example : Admissible exGrower exFM (fun _ => True) (fun _ => True) [4, 3, 2, 1, 0, 3] ∧ 1 ≤ exGrower.leafSize ∧
    ∀ st cs nc, exGrower.best st cs nc ≠ none :=
  ⟨exGrower_adm, by decide, by simp [exGrower]⟩

/-- Two more searches for the examples: one that finds nothing, one on cases none of which is
missing. -/
def exStop : Grower ℚ Unit := { exGrower with best := fun _ cs _ => some ((), ⟨cs, 0, none, 0⟩) }

/-- The number of votes a tree casts on the example cases. -/
def exVotes (n : Node ℚ) : Option Nat :=
  (Tree.voteCases ⟨n, "t", .fin 1⟩ exFM [4, 3, 2, 1, 0, 3]).map (·.1.length)

/-- C42 is false of the code: a tree grown twice need not vote like a fresh one. Here the first
growth splits the root and the second does not; the stale children stay, the root is no longer
recognised as a leaf, and no vote is cast at all. -/
theorem c42_regrown_loses_votes :
    ∃ first second fresh : Node ℚ,
      grow exGrower exFM 7 .fresh () [4, 3, 2, 1, 0, 3] 0 0 = some (first, ()) ∧
      grow exStop exFM 7 first () [4, 3, 2, 1, 0, 3] 0 0 = some (second, ()) ∧
      grow exStop exFM 7 .fresh () [4, 3, 2, 1, 0, 3] 0 0 = some (fresh, ()) ∧
      exVotes fresh = some 6 ∧ exVotes second = some 0 := by
  have key : (grow exGrower exFM 7 .fresh () [4, 3, 2, 1, 0, 3] 0 0).isSome = true := by
    decide +kernel
  obtain ⟨⟨first, _⟩, h1⟩ := Option.isSome_iff_exists.1 key
  have key2 : ((grow exGrower exFM 7 .fresh () [4, 3, 2, 1, 0, 3] 0 0).bind fun r =>
      (grow exStop exFM 7 r.1 () [4, 3, 2, 1, 0, 3] 0 0).bind fun r => exVotes r.1) = some 0 := by
    decide +kernel
  have key3 : ((grow exStop exFM 7 .fresh () [4, 3, 2, 1, 0, 3] 0 0).bind fun r =>
      exVotes r.1) = some 6 := by decide +kernel
  rw [h1] at key2
  simp only [Option.bind_some, Option.bind_eq_some_iff] at key2 key3
  obtain ⟨⟨second, _⟩, h2, e2⟩ := key2
  obtain ⟨⟨fresh, _⟩, h3, e3⟩ := key3
  exact ⟨first, second, fresh, h1, h2, h3, e3, e2⟩

/-- A tree without what lies below the nodes that do not split. -/
def prune : Node K → Node K
  | .nil => .nil
  | .mk coded fi l r m p s =>
    if splits coded s then .mk coded fi (prune l) (prune r) (prune m) p s
    else .mk coded 0 .nil .nil .nil p s

/-- No node of the tree has a missing branch. -/
def noMissing : Node K → Prop
  | .nil => True
  | .mk _ _ l r m _ _ => m = .nil ∧ noMissing l ∧ noMissing r

/-- C42, the part that holds: what re-growing leaves stale is only what hangs below leaves (and
the old missing branches, unless they are replaced). Pruned, the re-grown tree is the fresh one,
and the search went the same way. Missing for the full property: the code does not prune. -/
theorem c42_pruned_partial (g : Grower K σ) (fm : FeatureMatrix K) :
    ∀ (fuel : Nat) (old : Node K) (st : σ) (cs : List Nat) (d nc : Nat), old ≠ .nil →
      (g.splitmissing = true ∨ noMissing old) →
      (grow g fm fuel old st cs d nc).map (fun r => (prune r.1, r.2)) =
        grow g fm fuel .fresh st cs d nc := by
  intro fuel
  induction fuel with
  | zero => intros; rfl
  | succ fuel ih =>
    intro old st cs d nc hne hm
    cases old with
    | nil => exact absurd rfl hne
    | mk coded fi0 l r m p s =>
      rw [fresh_eq, grow, grow]
      split
      · cases hb : g.best st cs nc with
        | none => rfl
        | some x =>
          obtain ⟨st1, res⟩ := x
          simp only [Option.bind_eq_bind, Option.bind_some]
          cases hres : res.split with
          | none => simp [prune, splits]
          | some code =>
            simp only
            cases hf : fm.data[res.fi]? with
            | none => rfl
            | some f =>
              simp only [Option.bind_some]
              cases hdec : f.decodeSplit code with
              | none => rfl
              | some spl =>
                simp only [Option.bind_some]
                cases hpt : f.splitPoints code res.cases with
                | none => rfl
                | some q =>
                  obtain ⟨cs', li, ri⟩ := q
                  simp only [Option.bind_some]
                  obtain ⟨l', r', m', hch, hl', hr', hm', hml, hmr⟩ : ∃ l' r' m',
                      growChildren g.splitmissing l r m = (l', r', m') ∧ l' ≠ .nil ∧ r' ≠ .nil ∧
                      m' = (growChildren g.splitmissing .nil .nil .nil).2.2 ∧
                      (g.splitmissing = true ∨ noMissing l') ∧
                      (g.splitmissing = true ∨ noMissing r') := by
                    have hf : ∀ n : Node K, n.isNil = false → n ≠ .nil := by
                      rintro n h rfl; cases h
                    have hmm : (if g.splitmissing then Node.fresh else m) =
                        if g.splitmissing then Node.fresh else .nil := by
                      rcases hm with h | h
                      · simp [h]
                      · rw [h.1]
                    have hfr : noMissing (.fresh : Node K) := ⟨rfl, trivial, trivial⟩
                    unfold growChildren
                    by_cases hlr : (l.isNil || r.isNil) = true
                    · rw [if_pos hlr]
                      exact ⟨_, _, _, rfl, by simp [Node.fresh], by simp [Node.fresh], hmm, .inr hfr,
                        .inr hfr⟩
                    · rw [if_neg hlr]
                      simp only [Bool.or_eq_true, not_or, Bool.not_eq_true] at hlr
                      exact ⟨_, _, _, rfl, hf _ hlr.1, hf _ hlr.2, hmm,
                        hm.imp id (·.2.1), hm.imp id (·.2.2)⟩
                  rw [hch]
                  have hfc : growChildren g.splitmissing (.nil : Node K) .nil .nil =
                      (.fresh, .fresh, m') := by rw [hm']; rfl
                  rw [hfc]
                  rw [← ih l' st1 (cs'.take li) (d + 1) res.nconstants hl' hml]
                  cases grow g fm fuel l' st1 (cs'.take li) (d + 1) res.nconstants with
                  | none => rfl
                  | some x =>
                    simp only [Option.map_some, Option.bind_some]
                    rw [← ih r' x.2 (cs'.drop ri) (d + 1) res.nconstants hr' hmr]
                    cases grow g fm fuel r' x.2 (cs'.drop ri) (d + 1) res.nconstants with
                    | none => rfl
                    | some y =>
                      simp only [Option.map_some, Option.bind_some]
                      split
                      · have hmf : m' = .fresh := by
                          rename_i hc
                          rw [hm'] at hc ⊢
                          cases hsm : g.splitmissing with
                          | true => rfl
                          | false => rw [hsm] at hc; simp [growChildren, Node.isNil] at hc
                        rw [hmf]
                        have := ih .fresh y.2 ((cs'.drop li).take (ri - li)) (d + 1) res.nconstants
                          (by simp [Node.fresh]) (.inr ⟨rfl, trivial, trivial⟩)
                        revert this
                        cases grow g fm fuel .fresh y.2 ((cs'.drop li).take (ri - li)) (d + 1)
                          res.nconstants with
                        | none => intro _; rfl
                        | some z =>
                          intro h
                          have h := congrArg (Option.map Prod.fst) h
                          simp only [Option.map_some, Option.some.injEq] at h
                          simp [prune, splits, h]
                      · have hpm : prune m' = m' := by
                          rw [hm']
                          cases g.splitmissing <;> simp [growChildren, Node.fresh, prune, splits]
                        simp [prune, splits, hpm]
      · simp [prune, splits]

/-- The first grown tree of the example meets the hypotheses and has something to prune. -/
example : ((grow exGrower exFM 7 .fresh () [4, 3, 2, 1, 0, 3] 0 0).bind fun r =>
      (grow exStop exFM 7 r.1 () [4, 3, 2, 1, 0, 3] 0 0).map fun r =>
        (r.1.isLeaf, (prune r.1).isLeaf)) = some (false, true) ∧ exStop.splitmissing = true := by
  decide +kernel

/-- C45 is false of the code: with missing branches requested, a tree grown on cases of which
none is missing gives a case that is missing the vote `""`, which is no category or number. -/
theorem c45_empty_missing_vote :
    ∃ root : Node ℚ, grow exGrower exFM 7 .fresh () [0, 1, 3] 0 0 = some (root, ()) ∧
      MatrixOk exFM [0, 1, 3] ∧ exGrower.splitmissing = true ∧
      landing exFM root 2 = some ([.M], "") := by
  have key : ((grow exGrower exFM 7 .fresh () [0, 1, 3] 0 0).bind fun r =>
      landing exFM r.1 2) = some ([.M], "") := by decide +kernel
  obtain ⟨⟨root, _⟩, h1, h2⟩ := Option.bind_eq_some_iff.1 key
  refine ⟨root, h1, ⟨fun f hf c hc => exFM_ok.valid f hf c ?_, exFM_ok.sound, exFM_ok.catwf,
    exFM_ok.named⟩, rfl, h2⟩
  revert c; decide

/-- C45, the part that holds: a case that is not missing anywhere on its way lands on a leaf
whose prediction was computed. Missing for the full property: cases missing at a node. -/
theorem c45_known_cases_partial {g : Grower K σ} {fm : FeatureMatrix K} {cases : List Nat}
    (hM : MatrixOk fm cases) (hS : SearchOk g fm P Q cases) {fuel : Nat} {st st' : σ} {root : Node K}
    (hP : P st) (hQ : Q 0) (h : grow g fm fuel .fresh st cases 0 0 = some (root, st'))
    (c : Nat) (p : List Dir) (q : String) (hc : landing fm root c = some (p, q))
    (hp : Dir.M ∉ p) :
    ∃ L, L.Perm (cases.filter fun c => (landing fm root c).map (·.1) == some p) ∧
        q = g.findPredicted L := by
  have hin : ∀ (n : Node K) x, landing fm n c = some x → x ∈ leavesOf n := by
    intro n
    induction n with
    | nil => intro x h; simp [landing] at h
    | mk coded fi l r m pred spl ihl ihr ihm =>
      intro x h
      rw [landing] at h
      rw [leavesOf]
      split
      · rename_i hs
        rw [if_pos hs] at h
        split at h
        · obtain ⟨y, hy, rfl⟩ := Option.map_eq_some_iff.1 h
          simp [ihl y hy]
        · obtain ⟨y, hy, rfl⟩ := Option.map_eq_some_iff.1 h
          simp [ihr y hy]
        · obtain ⟨y, hy, rfl⟩ := Option.map_eq_some_iff.1 h
          simp [ihm y hy]
        · cases h
      · rename_i hs
        rw [if_neg hs] at h
        cases h; simp
  rcases (c08_leaf_predictions hM hS hP hQ h).1 _ (hin root _ hc) with h | ⟨_, h2, _⟩
  · exact h
  · exact absurd (List.mem_of_getLast? h2) hp

/-- The hypotheses are met by a case of the example. -/
example : ((grow exGrower exFM 7 .fresh () [4, 3, 2, 1, 0, 3] 0 0).bind fun r =>
    landing exFM r.1 4) = some ([.L], "4") := by decide +kernel

end CloudForest
