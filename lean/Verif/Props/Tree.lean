import Verif.Lemmas.Tree

/-!
# C06, C07 and the tree part of C02: using a tree
-/

set_option linter.unusedSectionVars false

namespace CloudForest
variable {K : Type} [Field K] [LinearOrder K] [IsStrictOrderedRing K]

/-! ## A tree used in the examples -/

/-- Example tree on `exFM`: by code at the root (categories a and b left), by name below. -/
def exTree : Tree ℚ :=
  { root := .mk (some (.int 6)) 0
      (.mk none 0 (.mk none 0 .nil .nil .nil "x" none) (.mk none 0 .nil .nil .nil "y" none) .nil ""
        (some ⟨"f", false, .fin 0, ["a"]⟩))
      (.mk none 0 .nil .nil .nil "z" none)
      (.mk none 0 .nil .nil .nil "w" none) "" (some ⟨"f", false, .fin 0, ["a", "b"]⟩)
    target := "t", weight := .fin 2 }

theorem exTree_usable : Usable exFM [4, 3, 2, 1, 0, 3] exTree.root := by
  refine ⟨⟨.cat exCat, rfl, trivial, fun _ _ => rfl, exCat_valid⟩, ⟨⟨.cat exCat, rfl, fun _ _ => rfl,
    exCat_valid⟩, ⟨rfl, rfl⟩, ⟨rfl, rfl⟩, .inl rfl⟩, ⟨rfl, rfl⟩, .inr ⟨rfl, rfl⟩⟩

/-- C06. Voting on a list of cases returns, leaves the caller's list with the same cases, and
casts exactly one vote per listed case: the prediction of the leaf that case reaches by itself,
with the tree's weight. A case that is missing where there is no missing branch casts none. -/
theorem c06_one_vote_per_case (t : Tree K) (fm : FeatureMatrix K) (cases : List Nat)
    (h : Usable fm cases t.root) :
    ∃ votes cases', t.voteCases fm cases = some (votes, cases') ∧ cases'.Perm cases ∧
      votes.Perm (cases.filterMap fun c =>
        (landing fm t.root c).map fun x => ⟨c, x.2, t.voteWeight⟩) := by
  obtain ⟨vs, out, hr, hok⟩ := recurse_ok fm cases t.root cases 0 h (fun _ h => h)
  refine ⟨_, _, by rw [Tree.voteCases, hr]; rfl, hok.perm, ?_⟩
  have h1 := hok.votes.map fun x => (⟨x.1, x.2, t.voteWeight⟩ : Ballot K)
  rw [List.map_flatMap, List.map_filterMap] at h1
  convert h1 using 2
  · funext v
    split <;> simp
  · rename_i c _
    cases landing fm t.root c <;> rfl

/-- C06, weight: a tree votes with its own weight unless that is negative (or NaN), in which
case the weight is one. -/
theorem c06_weight (t : Tree K) :
    (∀ x, t.weight = .fin x → t.voteWeight = if 0 ≤ x then .fin x else .fin 1) := by
  intro x hx
  simp only [Tree.voteWeight, hx]
  by_cases h : (0 : K) ≤ x
  · rw [if_pos h, if_pos (show (XF.fin 0 : XF K) ≤ XF.fin x from h)]
  · rw [if_neg h, if_neg (show ¬ (XF.fin 0 : XF K) ≤ XF.fin x from h)]

/-- C06, order of the case list: rearranging the list only rearranges the votes. -/
theorem c06_order_irrelevant (t : Tree K) (fm : FeatureMatrix K) (cases cases₂ : List Nat)
    (h : Usable fm cases t.root) (h₂ : Usable fm cases₂ t.root) (hp : cases.Perm cases₂) :
    ∃ v v₂ o o₂, t.voteCases fm cases = some (v, o) ∧ t.voteCases fm cases₂ = some (v₂, o₂) ∧
      v.Perm v₂ := by
  obtain ⟨v, o, h1, _, p1⟩ := c06_one_vote_per_case t fm cases h
  obtain ⟨v₂, o₂, h2, _, p2⟩ := c06_one_vote_per_case t fm cases₂ h₂
  exact ⟨v, v₂, o, o₂, h1, h2, p1.trans ((hp.filterMap _).trans p2.symm)⟩

/-- C06, a case's votes do not depend on the other cases: the votes cast for `c` are one copy of
its own leaf's prediction per occurrence of `c`. -/
theorem c06_independent (t : Tree K) (fm : FeatureMatrix K) (cases : List Nat)
    (h : Usable fm cases t.root) (c : Nat) :
    ∃ votes cases', t.voteCases fm cases = some (votes, cases') ∧
      votes.filter (fun b => b.case == c) = match landing fm t.root c with
        | some x => List.replicate (cases.count c) ⟨c, x.2, t.voteWeight⟩
        | none => [] := by
  obtain ⟨v, o, h1, _, p1⟩ := c06_one_vote_per_case t fm cases h
  refine ⟨v, o, h1, ?_⟩
  have p2 := p1.filter (fun b => b.case == c)
  have key : ∀ l : List Nat, (l.filterMap fun c =>
      (landing fm t.root c).map fun x => (⟨c, x.2, t.voteWeight⟩ : Ballot K)).filter
        (fun b => b.case == c) = match landing fm t.root c with
        | some x => List.replicate (l.count c) ⟨c, x.2, t.voteWeight⟩
        | none => [] := by
    intro l
    induction l with
    | nil => cases landing fm t.root c <;> rfl
    | cons a l ih =>
      rw [List.filterMap_cons]
      by_cases hac : a = c
      · subst hac
        revert ih
        cases hL : landing fm t.root a with
        | none => simp
        | some x => intro ih; simp [ih, List.replicate_succ]
      · cases hL : landing fm t.root a with
        | none => simp [ih, List.count_cons, hac]
        | some x => simp [ih, List.count_cons, hac]
  rw [key] at p2
  revert p2
  cases landing fm t.root c with
  | none => intro p2; simpa using p2
  | some x => intro p2; simpa [List.perm_replicate] using p2

/-- The example tree is usable on a case list with repetitions and a missing case, and votes. -/
example : Usable exFM [4, 3, 2, 1, 0, 3] exTree.root ∧
    (landing exFM exTree.root 4 = some ([.L, .L], "x") ∧
     landing exFM exTree.root 3 = some ([.L, .R], "y") ∧
     landing exFM exTree.root 2 = some ([.M], "w") ∧
     landing exFM exTree.root 0 = some ([.R], "z")) :=
  ⟨exTree_usable, by decide +kernel⟩

/-- C07. The groups that `Partition` returns are the leaves of the tree: each group has its own
path, holds exactly the cases that reach the leaf at that path, comes with that leaf's
prediction, and no case that reaches a leaf is left out. `GetLeaves` returns the same groups. -/
theorem c07_partition (t : Tree K) (fm : FeatureMatrix K) (cases : List Nat)
    (hc : fm.allCases = some cases) (h : Usable fm cases t.root) :
    ∃ groups preds counts, ∃ paths : List (List Dir), t.partition fm = some (groups, preds) ∧
      t.getLeaves fm = some (groups.zip preds, counts) ∧
      groups.length = preds.length ∧ paths.length = groups.length ∧ paths.Nodup ∧
      (∀ i (hi : i < groups.length) (hi' : i < preds.length) (hi'' : i < paths.length),
        groups[i].Perm (cases.filter fun c => landing fm t.root c == some (paths[i], preds[i])) ∧
        (paths[i], preds[i]) ∈ leavesOf t.root) ∧
      (∀ c ∈ cases, ∀ x, landing fm t.root c = some x → x.1 ∈ paths) := by
  obtain ⟨vs, out, hr, hok⟩ := recurse_ok fm cases t.root cases 0 h (fun _ h => h)
  obtain ⟨ps, nd, fa, cov⟩ := hok.groups
  have hpart : t.partition fm = some ((vs.filter fun v => v.node.isLeaf).map (·.cases),
      (vs.filter fun v => v.node.isLeaf).map (·.node.predOf)) := by
    simp only [Tree.partition, hc, hr, Option.bind_eq_bind, Option.bind_some]
  have hget : ∃ counts, t.getLeaves fm = some
      ((vs.filter fun v => v.node.isLeaf).map fun v => (v.cases, v.node.predOf), counts) := by
    simp only [Tree.getLeaves, hc, hr, Option.bind_eq_bind, Option.bind_some]
    exact ⟨_, rfl⟩
  obtain ⟨counts, hget⟩ := hget
  refine ⟨_, _, counts, ps, hpart, by rw [hget, List.zip_map'], by simp, ?_, nd, ?_, cov⟩
  · rw [List.length_map, fa.length_eq]
  · intro i hi hi' hi''
    have := List.forall₂_iff_get.1 fa
    have h2 := this.2 i (by simpa using hi) hi''
    simpa using h2

/-- C07, agreement with voting: the votes of `Vote` are the members of the groups, each with
its group's prediction. -/
theorem c07_votes (t : Tree K) (fm : FeatureMatrix K) (cases : List Nat)
    (hc : fm.allCases = some cases) (h : Usable fm cases t.root) :
    ∃ groups preds votes, t.partition fm = some (groups, preds) ∧ t.vote fm = some votes ∧
      votes = (groups.zip preds).flatMap fun g => g.1.map fun c => ⟨c, g.2, t.voteWeight⟩ := by
  obtain ⟨vs, out, hr, hok⟩ := recurse_ok fm cases t.root cases 0 h (fun _ h => h)
  have hpart : t.partition fm = some ((vs.filter fun v => v.node.isLeaf).map (·.cases),
      (vs.filter fun v => v.node.isLeaf).map (·.node.predOf)) := by
    simp only [Tree.partition, hc, hr, Option.bind_eq_bind, Option.bind_some]
  have hvote : t.vote fm = some (vs.flatMap fun v =>
      if v.node.isLeaf then v.cases.map fun c => ⟨c, v.node.predOf, t.voteWeight⟩ else []) := by
    simp only [Tree.vote, Tree.voteCases, hc, hr, Option.bind_eq_bind, Option.bind_some]
  refine ⟨_, _, _, hpart, hvote, ?_⟩
  rw [List.zip_map', List.flatMap_map]
  clear hr hok hpart hvote
  induction vs with
  | nil => rfl
  | cons v vs ih =>
    rw [List.flatMap_cons, List.filter_cons, ih]
    by_cases hv : v.node.isLeaf = true
    · simp [hv]
    · simp [hv]

/-- C07, no case twice: every case belongs to at most one group, at most once. -/
theorem c07_disjoint (t : Tree K) (fm : FeatureMatrix K) (cases : List Nat)
    (hc : fm.allCases = some cases) (h : Usable fm cases t.root) :
    ∃ groups preds, t.partition fm = some (groups, preds) ∧ groups.flatten.Nodup := by
  obtain ⟨groups, preds, _, paths, h1, _, h3, h4, nd, h6, _⟩ := c07_partition t fm cases hc h
  refine ⟨groups, preds, h1, ?_⟩
  have hnd : cases.Nodup := by
    simp only [FeatureMatrix.allCases, Option.bind_eq_bind, Option.bind_eq_some_iff] at hc
    obtain ⟨f, _, hf⟩ := hc
    cases hf; exact List.nodup_range
  rw [List.nodup_flatten]
  constructor
  · intro l hl
    obtain ⟨i, hi, rfl⟩ := List.getElem_of_mem hl
    exact ((h6 i hi (h3 ▸ hi) (h4 ▸ hi)).1.nodup_iff).2 (hnd.filter _)
  · rw [List.pairwise_iff_getElem]
    intro i j hi hj hij c hci hcj
    have e1 := ((h6 i hi (h3 ▸ hi) (h4 ▸ hi)).1.mem_iff).1 hci
    have e2 := ((h6 j hj (h3 ▸ hj) (h4 ▸ hj)).1.mem_iff).1 hcj
    simp only [List.mem_filter, beq_iff_eq] at e1 e2
    have e3 := e1.2.symm.trans e2.2
    simp only [Option.some.injEq, Prod.mk.injEq] at e3
    exact absurd (nd.getElem_inj_iff.1 e3.1) (by omega)

/-- The example matrix and tree meet the hypotheses of C07. -/
example : exFM.allCases = some [0, 1, 2, 3, 4] ∧ Usable exFM [0, 1, 2, 3, 4] exTree.root ∧
    exTree.partition exFM = some ([[4, 1], [3], [0], [2]], ["x", "y", "z", "w"]) := by
  have hv : ∀ c ∈ [0, 1, 2, 3, 4], (Feature.cat (K := ℚ) exCat).ValidCase c := by
    intro c hc
    apply exCat_valid
    revert c; decide
  refine ⟨by decide, ⟨⟨.cat exCat, rfl, trivial, fun _ _ => rfl, hv⟩, ⟨⟨.cat exCat, rfl,
    fun _ _ => rfl, hv⟩, ⟨rfl, rfl⟩, ⟨rfl, rfl⟩, .inl rfl⟩, ⟨rfl, rfl⟩, .inr ⟨rfl, rfl⟩⟩,
    by decide +kernel⟩

/-- C02 on trees. Stripping the codes from a tree changes nothing that voting does: the same
votes in the same order, and the same rearrangement of the case list. -/
theorem c02_stripCodes (t : Tree K) (fm : FeatureMatrix K) (cases : List Nat)
    (hu : Usable fm cases t.root) (hd : CodesDecoded fm t.root) :
    Tree.voteCases { t with root := t.root.stripCodes } fm cases = t.voteCases fm cases := by
  have hleaf : ∀ n : Node K, n.stripCodes.isNil = n.isNil := by intro n; cases n <;> rfl
  have key : ∀ (n : Node K) (cs : List Nat) (d : Nat), Usable fm cases n → CodesDecoded fm n →
      (∀ c ∈ cs, c ∈ cases) →
      n.stripCodes.recurse fm cs d =
        (n.recurse fm cs d).map fun r => (r.1.map fun v => { v with node := v.node.stripCodes }, r.2) := by
    intro n
    induction n with
    | nil => intro cs d h; exact h.elim
    | mk coded fi l r m pred spl ihl ihr ihm =>
      intro cs d hu hd hcs
      obtain ⟨hd0, hdl, hdr, hdm⟩ := hd
      have hsplit : nodeSplit fm none fi spl cs = nodeSplit fm coded fi spl cs := by
        match coded with
        | none => rfl
        | some code =>
          obtain ⟨f, s, hf, hs, hwf, hdec, hfo⟩ := hd0 code rfl
          have hsp : splits (some code) spl = true := rfl
          obtain ⟨hn, _⟩ := (usable_split hsp).1 hu
          obtain ⟨f', hf', hfit, hms, hv⟩ := hn
          rw [hf] at hf'; cases hf'
          subst hs
          have := (c02_coded_eq_decoded fm f code s hwf hms hfit hdec hfo cs
            (fun c hc => hv c (hcs c hc))).1
          simp [nodeSplit, hf, this]
      by_cases hs : splits coded spl = true
      · obtain ⟨hn, hul, hur, hum⟩ := (usable_split hs).1 hu
        obtain ⟨sp, hsp, hok⟩ := nodeSplit_ok hn cs hcs
        have hmem : ∀ c, c ∈ sp.left ++ sp.missing ++ sp.right → c ∈ cases :=
          fun c hc => hcs c (hok.perm.mem_iff.1 hc)
        have el := ihl sp.left (d + 1) hul hdl (fun c hc => hmem c (by simp [hc]))
        have er := ihr sp.right (d + 1) hur hdr (fun c hc => hmem c (by simp [hc]))
        simp only [Node.stripCodes, Node.recurse, hsplit, hsp, Option.bind_eq_bind,
          Option.bind_some, el, er, hleaf]
        cases hL : l.recurse fm sp.left (d + 1) with
        | none => rfl
        | some vl =>
          cases hR : r.recurse fm sp.right (d + 1) with
          | none => rfl
          | some vr =>
            simp only [Option.map_some, Option.bind_some]
            by_cases hc : (decide (sp.missing.length > 0) && !m.isNil) = true
            · have hm : Usable fm cases m := by
                rcases hum with h | h
                · subst h; simp [Node.isNil] at hc
                · exact h
              have em := ihm sp.missing (d + 1) hm hdm (fun c hc => hmem c (by simp [hc]))
              simp only [hc, if_true, em]
              cases m.recurse fm sp.missing (d + 1) with
              | none => rfl
              | some vm => simp [Node.stripCodes]
            · simp only [hc, Bool.false_eq_true, if_false]
              simp [Node.stripCodes]
      · have hs : splits coded spl = false := by simpa using hs
        have h1 := nodeSplit_none (fm := fm) (fi := fi) hs cs
        simp only [Node.stripCodes, Node.recurse, hsplit, h1, Option.bind_eq_bind,
          Option.bind_some]
        rfl
  have hk := key t.root cases 0 hu hd (fun _ h => h)
  simp only [Tree.voteCases, hk, Option.bind_eq_bind]
  cases t.root.recurse fm cases 0 with
  | none => rfl
  | some r =>
    simp only [Option.map_some, Option.bind_some]
    congr 2
    rw [List.flatMap_map]
    congr 1
    funext v
    have h1 : v.node.stripCodes.isLeaf = v.node.isLeaf := by
      cases v.node with
      | nil => rfl
      | mk => simp [Node.stripCodes, Node.isLeaf, hleaf]
    have h2 : v.node.stripCodes.predOf = v.node.predOf := by cases v.node <;> rfl
    simp only [h1, h2]
    rfl

/-- The example tree satisfies the hypothesis on codes. -/
example : CodesDecoded exFM exTree.root := by
  refine ⟨?_, ⟨by simp, ⟨by simp, trivial, trivial, trivial⟩, ⟨by simp, trivial, trivial, trivial⟩,
    trivial⟩, ⟨by simp, trivial, trivial, trivial⟩, ⟨by simp, trivial, trivial, trivial⟩⟩
  intro code hc
  cases hc
  exact ⟨.cat exCat, _, rfl, rfl, CatMap.run_wf CatMap.wf_empty _, rfl, rfl⟩

end CloudForest
