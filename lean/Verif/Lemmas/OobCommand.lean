import Verif.Model.OobCommand
import Verif.Spec.OobCommand
import Verif.Lemmas.ApplyWhole
import Verif.Lemmas.BoostCommand
import Verif.Props.Oob

/-!
Votes of trees below whose leaves older trees may hang, out of their bags.
-/

set_option linter.unusedSectionVars false

namespace CloudForest
variable {K : Type} [Field K] [LinearOrder K] [IsStrictOrderedRing K]

/-! ## Trees with something below their leaves -/

theorem landing_prune (fm : FeatureMatrix K) (n : Node K) (c : Nat) : landing fm (prune n) c = landing fm n c := by
  induction n with
  | nil => rfl
  | mk coded fi l r m p s ihl ihr ihm =>
    by_cases hs : splits coded s = true
    · rw [prune, if_pos hs, landing, landing, if_pos hs, if_pos hs, ihl, ihr, ihm]
    · rw [prune, if_neg hs]
      simp only [landing, if_neg hs]

/-- What is heard is what the tree says. -/
theorem heard_landing (fm : FeatureMatrix K) (n : Node K) (c : Nat) {p : String} (h : n.heard fm c = some p) :
    ∃ q, landing fm n c = some (q, p) := by
  induction n with
  | nil => cases h
  | mk coded fi l r m pred s ihl ihr ihm =>
    by_cases hs : splits coded s = true
    · rw [Node.heard, if_pos hs] at h
      rw [landing, if_pos hs]
      cases hd : caseDir fm coded fi s c with
      | none => rw [hd] at h; cases h
      | some d =>
        rw [hd] at h
        cases d with
        | L => obtain ⟨q, e⟩ := ihl h; exact ⟨.L :: q, by simp [e]⟩
        | R => obtain ⟨q, e⟩ := ihr h; exact ⟨.R :: q, by simp [e]⟩
        | M => obtain ⟨q, e⟩ := ihm h; exact ⟨.M :: q, by simp [e]⟩
    · rw [Node.heard, if_neg hs] at h
      rw [landing, if_neg hs]
      split at h
      · cases h; exact ⟨[], rfl⟩
      · cases h

/-- All of it is heard if nothing hangs below the leaves. -/
theorem heard_all (fm : FeatureMatrix K) (n : Node K) (c : Nat) (hn : prune n = n) : n.heard fm c = (landing fm n c).map (·.2) := by
  induction n with
  | nil => rfl
  | mk coded fi l r m pred s ihl ihr ihm =>
    by_cases hs : splits coded s = true
    · rw [prune, if_pos hs] at hn
      injection hn with _ _ h1 h2 h3
      rw [Node.heard, if_pos hs, landing, if_pos hs, ihl h1, ihr h2, ihm h3]
      cases caseDir fm coded fi s c with
      | none => rfl
      | some d => cases d <;> simp only [Option.map_map] <;> rfl
    · rw [prune, if_neg hs] at hn
      injection hn with _ _ h1 h2 h3
      rw [Node.heard, if_neg hs, landing, if_neg hs, ← h1, ← h2]
      rfl

/-- Predictions of nodes marked by whether they would be taken for leaves. -/
def markNode : Node K → Node K
  | .nil => .nil
  | .mk coded fi l r m p s =>
    let q := if l.isNil && r.isNil then String.ofList ('+' :: p.toList) else ""
    if splits coded s then .mk coded fi (markNode l) (markNode r) (markNode m) q s else .mk coded 0 .nil .nil .nil q s

def unmark (s : String) : Option String :=
  match s.toList with
  | '+' :: p => some (String.ofList p)
  | _ => none

theorem unmark_plus (p : String) : unmark (String.ofList ('+' :: p.toList)) = some p := by
  unfold unmark
  rw [String.toList_ofList]
  simp

theorem unmark_empty : unmark "" = none := by decide

theorem markNode_isNil (n : Node K) : (markNode n).isNil = n.isNil := by
  cases n with
  | nil => rfl
  | mk coded fi l r m p s =>
    rw [markNode]
    split <;> rfl

theorem recurse_mark (fm : FeatureMatrix K) : ∀ (n : Node K) (cs : List Nat) (d : Nat),
    (markNode n).recurse fm cs d = (n.recurse fm cs d).map fun r => (r.1.map fun v => { v with node := markNode v.node }, r.2) := by
  intro n
  induction n with
  | nil => intro cs d; rfl
  | mk coded fi l r m p s ihl ihr ihm =>
    intro cs d
    by_cases hs : splits coded s = true
    · have e : markNode (.mk coded fi l r m p s) = .mk coded fi (markNode l) (markNode r) (markNode m)
          (if l.isNil && r.isNil then String.ofList ('+' :: p.toList) else "") s := by rw [markNode, if_pos hs]
      rw [e, Node.recurse, Node.recurse]
      simp only [Option.bind_eq_bind]
      cases hsp : nodeSplit fm coded fi s cs with
      | none => rfl
      | some o =>
        cases o with
        | none => simp [e]
        | some sp =>
          simp only [Option.bind_some]
          rw [ihl, ihr, markNode_isNil]
          cases l.recurse fm sp.left (d + 1) with
          | none => rfl
          | some vl =>
            simp only [Option.map_some, Option.bind_some]
            cases r.recurse fm sp.right (d + 1) with
            | none => rfl
            | some vr =>
              simp only [Option.map_some, Option.bind_some]
              split
              · rw [ihm]
                cases m.recurse fm sp.missing (d + 1) with
                | none => rfl
                | some vm => simp [e]
              · simp [e]
    · have e : markNode (.mk coded fi l r m p s) = .mk coded 0 .nil .nil .nil
          (if l.isNil && r.isNil then String.ofList ('+' :: p.toList) else "") s := by rw [markNode, if_neg hs]
      rw [e, Node.recurse, Node.recurse, splits_none hs, splits_none hs]
      simp [e]

theorem usable_mark {fm : FeatureMatrix K} {cases : List Nat} (n : Node K) (h : Usable fm cases (prune n)) :
    Usable fm cases (markNode n) := by
  induction n with
  | nil => exact h
  | mk coded fi l r m p s ihl ihr ihm =>
    by_cases hs : splits coded s = true
    · rw [prune, if_pos hs, usable_split hs] at h
      rw [markNode, if_pos hs, usable_split hs]
      refine ⟨h.1, ihl h.2.1, ihr h.2.2.1, ?_⟩
      rcases h.2.2.2 with h0 | h0
      · left
        cases m with
        | nil => rfl
        | mk => rw [prune] at h0; split at h0 <;> cases h0
      · exact .inr (ihm h0)
    · rw [markNode, if_neg hs, usable_leaf (by simpa using hs)]
      exact ⟨rfl, rfl⟩

theorem landing_mark (fm : FeatureMatrix K) (n : Node K) (c : Nat) :
    (landing fm (markNode n) c).bind (fun x => unmark x.2) = n.heard fm c := by
  induction n with
  | nil => rfl
  | mk coded fi l r m p s ihl ihr ihm =>
    by_cases hs : splits coded s = true
    · rw [markNode, if_pos hs, landing, if_pos hs, Node.heard, if_pos hs, ← ihl, ← ihr, ← ihm]
      cases caseDir fm coded fi s c with
      | none => rfl
      | some d =>
        cases d
        · cases landing fm (markNode l) c <;> rfl
        · cases landing fm (markNode r) c <;> rfl
        · cases landing fm (markNode m) c <;> rfl
    · rw [markNode, if_neg hs, landing, if_neg hs, Node.heard, if_neg hs]
      simp only [Option.bind_some]
      split
      · exact unmark_plus p
      · exact unmark_empty

/-- A visit votes if its mark says so. -/
theorem visit_mark (v : Visit K) :
    (if (markNode v.node).isLeaf then v.cases.map fun c => (c, (markNode v.node).predOf) else []).filterMap
      (fun x => (unmark x.2).map fun p => (x.1, p)) = if v.node.isLeaf then v.cases.map fun c => (c, v.node.predOf) else [] := by
  obtain ⟨n, cs, d⟩ := v
  simp only
  cases n with
  | nil => rfl
  | mk coded fi l r m p s =>
    have hp : (markNode (.mk coded fi l r m p s)).predOf = if l.isNil && r.isNil then String.ofList ('+' :: p.toList) else "" := by
      rw [markNode]
      split <;> rfl
    rw [hp]
    cases hl : (l.isNil && r.isNil) with
    | true =>
      have h1 : (markNode (.mk coded fi l r m p s)).isLeaf = true := by
        rw [markNode]
        split
        · rw [Node.isLeaf, markNode_isNil, markNode_isNil, hl]
        · rfl
      rw [h1, show (Node.mk coded fi l r m p s).isLeaf = true from hl]
      simp only [if_true, List.filterMap_map]
      rw [← List.filterMap_eq_map]
      refine List.filterMap_congr fun c _ => ?_
      simp only [Function.comp, unmark_plus]
      rfl
    | false =>
      rw [show (Node.mk coded fi l r m p s).isLeaf = false from hl]
      simp only [Bool.false_eq_true, if_false]
      split
      · simp [unmark_empty]
      · rfl

/-- What a tree casts on a list of cases. -/
theorem voteCases_heard {t : Tree K} {fm : FeatureMatrix K} {cases : List Nat} (hw : t.weight = .fin (-1))
    (hu : Usable fm cases (prune t.root)) :
    ∃ (fv : List (FVote K)) (out : List Nat), t.voteCases fm cases = some (fv.map FVote.ballot, out) ∧
      fv.Perm (cases.filterMap fun c => (t.root.heard fm c).map fun p => ⟨c, p, 1⟩) := by
  obtain ⟨vs, out, hr, hok⟩ := recurse_ok fm cases (markNode t.root) cases 0 (usable_mark _ hu) (fun _ h => h)
  rw [recurse_mark] at hr
  obtain ⟨⟨vs', out'⟩, h1, h2⟩ := Option.map_eq_some_iff.1 hr
  cases h2
  have h3 := hok.votes.filterMap fun x => (unmark x.2).map fun p => (x.1, p)
  rw [List.filterMap_flatMap, List.flatMap_map] at h3
  simp only [visit_mark] at h3
  rw [List.filterMap_filterMap] at h3
  have h4 : (cases.filterMap fun c => ((landing fm (markNode t.root) c).map fun x => (c, x.2)).bind fun x => (unmark x.2).map fun p => (x.1, p)) =
      cases.filterMap fun c => (t.root.heard fm c).map fun p => (c, p) := by
    refine List.filterMap_congr fun c _ => ?_
    rw [← landing_mark]
    cases landing fm (markNode t.root) c <;> rfl
  rw [h4] at h3
  refine ⟨(vs'.flatMap fun v => if v.node.isLeaf then v.cases.map fun c => (c, v.node.predOf) else []).map fun x => ⟨x.1, x.2, 1⟩, out', ?_, ?_⟩
  · have hvw : t.voteWeight = .fin 1 := by
      rw [Tree.voteWeight_say ⟨_, hw⟩, say_one hw]
    unfold Tree.voteCases
    rw [h1]
    simp only [Option.bind_eq_bind, Option.bind_some, hvw, List.map_map, List.map_flatMap]
    congr 2
    apply List.flatMap_congr
    intro v _
    split
    · rw [List.map_map]
      rfl
    · rfl
  · have := h3.map fun x => (⟨x.1, x.2, 1⟩ : FVote K)
    rw [List.map_filterMap] at this
    simpa [Option.map_map, Function.comp_def] using this

/-! ## Out of the bags -/

/-- The votes that should be cast. -/
def heardVotes (fm : FeatureMatrix K) (n : Nat) (runs : List (Tree K × List Nat)) : List (FVote K) :=
  runs.flatMap fun r => (List.range n).filterMap fun c => (saysOutside fm r c).map fun p => ⟨c, p, 1⟩

theorem oob_heard (nt : NumText K) {fm : FeatureMatrix K} {n : Nat} : ∀ (runs : List (Tree K × List Nat)),
    (∀ r ∈ runs, (∀ c ∈ r.2, c < n) ∧ r.1.weight = .fin (-1) ∧ Usable fm (List.range n) (prune r.1.root)) →
    ∃ fv : List (FVote K), fv.Perm (heardVotes fm n runs) ∧ ∀ bb : Box K, oobVotes nt fm n bb runs = bb.castVotes nt (fv.map FVote.ballot) := by
  intro runs
  induction runs with
  | nil => intro _; exact ⟨[], .nil, fun bb => (Box.castVotes_nil nt bb).symm⟩
  | cons r runs ih =>
    intro h
    obtain ⟨hlt, hw, hu⟩ := h r (by simp)
    obtain ⟨fv, out, h1, h2⟩ := voteCases_heard (cases := (List.range n).filter fun i => decide (i ∉ r.2)) hw
      (usable_mono (fun c hc => (List.mem_filter.1 hc).1) _ hu)
    obtain ⟨fv', h3, h4⟩ := ih fun t ht => h t (by simp [ht])
    refine ⟨fv ++ fv', ?_, ?_⟩
    · have : heardVotes fm n (r :: runs) = ((List.range n).filter fun i => decide (i ∉ r.2)).filterMap
          (fun c => (r.1.root.heard fm c).map fun p => (⟨c, p, 1⟩ : FVote K)) ++ heardVotes fm n runs := by
        simp only [heardVotes, List.flatMap_cons, List.filterMap_filter]
        congr 1
        apply List.filterMap_congr
        intro c _
        unfold saysOutside
        by_cases hc : c ∈ r.2 <;> simp [hc]
      rw [this]
      exact h2.append h3
    · intro bb
      unfold oobVotes at h4 ⊢
      rw [List.foldlM_cons, oobCases_eq n r.2 hlt, List.map_append, Box.castVotes_append]
      simp only [Option.bind_eq_bind, Option.bind_some, h1]
      cases bb.castVotes nt (fv.map FVote.ballot) with
      | none => rfl
      | some bb => exact h4 bb

theorem heardVotes_cons (fm : FeatureMatrix K) (n : Nat) (r : Tree K × List Nat) (runs : List (Tree K × List Nat)) :
    heardVotes fm n (r :: runs) = ((List.range n).filterMap fun c => (saysOutside fm r c).map fun p => ⟨c, p, 1⟩) ++ heardVotes fm n runs := by
  simp [heardVotes]

theorem heard_one (g : Nat → Option String) {n i : Nat} (hi : i < n) :
    ((List.range n).filterMap fun c => (g c).map fun p => (⟨c, p, 1⟩ : FVote K)).filter (fun v => decide (v.case = i)) =
      ((g i).map fun p => (⟨i, p, 1⟩ : FVote K)).toList := by
  rw [← filterMap_range_case n i hi (fun c => (g c).map fun p => (⟨c, p, 1⟩ : FVote K)), List.filter_filterMap]
  apply List.filterMap_congr
  intro c _
  cases g c <;> by_cases h : c = i <;> simp [h]

theorem heard_weight (fm : FeatureMatrix K) {n i : Nat} (hi : i < n) (p : String) (runs : List (Tree K × List Nat)) :
    weightFor (heardVotes fm n runs) i p = (votesOutside fm runs i p : K) := by
  induction runs with
  | nil => simp [weightFor, heardVotes, votesOutside]
  | cons r runs ih =>
    have hsplit : ∀ l : List (FVote K), l.filter (fun v => decide (v.case = i ∧ v.pred = p)) =
        (l.filter fun v => decide (v.case = i)).filter fun v => decide (v.pred = p) := by
      intro l
      rw [List.filter_filter]
      apply List.filter_congr
      intro v _
      rw [Bool.decide_and, Bool.and_comm]
    unfold weightFor votesOutside at ih ⊢
    rw [heardVotes_cons, List.filter_append, List.map_append, List.sum_append, ih, hsplit, heard_one _ hi, List.filter_cons]
    cases hs : saysOutside fm r i with
    | none => simp
    | some q => by_cases hq : q = p <;> simp [hq, add_comm]

theorem heard_numbers (nt : NumText K) (fm : FeatureMatrix K) {n i : Nat} (hi : i < n) (runs : List (Tree K × List Nat)) (value : Tree K × List Nat → K)
    (hv : ∀ r ∈ runs, ∀ p, saysOutside fm r i = some p → nt.parse p.toList = some (.fin (value r))) :
    numVotes (fun s => nt.parse s.toList) (heardVotes fm n runs) i =
      ((runs.filter fun r => (saysOutside fm r i).isSome).map value).map fun y => (y, 1) := by
  induction runs with
  | nil => rfl
  | cons r runs ih =>
    have hf : ∀ l : List (FVote K), numVotes (fun s => nt.parse s.toList) l i =
        numVotes (fun s => nt.parse s.toList) (l.filter fun v => decide (v.case = i)) i := by
      intro l
      induction l with
      | nil => rfl
      | cons v l ih =>
        by_cases h : v.case = i
        · rw [List.filter_cons, if_pos (by simpa using h)]
          simp only [numVotes, List.filterMap_cons] at ih ⊢
          rw [ih]
        · rw [List.filter_cons, if_neg (by simpa using h), ← ih]
          simp [numVotes, h]
    have happ : ∀ l l' : List (FVote K), numVotes (fun s => nt.parse s.toList) (l ++ l') i =
        numVotes (fun s => nt.parse s.toList) l i ++ numVotes (fun s => nt.parse s.toList) l' i := by
      intro l l'
      unfold numVotes
      exact List.filterMap_append
    rw [heardVotes_cons, happ, ih fun r hr => hv r (List.mem_cons_of_mem _ hr), hf, heard_one _ hi, List.filter_cons]
    cases hs : saysOutside fm r i with
    | none => simp [numVotes]
    | some q => simp [numVotes, hv r List.mem_cons_self q hs]

theorem mem_heard {fm : FeatureMatrix K} {n : Nat} {runs : List (Tree K × List Nat)} {v : FVote K} (h : v ∈ heardVotes fm n runs) :
    v.case < n ∧ v.weight = 1 ∧ ∃ r ∈ runs, saysOutside fm r v.case = some v.pred := by
  simp only [heardVotes, List.mem_flatMap, List.mem_filterMap, List.mem_range] at h
  obtain ⟨r, hr, c, hc, h⟩ := h
  obtain ⟨p, hp, rfl⟩ := Option.map_eq_some_iff.1 h
  exact ⟨hc, rfl, r, hr, hp⟩

/-! ## New tree objects -/

theorem turns_new {τ : Type} (r : RunSetup K τ) (g : Grower K (SplitState K)) : ∀ (left started : Nat) (pick : Nat → Nat)
    (running : List (WorkerState K)) (out : List (Tree K × List Nat)), r.nTrees ≤ started → (∀ s ∈ running, s.root = .fresh) →
    r.turns g left started pick running = some out → ∀ x ∈ out, prune x.1.root = x.1.root := by
  intro left
  induction left with
  | zero =>
    intro started pick running out hst hs h
    cases running with
    | nil => rw [RunSetup.turns] at h; cases h; simp
    | cons w ws => rw [RunSetup.turns] at h; cases h
  | succ left ih =>
    intro started pick running out hst hs h
    cases running with
    | nil => rw [RunSetup.turns] at h; cases h; simp
    | cons w ws =>
      rw [RunSetup.turns] at h
      simp only [Option.bind_eq_bind, if_neg (show ¬ started < r.nTrees by omega)] at h
      obtain ⟨s, h1, h⟩ := Option.bind_eq_some_iff.1 h
      obtain ⟨⟨t, s'⟩, h2, h⟩ := Option.bind_eq_some_iff.1 h
      obtain ⟨rest, h3, h⟩ := Option.bind_eq_some_iff.1 h
      cases h
      intro x hx
      rcases List.mem_cons.1 hx with rfl | hx
      · unfold RunSetup.tree at h2
        obtain ⟨⟨bag, rng⟩, -, h2⟩ := Option.bind_eq_some_iff.1 h2
        obtain ⟨oob, -, h2⟩ := Option.bind_eq_some_iff.1 h2
        obtain ⟨⟨root, st⟩, h4, h2⟩ := Option.bind_eq_some_iff.1 h2
        cases h2
        rw [hs s (List.mem_of_getElem? h1)] at h4
        exact prune_grown h4
      · exact ih started _ _ rest hst (fun s hs' => hs s (List.mem_of_mem_eraseIdx hs')) h3 x hx

theorem starts_fresh {τ : Type} (r : RunSetup K τ) (nNonMissing nCats : Nat) (cans : List Nat) (own global : Nat → Rng) :
    ∀ (l : List Nat) (ws : List (WorkerState K)), l.mapM (fun w => r.start nNonMissing nCats cans (own w) (global w)) = some ws →
    ∀ s ∈ ws, s.root = .fresh := by
  intro l
  induction l with
  | nil => intro ws h; cases h; simp
  | cons w l ih =>
    intro ws h
    rw [List.mapM_cons] at h
    obtain ⟨s, h1, h⟩ := Option.bind_eq_some_iff.1 h
    obtain ⟨ss, h2, h⟩ := Option.bind_eq_some_iff.1 h
    cases h
    intro x hx
    rcases List.mem_cons.1 hx with rfl | hx
    · unfold RunSetup.start at h1
      simp only at h1
      split at h1
      · obtain ⟨cs, -, h1⟩ := Option.bind_eq_some_iff.1 h1
        cases h1
        rfl
      · cases h1
        rfl
    · exact ih ss h2 x hx

theorem runCores_new {τ : Type} {r : RunSetup K τ} {g : Grower K (SplitState K)} {nCores nNonMissing nCats : Nat} {cans : List Nat}
    {own global : Nat → Rng} {pick : Nat → Nat} {out : List (Tree K × List Nat)} (hn : r.nTrees ≤ nCores)
    (h : r.runCores g nCores nNonMissing nCats cans own global pick = some out) : ∀ x ∈ out, prune x.1.root = x.1.root := by
  unfold RunSetup.runCores at h
  obtain ⟨ws, h1, h⟩ := Option.bind_eq_some_iff.1 h
  exact turns_new r g _ _ _ _ out hn (starts_fresh r _ _ _ _ _ _ _ h1) h

/-! ## The report -/

theorem oobReport_eq {nt : NumText K} {text : Text} {fm : FeatureMatrix K} (hp : parseAFM nt text = some fm)
    (hn : (fm.data.map Feature.name).Nodup) {F : Feature K} (hF : F ∈ fm.data) {target : String} (ht : F.name = target)
    (hlen : F.length = fm.caseLabels.length) (bb : Box K) (counted shown : Nat → Option String) {e : XF K}
    (he : bb.error counted F = some e) (hs : ∀ c < fm.caseLabels.length, ∃ p, shown c = some p)
    (hy : ∀ c < fm.caseLabels.length, ∃ y, F.getStr nt c = some y) :
    ∃ lines, oobReport nt target text bb counted shown = some (e, lines) ∧ ReportsAll nt fm F shown lines := by
  obtain ⟨i, h1, h2⟩ := target_found hp hn hF
  obtain ⟨lines, h3, h4, h5⟩ := mapM_total (l := List.range fm.caseLabels.length) (g := fun i => do
    let l ← fm.caseLabels[i]?
    let result ← shown i
    let actual ← F.getStr nt i
    some (l, result, actual)) (by
      intro c hc
      have hc := List.mem_range.1 hc
      obtain ⟨p, hp⟩ := hs c hc
      obtain ⟨y, hy⟩ := hy c hc
      exact ⟨(fm.caseLabels[c], p, y), by simp [List.getElem?_eq_getElem hc, hp, hy]⟩)
  refine ⟨lines, ?_, by rw [h4, List.length_range], fun c hc => ?_⟩
  · unfold oobReport
    rw [hp, ← ht]
    simp only [Option.bind_eq_bind, Option.bind_some, h1, h2, he, hlen] at h3 ⊢
    rw [h3]
    rfl
  · obtain ⟨p, hp⟩ := hs c hc
    obtain ⟨y, hy⟩ := hy c hc
    refine ⟨fm.caseLabels[c], p, y, ?_, List.getElem?_eq_getElem hc, hp, hy⟩
    rw [h5 c c (List.getElem?_range hc)]
    simp [List.getElem?_eq_getElem hc, hp, hy]

end CloudForest
