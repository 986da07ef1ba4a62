import Verif.Lemmas.OtherData
import Verif.Spec.TreeSize
import Verif.Lemmas.Matrix
import Verif.Lemmas.Libsvm
import Verif.Props.Commands

/-!
# C146: the size of trees and files

How many nodes a tree can have, and how many lines are written for it.
-/

set_option linter.unusedSectionVars false

namespace CloudForest
variable {K : Type} [Field K] [LinearOrder K] [IsStrictOrderedRing K] {σ τ : Type} {P : σ → Prop} {Q : Nat → Prop}

/-! ## Proof -/

/-- Each split needs cases for one more leaf. -/
theorem Grown.splitCount_le {g : Grower K σ} {fm : FeatureMatrix K} {cases : List Nat} (hA : Admissible g fm P Q cases)
    {b : Bool} {n : Node K} {cs : List Nat} {d : Nat} (h : Grown g fm P Q b n cs d) (hcs : ∀ c ∈ cs, c ∈ cases) :
    splitCount n = 0 ∨ (splitCount n + 1) * g.leafSize ≤ cs.length := by
  induction h with
  | absent => exact .inl rfl
  | empty => exact .inl rfl
  | leaf => exact .inl rfl
  | @split b cs d nc st st' res code f spl sp l r m hd hlen hP hQ hb hs hf hfit hdec hsp hl hr hm ihl ihr ihm =>
    have hmem : ∀ c, c ∈ sp.left ++ sp.missing ++ sp.right → c ∈ cases := fun c hc => hcs c (hsp.perm.mem_iff.1 hc)
    obtain ⟨a1, a2⟩ := hA _ _ _ _ _ _ _ hP hQ hcs hb hs hf
    obtain ⟨c1, c2⟩ := counts_of_split hf hsp
    have hlen := hsp.perm.length_eq
    simp only [List.length_append] at hlen
    have kl := ihl fun c hc => hmem c (by simp [hc])
    have kr := ihr fun c hc => hmem c (by simp [hc])
    have km := ihm fun c hc => hmem c (by simp [hc])
    right
    have el : splitCount l * g.leafSize + g.leafSize ≤ sp.left.length := by
      rcases kl with h | h
      · rw [h]; omega
      · rw [Nat.add_mul, Nat.one_mul] at h; exact h
    have er : splitCount r * g.leafSize + g.leafSize ≤ sp.right.length := by
      rcases kr with h | h
      · rw [h]; omega
      · rw [Nat.add_mul, Nat.one_mul] at h; exact h
    have em : splitCount m * g.leafSize ≤ sp.missing.length := by
      rcases km with h | h
      · rw [h]; omega
      · rw [Nat.add_mul, Nat.one_mul] at h; omega
    have hs : splitCount (.mk (some code) res.fi l r m "" (some spl)) = 1 + splitCount l + splitCount r + splitCount m := rfl
    rw [hs]
    simp only [Nat.add_mul, Nat.one_mul]
    omega

/-- Without missing branches each split adds a leaf, with them two. -/
theorem Grown.counts {g : Grower K σ} {fm : FeatureMatrix K} {b : Bool} {n : Node K} {cs : List Nat} {d : Nat}
    (h : Grown g fm P Q b n cs d) :
    (n.NoMissing → n ≠ .nil → (leavesOf n).length = splitCount n + 1 ∧ nodesOf n = 2 * splitCount n + 1) ∧
    (g.splitmissing = true → (leavesOf n).length = 2 * splitCount n + 1 ∧ nodesOf n = 3 * splitCount n + 1) := by
  induction h with
  | absent hsm => exact ⟨fun _ h => absurd rfl h, fun h => by rw [hsm] at h; cases h⟩
  | empty hsm => exact ⟨fun _ _ => ⟨rfl, rfl⟩, fun _ => ⟨rfl, rfl⟩⟩
  | leaf => exact ⟨fun _ _ => ⟨rfl, rfl⟩, fun _ => ⟨rfl, rfl⟩⟩
  | @split b cs d nc st st' res code f spl sp l r m hd hlen hP hQ hb hs hf hfit hdec hsp hl hr hm ihl ihr ihm =>
    have e1 : splitCount (.mk (some code) res.fi l r m "" (some spl)) = 1 + splitCount l + splitCount r + splitCount m := rfl
    have e2 : nodesOf (.mk (some code) res.fi l r m "" (some spl)) = 1 + nodesOf l + nodesOf r + nodesOf m := rfl
    have e3 : (leavesOf (.mk (some code) res.fi l r m "" (some spl))).length =
        (leavesOf l).length + (leavesOf r).length + (leavesOf m).length := by
      rw [leavesOf, if_pos (by rfl)]
      simp
      omega
    rw [e1, e2, e3]
    refine ⟨fun h _ => ?_, fun h => ?_⟩
    · obtain ⟨h0, h1, h2⟩ := h
      have k1 := ihl.1 h1 hl.not_nil
      have k2 := ihr.1 h2 hr.not_nil
      cases m with
      | nil =>
        have : splitCount (.nil : Node K) = 0 ∧ nodesOf (.nil : Node K) = 0 ∧ (leavesOf (.nil : Node K)).length = 0 := ⟨rfl, rfl, rfl⟩
        omega
      | mk => cases h0
    · have := ihl.2 h
      have := ihr.2 h
      have := ihm.2 h
      omega

theorem height_le_splitCount : ∀ n : Node K, height n ≤ splitCount n := by
  intro n
  induction n with
  | nil => exact Nat.le_refl 0
  | mk coded fi l r m pred spl ihl ihr ihm =>
    rw [height, splitCount]
    split
    · have : max (height l) (max (height r) (height m)) ≤ splitCount l + splitCount r + splitCount m := by omega
      omega
    · exact Nat.le_refl 0

/-! ## Lines -/

theorem noLine_count {s : Text} (h : '\n' ∉ s) : s.count '\n' = 0 := List.count_eq_zero.2 h

/-- One line is written for a node. -/
theorem writeNode_lines {nt : NumText K} {ord : Splitter K → List String} (hord : ∀ s : Splitter K, (ord s).Perm s.left)
    {pred : String} (hp : Plain pred.toList) {spl : Option (Splitter K)} (hs : ∀ s, spl = some s → s.Writable nt) {path : Text}
    (hpath : '\n' ∉ path) : (writeNode nt ord pred spl path).count '\n' = 1 := by
  unfold writeNode
  rw [List.count_append, List.count_append, List.count_append, List.count_append, noLine_count hpath]
  have h1 : (if pred ≠ "" then ",PRED=".toList ++ pred.toList else []).count '\n' = 0 := by
    split
    · rw [List.count_append, noLine_count hp.noline]; decide
    · rfl
  rw [h1]
  cases spl with
  | none =>
    show List.count '\n' "NODE=".toList + 0 + 0 + List.count '\n' ([] : List Char) + List.count '\n' ['\n'] = 1
    decide
  | some s =>
    obtain ⟨k1, k2, k3⟩ := hs s rfl
    simp only [List.count_append, noLine_count k1.noline]
    cases hn : s.numerical with
    | true =>
      have := (k2 hn).2.1.noline
      simp only [if_true, List.count_append, noLine_count this]
      decide
    | false =>
      have hj : '\n' ∉ describeMap (ord s) := by
        unfold describeMap
        intro h
        simp only [List.cons_append, List.mem_cons, List.mem_append, List.not_mem_nil, or_false] at h
        rcases h with h | h | h
        · exact absurd h (by decide)
        · rcases mem_joinC h with h | ⟨p, hp, h⟩
          · exact absurd h (by decide)
          · obtain ⟨k, hk, rfl⟩ := List.mem_map.1 hp
            exact ((k3 hn).2.2 k ((hord s).mem_iff.1 hk)).1.noline h
        · exact absurd h (by decide)
      simp only [Bool.false_eq_true, if_false, List.count_append, noLine_count hj]
      decide

/-- How many lines are written for the nodes of a tree: the right branch is written a second time in place of the missing one. -/
def nodeLines : Node K → Nat
  | .nil => 0
  | .mk _ _ l r m _ spl =>
    if spl.isSome then 1 + nodeLines l + nodeLines r + (if m.isNil then 0 else nodeLines r) else 1

theorem writeNodes_lines {nt : NumText K} {ord : Splitter K → List String} (hord : ∀ s : Splitter K, (ord s).Perm s.left) :
    ∀ (n : Node K) (path : Text), n ≠ .nil → n.Writable nt → '\n' ∉ path →
      ∃ text, writeNodes nt ord n path = some text ∧ text.count '\n' = nodeLines n := by
  intro n
  induction n with
  | nil => intro _ h; exact absurd rfl h
  | mk coded fi l r m pred spl ihl ihr ihm =>
    rintro path - ⟨w1, w2, w3, w4, w5, w6⟩ hpath
    have hp : ∀ c : Char, c ≠ '\n' → '\n' ∉ path ++ [c] := by
      intro c hc h
      rcases List.mem_append.1 h with h | h
      · exact hpath h
      · exact hc (List.mem_singleton.1 h).symm
    have child : ∀ (k : Node K) (q : Text), ('\n' ∉ q) → (k ≠ .nil → k.Writable nt → '\n' ∉ q →
        ∃ text, writeNodes nt ord k q = some text ∧ text.count '\n' = nodeLines k) → k.Writable nt →
        ∃ text, (if spl.isSome && !k.isNil then writeNodes nt ord k q else some []) = some text ∧
          text.count '\n' = if spl.isSome then nodeLines k else 0 := by
      intro k q hq ih hw
      cases spl with
      | none => exact ⟨[], rfl, rfl⟩
      | some s =>
        cases k with
        | nil => exact ⟨[], rfl, rfl⟩
        | mk => exact ih (by simp) hw hq
    obtain ⟨tl, l1, l2⟩ := child l _ (hp 'L' (by decide)) (fun a b c => ihl _ a b c) w2
    obtain ⟨tr, r1, r2⟩ := child r _ (hp 'R' (by decide)) (fun a b c => ihr _ a b c) w3
    have third : ∃ text, (if spl.isSome && !m.isNil then writeNodes nt ord r (path ++ ['M']) else some []) = some text ∧
        text.count '\n' = if spl.isSome then (if m.isNil then 0 else nodeLines r) else 0 := by
      cases spl with
      | none => exact ⟨[], rfl, rfl⟩
      | some s =>
        cases m with
        | nil => exact ⟨[], rfl, rfl⟩
        | mk =>
          have hr : r ≠ .nil := by
            rintro rfl
            exact absurd (w5 rfl) (by simp [Node.isNil])
          exact ihr _ hr w3 (hp 'M' (by decide))
    obtain ⟨tm, m1, m2⟩ := third
    refine ⟨writeNode nt ord pred spl path ++ tl ++ tr ++ tm, ?_, ?_⟩
    · rw [writeNodes, l1, r1, m1]
      rfl
    · have hw : ∀ s, spl = some s → s.Writable nt := by
        rintro s rfl
        exact w6
      simp only [List.count_append, writeNode_lines hord w1 hw hpath, l2, r2, m2, nodeLines]
      cases spl <;> simp

/-- Without missing branches there is a line for each node. -/
theorem nodeLines_eq {fm : FeatureMatrix K} {nt : NumText K} : ∀ {n : Node K}, CodesDecoded fm n → n.Writable nt → n.NoMissing →
    nodeLines n = nodesOf n := by
  intro n
  induction n with
  | nil => intro _ _ _; rfl
  | mk coded fi l r m pred spl ihl ihr ihm =>
    rintro ⟨h1, h2, h3, h4⟩ ⟨w1, w2, w3, w4, w5, w6⟩ ⟨n1, n2, n3⟩
    cases m with
    | mk => cases n1
    | nil =>
      cases spl with
      | none =>
        have : coded = none := by
          cases coded with
          | none => rfl
          | some code =>
            obtain ⟨f, s, -, e, -⟩ := h1 code rfl
            cases e
        subst this
        rfl
      | some s =>
        have hs : splits coded (some s) = true := by unfold splits; simp
        rw [nodeLines, nodesOf, if_pos hs, ihl h2 w2 n2, ihr h3 w3 n3]
        rfl

/-- One line for the header of a tree, and those of its nodes. -/
theorem recordTrees_lines {nt : NumText K} {ord : Splitter K → List String} (hord : ∀ s : Splitter K, (ord s).Perm s.left)
    (progress : Bool) : ∀ (trees : List (Tree K)) (k : Nat),
    (∀ t ∈ trees, t.root ≠ .nil ∧ t.root.Writable nt ∧ Plain t.target.toList ∧ t.weight = .fin (-1)) →
    ∃ text, recordTrees nt ord progress k trees = some text ∧ text.count '\n' = (trees.map fun t => 1 + nodeLines t.root).sum := by
  intro trees
  induction trees with
  | nil => intro k _; exact ⟨[], rfl, rfl⟩
  | cons t ts ih =>
    intro k h
    obtain ⟨h1, h2, h3, h4⟩ := h t List.mem_cons_self
    obtain ⟨tx, e1, e2⟩ := writeNodes_lines hord t.root ['*'] h1 h2 (by decide)
    obtain ⟨ty, e3, e4⟩ := ih (if progress then k + 1 else k) fun t ht => h t (List.mem_cons_of_mem _ ht)
    refine ⟨writeTreeHeader nt k t.target t.weight ++ tx ++ ty, ?_, ?_⟩
    · rw [recordTrees, writeTree, e1]
      simp only [Option.bind_eq_bind, Option.bind_some, e3]
    · have hh : (writeTreeHeader nt k t.target t.weight).count '\n' = 1 := by
        have hneg : ¬ ((XF.fin 0 : XF K) ≤ .fin (-1)) := by
          intro h
          have : (0 : K) ≤ -1 := h
          linarith
        unfold writeTreeHeader
        rw [h4, if_neg hneg]
        have hk : '\n' ∉ fmtNat k := fun h => absurd (fmtNat_digit h) (by decide)
        simp only [List.count_append, noLine_count hk, noLine_count h3.noline]
        decide
      rw [List.count_append, List.count_append, hh, e2, e4, List.map_cons, List.sum_cons]

theorem sum_map_le_mul {α : Type} {f : α → Nat} {b : Nat} : ∀ l : List α, (∀ x ∈ l, f x ≤ b) → (l.map f).sum ≤ l.length * b := by
  intro l
  induction l with
  | nil => intro _; simp
  | cons a l ih =>
    intro h
    have h1 := h a List.mem_cons_self
    have h2 := ih fun x hx => h x (List.mem_cons_of_mem _ hx)
    rw [List.map_cons, List.sum_cons, List.length_cons, Nat.add_mul, Nat.one_mul]
    omega

/-! ## C146 -/

/-- **C146**, the trees of a run: a tree that splits at all has so many leaves below its left and right branches that
`leafSize` cases of the bag fall to each; so the number of splits, and with it the depth, is limited by the number of
samples. Without missing branches there is one leaf more than splits, with them one more for each split. -/
theorem c146_splits {r : RunSetup K τ} {L : TargetLaws r.T r.all} {good : τ → Prop} {cans : List Nat}
    (hr : r.Ok L good cans) (hv : ¬ (r.o.vet = true ∧ r.o.evaloob = true)) {nCats : Nat} (hok : L.Ok (newAllocs nCats))
    (own global : Rng) {out : List (Tree K × List Nat)}
    (h : r.run r.grower (bagKnown r.missing).length nCats cans own global = some out) :
    ∀ x ∈ out, (splitCount (prune x.1.root) = 0 ∨ (splitCount (prune x.1.root) + 1) * r.o.leafSize ≤ r.nSamples) ∧
      height (prune x.1.root) ≤ splitCount (prune x.1.root) ∧
      (leavesOf (prune x.1.root)).length = (if r.splitmissing then 2 else 1) * splitCount (prune x.1.root) + 1 ∧
      nodesOf (prune x.1.root) = (if r.splitmissing then 3 else 2) * splitCount (prune x.1.root) + 1 := by
  intro x hx
  obtain ⟨h1, h2, st, st', c5, c6, c7, c8⟩ := ((c119_run hr hv hok own global).2 out h).2 x hx
  obtain ⟨a1, a2, -⟩ := treeGrower_search_any hr.setting r.findPredicted r.maxDepth r.splitmissing
  have hall : ∀ c ∈ x.2, c ∈ r.all := fun c h => r.mem_all (h2 c h)
  have hg := (grow_grown hr.matrix a1 _ 0 "" _ x.2 0 0 _ _ ⟨c5, c6, c7⟩ (Nat.zero_le _) hall c8).2 false
  refine ⟨?_, height_le_splitCount _, ?_⟩
  · rcases hg.splitCount_le a2 hall with h | h
    · exact .inl h
    · exact .inr (Nat.le_trans h h1.1)
  · cases hsm : r.splitmissing with
    | false =>
      have := hg.counts.1 (grow_noMissing (g := r.freeGrower) hsm _ 0 "" _ _ 0 0 _ _ c8) hg.not_nil
      simp only [Bool.false_eq_true, if_false]
      omega
    | true =>
      have := hg.counts.2 hsm
      simp only [if_true]
      omega

/-- **C146**, the file of a run without missing branches: one line for each tree and one for each node. So it has at most
`2 · max 1 (nSamples / leafSize)` lines for each tree. -/
theorem c146_file_partial {r : RunSetup K τ} {L : TargetLaws r.T r.all} {good : τ → Prop} {cans : List Nat}
    (hr : r.Ok L good cans) (hv : ¬ (r.o.vet = true ∧ r.o.evaloob = true)) (hsm : r.splitmissing = false) {nCats : Nat}
    (hok : L.Ok (newAllocs nCats)) (own global : Rng) {nt : NumText K} (hnt : ∀ x, nt.Faithful x)
    (ht : ∀ f ∈ r.fm.data, f.Tidy) (hp : ∀ cs, Plain (r.findPredicted cs).toList) (htarget : Plain r.target.toList)
    (ord : Splitter K → List String) (hord : ∀ s : Splitter K, (ord s).Perm s.left) (progress : Bool)
    {out : List (Tree K × List Nat)} (h : r.run r.grower (bagKnown r.missing).length nCats cans own global = some out) :
    ∃ text, growforestFile nt ord progress r.target none (out.map (·.1)) = some text ∧
      text.count '\n' = (out.map fun x => 1 + nodesOf (prune x.1.root)).sum ∧
      text.count '\n' ≤ max 1 r.nTrees * (2 * max 1 (r.nSamples / r.o.leafSize)) := by
  have hsize := c146_splits hr hv hok own global h
  obtain ⟨s, e, hs⟩ := start_ok (r := r) hok own global
  rw [c118_scratch_partial hr hv hok] at h
  unfold RunSetup.run at h
  rw [e] at h
  obtain ⟨-, h2, -⟩ := trees_ok hr (max 1 r.nTrees) 1 s hs
  obtain ⟨hl, hx⟩ := h2 out h
  obtain ⟨a1, a2, -⟩ := treeGrower_search_any hr.setting r.findPredicted r.maxDepth r.splitmissing
  have key : ∀ x ∈ out, prune x.1.root ≠ .nil ∧ (prune x.1.root).Writable nt ∧ Plain x.1.target.toList ∧
      x.1.weight = .fin (-1) ∧ nodeLines (prune x.1.root) = nodesOf (prune x.1.root) := by
    intro x hxm
    obtain ⟨c1, c2, c3, c4, st, st', c5, c6, c7, c8⟩ := hx x hxm
    have hall : ∀ c ∈ x.2, c ∈ r.all := fun c h => r.mem_all (c4 c h)
    have hg := (grow_grown hr.matrix a1 _ 0 "" _ x.2 0 0 _ _ ⟨c5, c6, c7⟩ (Nat.zero_le _) hall c8).2 false
    have hw := hg.writable hr.matrix a2 hr.setting.leafSize hnt ht hp hall
    exact ⟨hg.not_nil, hw, c1 ▸ htarget, c2, nodeLines_eq (hg.codesDecoded hr.matrix) hw
      (grow_noMissing (g := r.freeGrower) hsm _ 0 "" _ _ 0 0 _ _ c8)⟩
  obtain ⟨text, e1, e2⟩ := recordTrees_lines hord progress (out.map fun x => { x.1 with root := prune x.1.root }) 0 (by
    intro t ht
    obtain ⟨x, hxm, rfl⟩ := List.mem_map.1 ht
    obtain ⟨k1, k2, k3, k4, -⟩ := key x hxm
    exact ⟨k1, k2, k3, k4⟩)
  have e3 := recordTrees_prune nt ord progress (out.map (·.1)) 0
  rw [List.map_map] at e3
  have hn : text.count '\n' = (out.map fun x => 1 + nodesOf (prune x.1.root)).sum := by
    rw [e2, List.map_map]
    congr 1
    exact List.map_congr_left fun x hxm => congrArg (1 + ·) (key x hxm).2.2.2.2
  refine ⟨text, ?_, hn, ?_⟩
  · unfold growforestFile
    rw [← e3]
    exact congrArg (Option.bind · _) e1
  · rw [hn, ← hl]
    refine sum_map_le_mul out fun x hxm => ?_
    obtain ⟨k1, -, -, k2⟩ := hsize x hxm
    rw [hsm] at k2
    simp only [Bool.false_eq_true, if_false] at k2
    have h1 : 1 ≤ r.o.leafSize := hr.setting.leafSize
    have h3 : splitCount (prune x.1.root) + 1 ≤ max 1 (r.nSamples / r.o.leafSize) := by
      rcases k1 with h | h
      · omega
      · exact Nat.le_trans ((Nat.le_div_iff_mul_le h1).2 h) (Nat.le_max_right _ _)
    omega

/-! ## Examples, and where the property fails -/

/-- The run of `Props/Run.lean`: its two trees split once and not at all, and its file has six lines, which is within
the bound of `2 · (2 · 3)`. -/
example : ∃ out text, (exRun false 3).run (exRun false 3).grower 6 2 [0, 1, 2] (fun k => 5 * k + 1) exGlobal = some out ∧
    (out.map fun x => splitCount (prune x.1.root)) = [1, 0] ∧
    growforestFile exStrokes (fun s => s.left) false "C:y" none (out.map (·.1)) = some text ∧ text.count '\n' = 6 := by
  have h : ((exRun false 3).run (exRun false 3).grower 6 2 [0, 1, 2] (fun k => 5 * k + 1) exGlobal).any (fun out =>
      decide ((out.map fun x => splitCount (prune x.1.root)) = [1, 0]) &&
      decide ((out.map fun x => 1 + nodesOf (prune x.1.root)).sum = 6)) = true := by
    decide +kernel
  obtain ⟨out, h, hc⟩ := (Option.any_eq_true _ _).1 h
  obtain ⟨text, h1, h2, -⟩ := c146_file_partial (exRun_ok false 3) (by decide) rfl (nCats := 2) ⟨rfl, rfl, rfl⟩ _ _
    exStrokes_faithful (by
      intro f hf
      simp only [exRun, exFM3, List.mem_cons, List.not_mem_nil, or_false] at hf
      rcases hf with rfl | rfl | rfl
      · show Plain _; decide +kernel
      · show Plain _; decide +kernel
      · exact ⟨by decide +kernel, by decide +kernel⟩) (fun cs => by
        show Plain (if _ then "a" else "b").toList
        split <;> decide +kernel) (show Plain "C:y".toList by decide +kernel) (fun s => s.left)
    (fun s => List.Perm.refl _) false h
  simp only [Bool.and_eq_true, decide_eq_true_eq] at hc
  exact ⟨out, text, h, hc.1, h1, h2.trans hc.2⟩

/-- A target whose third class from the right needs a second split. -/
def exTwiceT : CatFeature := ⟨.empty, [1, 0, 0, 0, 1, 0], List.replicate 6 false, "t", false, false⟩

theorem exTwiceT_inRange : exTwiceT.InRange 2 [0, 1, 2, 3, 4, 5] := by
  intro c hc
  fin_cases hc <;> exact ⟨_, rfl, by decide⟩

/-- One tree from six cases, with missing branches. -/
def exRunM : RunSetup ℚ CatFeature :=
  { exRun false 6 with T := giniTarget exTwiceT, C := catContrast exTwiceT, splitmissing := true, nTrees := 1 }

def exRunMLaws : TargetLaws exRunM.T exRunM.all := giniLaws exTwiceT 2 _ exTwiceT_inRange

theorem exRunM_ok : exRunM.Ok exRunMLaws (fun g => g.InRange 2 [0, 1, 2, 3, 4, 5] ∧
    g.missing.length = g.catData.length ∧ g.catData.length = exTwiceT.catData.length) [0, 1] where
  cases := rfl
  matrix := exFM3_ok
  setting :=
    { feats := exFM3_feats
      total3 := fun _ => countLaws_total3 _ _ _ _ exTwiceT_inRange
      contrast := fun _ => catContrast_ok exTwiceT 2 _ exTwiceT_inRange rfl giniFromCounts
      start := ⟨exTwiceT_inRange, rfl, rfl⟩
      leafSize := le_refl 1
      exist := show ∀ i ∈ [0, 1], i < 3 by decide
      mTry := show 2 ≤ 2 by decide
      oobs := by simp }
  fit := by
    show 0 < (List.replicate 6 false).length
    decide
  order _ := List.Perm.refl _

/-- **C146 is false of the code** for files with missing branches: a tree of two splits and seven nodes, grown by a run
that meets the conditions above, is written in eleven lines, ten of them for nodes. In place of the missing branch of a
node its right branch is written once more. -/
theorem c146_more_lines :
    (exRunM.run exRunM.grower 6 2 [0, 1] (fun k => 5 * k + 1) id).any (fun out =>
      decide ((out.map fun x => (splitCount (prune x.1.root), nodesOf (prune x.1.root))) = [(2, 7)]) &&
      (growforestFile exStrokes (fun s => s.left) false "C:y" none (out.map (·.1))).any
        fun text => decide (text.count '\n' = 11)) = true := by
  decide +kernel

example : ∀ out, exRunM.run exRunM.grower 6 2 [0, 1] (fun k => 5 * k + 1) id = some out →
    ∀ x ∈ out, nodesOf (prune x.1.root) = 3 * splitCount (prune x.1.root) + 1 :=
  fun _ h x hx => (c146_splits exRunM_ok (by decide) (nCats := 2) ⟨rfl, rfl, rfl⟩ _ _ h x hx).2.2.2

/-- A tree in which every right branch splits again, `n` times. -/
def exComb : Nat → Node ℚ
  | 0 => .mk none 0 .nil .nil .nil "a" none
  | n + 1 => .mk none 0 (.mk none 0 .nil .nil .nil "a" none) (exComb n) (.mk none 0 .nil .nil .nil "a" none) ""
      (some { feature := "x", numerical := true, value := .fin 1, left := [] })

/-- **C146 is false of the code**: the lines for such a tree double with every split, though its nodes grow by three. -/
theorem c146_doubling (n : Nat) : nodesOf (exComb n) = 3 * n + 1 ∧
    ∃ text, writeNodes exStrokes (fun s => s.left) (exComb n) ['*'] = some text ∧ text.count '\n' + 2 = 3 * 2 ^ n := by
  have hw : (exComb n).Writable exStrokes ∧ nodeLines (exComb n) + 2 = 3 * 2 ^ n ∧ nodesOf (exComb n) = 3 * n + 1 := by
    induction n with
    | zero =>
      refine ⟨⟨by decide +kernel, trivial, trivial, trivial, fun _ => rfl, rfl, rfl, rfl⟩, rfl, rfl⟩
    | succ n ih =>
      obtain ⟨h1, h2, h3⟩ := ih
      refine ⟨⟨plain_empty, ⟨by decide +kernel, trivial, trivial, trivial, fun _ => rfl, rfl, rfl, rfl⟩, h1,
        ⟨by decide +kernel, trivial, trivial, trivial, fun _ => rfl, rfl, rfl, rfl⟩, ?_, ?_⟩, ?_, ?_⟩
      · intro h
        cases n <;> cases h
      · exact ⟨by decide +kernel, fun _ => ⟨rfl, exStrokes_faithful _⟩, nofun⟩
      · have : nodeLines (exComb (n + 1)) = 1 + 1 + nodeLines (exComb n) + nodeLines (exComb n) := rfl
        rw [this, Nat.pow_succ]
        omega
      · have : nodesOf (exComb (n + 1)) = 1 + 1 + nodesOf (exComb n) + 1 := rfl
        rw [this]
        omega
  obtain ⟨text, e1, e2⟩ := writeNodes_lines (fun s => List.Perm.refl s.left) (exComb n) ['*'] (by cases n <;> nofun) hw.1 (by decide)
  exact ⟨hw.2.2, text, e1, e2 ▸ hw.2.1⟩

end CloudForest
