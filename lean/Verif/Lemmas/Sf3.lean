import Verif.Lemmas.Sf2

/-!
# A tree, written and read: the nodes
-/

set_option linter.unusedSectionVars false

namespace CloudForest
variable {K : Type} [Field K] [LinearOrder K] [IsStrictOrderedRing K]

/-- A node as written: path, prediction, splitter. -/
abbrev Entry (K : Type) := Text × String × Option (Splitter K)

/-- The nodes in the order in which they are written, with paths from this node. -/
def entries : Node K → List (Entry K)
  | .nil => []
  | .mk _ _ l r m p s =>
    ([], p, s) :: if s.isSome then
      (entries l).map (fun e => ('L' :: e.1, e.2)) ++ ((entries r).map (fun e => ('R' :: e.1, e.2)) ++
        if m.isNil then [] else (entries r).map (fun e => ('M' :: e.1, e.2)))
    else []

/-- The tree as it is read back. -/
def back (ord : Splitter K → List String) : Node K → Node K
  | .nil => .nil
  | .mk _ _ l r m p s =>
    if s.isSome then
      .mk none 0 (back ord l) (back ord r) (if m.isNil then .nil else back ord r) p
        (s.map (backSplitter ord))
    else .mk none 0 .nil .nil .nil p none

theorem entries_isPath (n : Node K) : ∀ e ∈ entries n, IsPath e.1 := by
  induction n with
  | nil => intro e h; cases h
  | mk c fi l r m p s ihl ihr ihm =>
    have key : ∀ (ch : Char) (n : Node K), (ch = '*' ∨ ch = 'L' ∨ ch = 'R' ∨ ch = 'M') →
        (∀ e ∈ entries n, IsPath e.1) → ∀ e ∈ (entries n).map (fun e => (ch :: e.1, e.2)), IsPath e.1 := by
      intro ch n hch ih e he
      obtain ⟨x, hx, rfl⟩ := List.mem_map.1 he
      intro d hd
      rw [List.mem_cons] at hd
      rcases hd with rfl | hd
      · exact hch
      · exact ih x hx d hd
    intro e he
    rw [entries, List.mem_cons] at he
    rcases he with rfl | he
    · intro d hd; cases hd
    · split_ifs at he with h1 h2
      · simp only [List.append_nil, List.mem_append] at he
        rcases he with he | he
        · exact key 'L' l (by simp) ihl e he
        · exact key 'R' r (by simp) ihr e he
      · simp only [List.mem_append] at he
        rcases he with he | he | he
        · exact key 'L' l (by simp) ihl e he
        · exact key 'R' r (by simp) ihr e he
        · exact key 'M' r (by simp) ihr e he
      · cases he

theorem entries_writable {nt : NumText K} (n : Node K) (h : n.Writable nt) :
    ∀ e ∈ entries n, Plain e.2.1.toList ∧ ∀ s, e.2.2 = some s → s.Writable nt := by
  induction n with
  | nil => intro e h; cases h
  | mk c fi l r m p s ihl ihr ihm =>
    obtain ⟨hp, hl, hr, hm, -, hs⟩ := h
    have key : ∀ (ch : Char) (n : Node K),
        (∀ e ∈ entries n, Plain e.2.1.toList ∧ ∀ s, e.2.2 = some s → s.Writable nt) →
        ∀ e ∈ (entries n).map (fun e => (ch :: e.1, e.2)),
          Plain e.2.1.toList ∧ ∀ s, e.2.2 = some s → s.Writable nt := by
      intro ch n ih e he
      obtain ⟨x, hx, rfl⟩ := List.mem_map.1 he
      exact ih x hx
    intro e he
    rw [entries, List.mem_cons] at he
    rcases he with rfl | he
    · refine ⟨hp, ?_⟩
      intro s' h'
      simp only at h'
      subst h'
      exact hs
    · split_ifs at he with h1 h2
      · simp only [List.append_nil, List.mem_append] at he
        rcases he with he | he
        · exact key 'L' l (ihl hl) e he
        · exact key 'R' r (ihr hr) e he
      · simp only [List.mem_append] at he
        rcases he with he | he | he
        · exact key 'L' l (ihl hl) e he
        · exact key 'R' r (ihr hr) e he
        · exact key 'M' r (ihr hr) e he
      · cases he

/-- The text of nodes. -/
def nodesText (nt : NumText K) (ord : Splitter K → List String) (path : Text) (es : List (Entry K)) :
    Text :=
  es.flatMap fun e => writeNode nt ord e.2.1 e.2.2 (path ++ e.1)

theorem nodesText_map (nt : NumText K) (ord : Splitter K → List String) (path : Text) (ch : Char)
    (es : List (Entry K)) :
    nodesText nt ord path (es.map fun e => (ch :: e.1, e.2)) = nodesText nt ord (path ++ [ch]) es := by
  unfold nodesText
  rw [List.flatMap_map]
  simp

theorem entries_nil_of_isNil {n : Node K} (h : n.isNil = true) : n = .nil := by
  cases n with
  | nil => rfl
  | mk => cases h

theorem writeNodes_eq {nt : NumText K} {ord : Splitter K → List String} (n : Node K)
    (h : n.Writable nt) (hn : n.isNil = false) (path : Text) :
    writeNodes nt ord n path = some (nodesText nt ord path (entries n)) := by
  induction n generalizing path with
  | nil => cases hn
  | mk c fi l r m p s ihl ihr ihm =>
    obtain ⟨-, hl, hr, hm, hrm, hs⟩ := h
    unfold writeNodes entries
    cases s with
    | none => simp [nodesText]
    | some s =>
      have key : ∀ (ch : Char) (n : Node K) (b : Bool), (b = true → n.isNil = false) →
          (n.isNil = false → ∀ path, writeNodes nt ord n path = some (nodesText nt ord path (entries n))) →
          (if b then writeNodes nt ord n (path ++ [ch]) else some []) =
            some (if b then nodesText nt ord path ((entries n).map fun e => (ch :: e.1, e.2)) else []) := by
        intro ch n b hb ih
        cases b with
        | false => rfl
        | true => simp only [if_true]; rw [ih (hb rfl), nodesText_map]
      have hL := key 'L' l (!l.isNil) (by simp) (fun h => ihl hl h)
      have hR := key 'R' r (!r.isNil) (by simp) (fun h => ihr hr h)
      have hM := key 'M' r (!m.isNil) (fun h => by
        cases hri : r.isNil with
        | false => rfl
        | true => rw [hrm hri] at h; cases h) (fun h => ihr hr h)
      simp only [Option.isSome_some, Bool.true_and, if_true]
      rw [hL, hR, hM]
      simp only [Option.bind_eq_bind, Option.bind_some, Option.some.injEq]
      have hnil : ∀ (ch : Char) (n : Node K), (if (!n.isNil) = true then
          nodesText nt ord path ((entries n).map fun e => (ch :: e.1, e.2)) else []) =
          nodesText nt ord path ((entries n).map fun e => (ch :: e.1, e.2)) := by
        intro ch n
        cases n with
        | nil => rfl
        | mk => rfl
      rw [hnil, hnil]
      cases hmi : m.isNil with
      | true => simp [nodesText]
      | false => simp [nodesText]

/-! ## Putting the nodes together -/

/-- A node as it is made from an entry. -/
def newNode (ord : Splitter K → List String) (e : Entry K) : Node K :=
  .mk none 0 .nil .nil .nil e.2.1 (e.2.2.map (backSplitter ord))

/-- Add one entry below a node. -/
def ins (ord : Splitter K → List String) (n : Node K) (e : Entry K) : Option (Node K) :=
  Node.insertAt (newNode ord e) n e.1

theorem insertAt_notNil {new n n' : Node K} {path : Text} (hnew : new.isNil = false)
    (h : Node.insertAt new n path = some n') : n'.isNil = false := by
  induction path generalizing n n' with
  | nil =>
    cases n with
    | nil => simp [Node.insertAt] at h
    | mk c fi l r m p s => simp [Node.insertAt] at h; subst h; rfl
  | cons ch path ih =>
    cases n with
    | nil => simp [Node.insertAt] at h
    | mk c fi l r m p s =>
      rw [Node.insertAt] at h
      split_ifs at h with h1 h2 h3 h4 h5 h6 h7 h8 h9
      all_goals first
        | (cases h; done)
        | (cases h; rfl)
        | (rw [Option.map_eq_some_iff] at h; obtain ⟨x, -, rfl⟩ := h; rfl)
        | exact ih h

theorem ins_L (ord : Splitter K → List String) (c fi) (r m : Node K) (p s) (es : List (Entry K))
    (l : Node K) (hl : l.isNil = false) :
    (es.map fun e => ('L' :: e.1, e.2)).foldlM (ins ord) (.mk c fi l r m p s) =
      (es.foldlM (ins ord) l).map fun l' => .mk c fi l' r m p s := by
  induction es generalizing l with
  | nil => rfl
  | cons e es ih =>
    rw [List.map_cons, List.foldlM_cons, List.foldlM_cons]
    have h1 : ins ord (.mk c fi l r m p s) ('L' :: e.1, e.2) =
        (ins ord l e).map fun l' => .mk c fi l' r m p s := by
      unfold ins
      rw [Node.insertAt, if_pos rfl, if_neg (by rw [hl]; simp)]
      rfl
    rw [h1]
    cases h2 : ins ord l e with
    | none => rfl
    | some l' =>
      simp only [Option.map_some, Option.bind_eq_bind, Option.bind_some]
      exact ih l' (insertAt_notNil rfl h2)

theorem ins_R (ord : Splitter K → List String) (c fi) (l m : Node K) (p s) (es : List (Entry K))
    (r : Node K) (hr : r.isNil = false) :
    (es.map fun e => ('R' :: e.1, e.2)).foldlM (ins ord) (.mk c fi l r m p s) =
      (es.foldlM (ins ord) r).map fun r' => .mk c fi l r' m p s := by
  induction es generalizing r with
  | nil => rfl
  | cons e es ih =>
    rw [List.map_cons, List.foldlM_cons, List.foldlM_cons]
    have h1 : ins ord (.mk c fi l r m p s) ('R' :: e.1, e.2) =
        (ins ord r e).map fun r' => .mk c fi l r' m p s := by
      unfold ins
      rw [Node.insertAt, if_neg (by decide), if_pos rfl, if_neg (by rw [hr]; simp)]
      rfl
    rw [h1]
    cases h2 : ins ord r e with
    | none => rfl
    | some r' =>
      simp only [Option.map_some, Option.bind_eq_bind, Option.bind_some]
      exact ih r' (insertAt_notNil rfl h2)

theorem ins_M (ord : Splitter K → List String) (c fi) (l r : Node K) (p s) (es : List (Entry K))
    (m : Node K) (hm : m.isNil = false) :
    (es.map fun e => ('M' :: e.1, e.2)).foldlM (ins ord) (.mk c fi l r m p s) =
      (es.foldlM (ins ord) m).map fun m' => .mk c fi l r m' p s := by
  induction es generalizing m with
  | nil => rfl
  | cons e es ih =>
    rw [List.map_cons, List.foldlM_cons, List.foldlM_cons]
    have h1 : ins ord (.mk c fi l r m p s) ('M' :: e.1, e.2) =
        (ins ord m e).map fun m' => .mk c fi l r m' p s := by
      unfold ins
      rw [Node.insertAt, if_neg (by decide), if_neg (by decide), if_pos rfl, if_neg (by rw [hm]; simp)]
      rfl
    rw [h1]
    cases h2 : ins ord m e with
    | none => rfl
    | some m' =>
      simp only [Option.map_some, Option.bind_eq_bind, Option.bind_some]
      exact ih m' (insertAt_notNil rfl h2)

/-- The first entry makes the node, the others what is below it. -/
def Rebuilds (ord : Splitter K → List String) (n : Node K) : Prop :=
  n = .nil ∨ ∃ p s rest, entries n = ([], p, s) :: rest ∧
    rest.foldlM (ins ord) (newNode ord ([], p, s)) = some (back ord n)

theorem Rebuilds.L {ord : Splitter K → List String} {n : Node K} (h : Rebuilds ord n) (c fi)
    (r m : Node K) (p s) :
    ((entries n).map fun e => ('L' :: e.1, e.2)).foldlM (ins ord) (.mk c fi .nil r m p s) =
      some (.mk c fi (back ord n) r m p s) := by
  rcases h with rfl | ⟨p1, s1, rest, he, hr⟩
  · rfl
  · rw [he, List.map_cons, List.foldlM_cons]
    have : ins ord (.mk c fi .nil r m p s) (['L'], p1, s1) =
        some (.mk c fi (newNode ord ([], p1, s1)) r m p s) := by
      unfold ins
      rw [Node.insertAt, if_pos rfl, if_pos (show (Node.nil : Node K).isNil = true from rfl), if_neg (by decide)]
      rfl
    rw [this]
    simp only [Option.bind_eq_bind, Option.bind_some]
    rw [ins_L ord c fi r m p s rest _ rfl, hr]
    rfl

theorem Rebuilds.R {ord : Splitter K → List String} {n : Node K} (h : Rebuilds ord n) (c fi)
    (l m : Node K) (p s) :
    ((entries n).map fun e => ('R' :: e.1, e.2)).foldlM (ins ord) (.mk c fi l .nil m p s) =
      some (.mk c fi l (back ord n) m p s) := by
  rcases h with rfl | ⟨p1, s1, rest, he, hr⟩
  · rfl
  · rw [he, List.map_cons, List.foldlM_cons]
    have : ins ord (.mk c fi l .nil m p s) (['R'], p1, s1) =
        some (.mk c fi l (newNode ord ([], p1, s1)) m p s) := by
      unfold ins
      rw [Node.insertAt, if_neg (by decide), if_pos rfl, if_pos (show (Node.nil : Node K).isNil = true from rfl), if_neg (by decide)]
      rfl
    rw [this]
    simp only [Option.bind_eq_bind, Option.bind_some]
    rw [ins_R ord c fi l m p s rest _ rfl, hr]
    rfl

theorem Rebuilds.M {ord : Splitter K → List String} {n : Node K} (h : Rebuilds ord n) (c fi)
    (l r : Node K) (p s) :
    ((entries n).map fun e => ('M' :: e.1, e.2)).foldlM (ins ord) (.mk c fi l r .nil p s) =
      some (.mk c fi l r (back ord n) p s) := by
  rcases h with rfl | ⟨p1, s1, rest, he, hr⟩
  · rfl
  · rw [he, List.map_cons, List.foldlM_cons]
    have : ins ord (.mk c fi l r .nil p s) (['M'], p1, s1) =
        some (.mk c fi l r (newNode ord ([], p1, s1)) p s) := by
      unfold ins
      rw [Node.insertAt, if_neg (by decide), if_neg (by decide), if_pos rfl,
        if_pos (show (Node.nil : Node K).isNil = true from rfl), if_neg (by decide)]
      rfl
    rw [this]
    simp only [Option.bind_eq_bind, Option.bind_some]
    rw [ins_M ord c fi l r p s rest _ rfl, hr]
    rfl

theorem rebuilds (ord : Splitter K → List String) (n : Node K) : Rebuilds ord n := by
  induction n with
  | nil => exact .inl rfl
  | mk c fi l r m p s ihl ihr ihm =>
    refine .inr ⟨p, s, _, rfl, ?_⟩
    cases s with
    | none => rfl
    | some s =>
      simp only [Option.isSome_some, if_true, back]
      rw [List.foldlM_append]
      unfold newNode
      rw [ihl.L]
      simp only [Option.bind_eq_bind, Option.bind_some]
      rw [List.foldlM_append, ihr.R]
      simp only [Option.bind_eq_bind, Option.bind_some]
      cases hm : m.isNil with
      | true => rfl
      | false =>
        simp only [Bool.false_eq_true, if_false]
        rw [ihr.M]

/-! ## Reading the nodes of a tree -/

theorem addNode_star {ord : Splitter K → List String} {root : Node K} (h : root.isNil = false)
    (e : Entry K) :
    root.addNode ('*' :: e.1) e.2.1 (e.2.2.map (backSplitter ord)) = ins ord root e := by
  unfold Node.addNode ins newNode
  cases root with
  | nil => cases h
  | mk c fi l r m p s =>
    simp only [Node.isNil, Bool.false_eq_true, if_false]
    rw [Node.insertAt, if_neg (by decide), if_neg (by decide), if_neg (by decide)]

theorem readTreeLoop_line {nt : NumText K} {st st' : SfState K} {l rest : Text} {c : Char}
    (hl : '\n' ∉ l) (hc : l.head? = some c) (hst : st.tree.isSome = false ∨ (c ≠ 'T' ∧ c ≠ 'F'))
    (h : readSfLine nt st (l ++ ['\n']) = some (some st')) :
    readTreeLoop nt st (l ++ '\n' :: rest) = readTreeLoop nt st' rest := by
  cases l with
  | nil => cases hc
  | cons d l =>
    cases hc
    have hline := readLine_append hl rest
    rw [List.cons_append] at hline ⊢
    conv_lhs => unfold readTreeLoop
    rw [if_neg (by rcases hst with h | ⟨h1, h2⟩ <;> simp [*])]
    split
    · rename_i hx; rw [hline] at hx; cases hx
    · rename_i line rest' hx
      rw [hline] at hx
      cases hx
      rw [h]

theorem readTreeLoop_nodes {nt : NumText K} {ord : Splitter K → List String}
    (hord : ∀ s : Splitter K, (ord s).Perm s.left) (es : List (Entry K))
    (hes : ∀ e ∈ es, IsPath e.1 ∧ Plain e.2.1.toList ∧ ∀ s, e.2.2 = some s → s.Writable nt)
    (root root' : Node K) (hroot : root.isNil = false) (target : String) (w : XF K)
    (fo : Option (Forest K)) (rest : Text) (h : es.foldlM (ins ord) root = some root') :
    readTreeLoop nt ⟨some ⟨root, target, w⟩, fo⟩ (nodesText nt ord ['*'] es ++ rest) =
      readTreeLoop nt ⟨some ⟨root', target, w⟩, fo⟩ rest := by
  induction es generalizing root with
  | nil => cases h; rfl
  | cons e es ih =>
    rw [List.foldlM_cons] at h
    obtain ⟨root1, h1, h2⟩ := Option.bind_eq_some_iff.1 h
    obtain ⟨hp, hpred, hs⟩ := hes e (by simp)
    have hpath : IsPath ('*' :: e.1) := by
      intro d hd
      rw [List.mem_cons] at hd
      rcases hd with rfl | hd
      · simp
      · exact hp d hd
    have hline := readSfLine_node hpath hpred hs hord ⟨root, target, w⟩ fo
    simp only at hline
    rw [addNode_star hroot, h1] at hline
    have hok := nodeFields_ok hpath hpred hs hord
    have htext : nodesText nt ord ['*'] (e :: es) ++ rest =
        sfLine (nodeFields nt ord e.2.1 e.2.2 ('*' :: e.1)) ++ '\n' :: (nodesText nt ord ['*'] es ++ rest) := by
      unfold nodesText
      rw [List.flatMap_cons, List.singleton_append, writeNode_eq]
      simp
    rw [writeNode_eq] at hline
    rw [htext, readTreeLoop_line (c := 'N') (sfLine_noline _ hok) ?_ (.inr (by decide)) hline]
    · exact ih (fun x hx => hes x (by simp [hx])) root1 (insertAt_notNil rfl h1) h2
    · have : ∃ s, sfLine (nodeFields nt ord e.2.1 e.2.2 ('*' :: e.1)) ++ ['\n'] = 'N' :: s := by
        rw [← writeNode_eq]
        unfold writeNode
        exact ⟨_, rfl⟩
      obtain ⟨s, hs⟩ := this
      cases hh : sfLine (nodeFields nt ord e.2.1 e.2.2 ('*' :: e.1)) with
      | nil => exact absurd hh (sfLine_ne_nil _ _)
      | cons d l => rw [hh] at hs; cases hs; rfl

theorem readTreeLoop_root {nt : NumText K} {ord : Splitter K → List String}
    (hord : ∀ s : Splitter K, (ord s).Perm s.left) (n : Node K) (hn : n.isNil = false)
    (hw : n.Writable nt) (target : String) (w : XF K)
    (fo : Option (Forest K)) (rest : Text) :
    readTreeLoop nt ⟨some ⟨.nil, target, w⟩, fo⟩ (nodesText nt ord ['*'] (entries n) ++ rest) =
      readTreeLoop nt ⟨some ⟨back ord n, target, w⟩, fo⟩ rest := by
  have hpaths := entries_isPath n
  have hwr := entries_writable n hw
  rcases rebuilds ord n with rfl | ⟨p, s, es, he, hr⟩
  · cases hn
  rw [he] at hpaths hwr ⊢
  obtain ⟨hpred, hs⟩ := hwr ([], p, s) (by simp)
  simp only at hpred hs
  have hpath : IsPath ['*'] := by intro d hd; rw [List.mem_singleton] at hd; exact .inl hd
  have hline := readSfLine_node hpath hpred hs hord ⟨.nil, target, w⟩ fo
  have hadd : (Node.nil : Node K).addNode ['*'] p (s.map (backSplitter ord)) =
      some (newNode ord ([], p, s)) := rfl
  simp only at hline
  rw [hadd, writeNode_eq] at hline
  have hok := nodeFields_ok hpath hpred hs hord
  have htext : nodesText nt ord ['*'] (([], p, s) :: es) ++ rest =
      sfLine (nodeFields nt ord p s ['*']) ++ '\n' :: (nodesText nt ord ['*'] es ++ rest) := by
    unfold nodesText
    rw [List.flatMap_cons, List.append_nil, writeNode_eq]
    simp
  rw [htext, readTreeLoop_line (c := 'N') (sfLine_noline _ hok) ?_ (.inr (by decide)) hline]
  · exact readTreeLoop_nodes hord es
      (fun x hx => ⟨hpaths x (by simp [hx]), hwr x (by simp [hx])⟩) _ _ rfl target w fo rest hr
  · have : ∃ s', sfLine (nodeFields nt ord p s ['*']) ++ ['\n'] = 'N' :: s' := by
      rw [← writeNode_eq]
      unfold writeNode
      exact ⟨_, rfl⟩
    obtain ⟨s', hs'⟩ := this
    cases hh : sfLine (nodeFields nt ord p s ['*']) with
    | nil => exact absurd hh (sfLine_ne_nil _ _)
    | cons d l => rw [hh] at hs'; cases hs'; rfl

/-! ## Headers -/

theorem readSfLine_treeHeader (nt : NumText K) (i : Nat) (target : String) (w : XF K)
    (ht : Plain target.toList) (hw : (XF.fin 0 : XF K) ≤ w → nt.Faithful w) (st : SfState K) :
    ∃ l, writeTreeHeader nt i target w = l ++ ['\n'] ∧ '\n' ∉ l ∧ l.head? = some 'T' ∧
      readSfLine nt st (l ++ ['\n']) =
        some (some { st with tree := some ⟨.nil, target, fileWeight w⟩ }) := by
  obtain ⟨fs, hfs⟩ : ∃ fs : List SfField, fs = ⟨"TREE".toList, fmtNat i, false⟩ ::
      ⟨"TARGET".toList, target.toList, true⟩ ::
      (if (XF.fin 0 : XF K) ≤ w then [⟨"WEIGHT".toList, nt.fmt w, false⟩] else []) := ⟨_, rfl⟩
  have hok : ∀ f ∈ fs, f.OK := by
    intro f hf
    rw [hfs, List.mem_cons, List.mem_cons] at hf
    rcases hf with rfl | rfl | hf
    · exact okKey (by decide) (plain_fmtNat i)
    · exact okKey (by decide) ht
    · split_ifs at hf with h0
      · rw [List.mem_singleton] at hf; subst hf
        exact okKey (by decide) (hw h0).1
      · cases hf
  have hline : writeTreeHeader nt i target w = sfLine fs ++ ['\n'] := by
    rw [hfs]
    unfold writeTreeHeader sfLine
    by_cases h0 : (XF.fin 0 : XF K) ≤ w <;> simp [h0, SfField.text, joinC]
  obtain ⟨s, hs⟩ : ∃ s, sfLine fs = 'T' :: 'R' :: 'E' :: 'E' :: s := by
    rw [hfs]
    by_cases h0 : (XF.fin 0 : XF K) ≤ w <;> simp [h0, sfLine, SfField.text, joinC]
  refine ⟨sfLine fs, hline, sfLine_noline fs hok, by rw [hs]; rfl, ?_⟩
  unfold readSfLine
  have hpar : parseSfLine (sfLine fs ++ ['\n']) = some (fs.map fun f => (f.key, f.value)) := by
    rw [hfs] at hok ⊢
    exact parseSfLine_line _ _ hok
  rw [hpar]
  simp only [Option.bind_eq_bind, Option.bind_some]
  rw [if_neg (by rw [hs]; simp), if_pos (by rw [hs]; simp)]
  unfold fileWeight
  by_cases h0 : (XF.fin 0 : XF K) ≤ w
  · simp [hfs, h0, getKey, (hw h0).2]
  · simp [hfs, h0, getKey]

theorem readSfLine_forestHeader (nt : NumText K) (i : Nat) (target : String) (x : XF K)
    (ht : Plain target.toList) (hx : ¬ x.feq (.fin 0) → nt.Faithful x) (st : SfState K) :
    ∃ l, writeForestHeader nt i target x = l ++ ['\n'] ∧ '\n' ∉ l ∧ l.head? = some 'F' ∧
      readSfLine nt st (l ++ ['\n']) =
        some (some { st with forest := some ⟨target, [], x⟩ }) := by
  obtain ⟨fs, hfs⟩ : ∃ fs : List SfField, fs = ⟨"FOREST".toList, fmtNat i, false⟩ ::
      ⟨"TARGET".toList, target.toList, true⟩ ::
      (if ¬ x.feq (.fin 0) then [⟨"INTERCEPT".toList, nt.fmt x, false⟩] else []) := ⟨_, rfl⟩
  have hok : ∀ f ∈ fs, f.OK := by
    intro f hf
    rw [hfs, List.mem_cons, List.mem_cons] at hf
    rcases hf with rfl | rfl | hf
    · exact okKey (by decide) (plain_fmtNat i)
    · exact okKey (by decide) ht
    · split_ifs at hf with h0
      · cases hf
      · rw [List.mem_singleton] at hf; subst hf
        exact okKey (by decide) (hx h0).1
  have hline : writeForestHeader nt i target x = sfLine fs ++ ['\n'] := by
    rw [hfs]
    unfold writeForestHeader sfLine
    by_cases h0 : x.feq (.fin 0) <;> simp [h0, SfField.text, joinC]
  obtain ⟨s, hs⟩ : ∃ s, sfLine fs = 'F' :: 'O' :: 'R' :: 'E' :: 'S' :: 'T' :: s := by
    rw [hfs]
    by_cases h0 : x.feq (.fin 0) <;> simp [h0, sfLine, SfField.text, joinC]
  refine ⟨sfLine fs, hline, sfLine_noline fs hok, by rw [hs]; rfl, ?_⟩
  unfold readSfLine
  have hpar : parseSfLine (sfLine fs ++ ['\n']) = some (fs.map fun f => (f.key, f.value)) := by
    rw [hfs] at hok ⊢
    exact parseSfLine_line _ _ hok
  rw [hpar]
  simp only [Option.bind_eq_bind, Option.bind_some]
  rw [if_pos (by rw [hs]; simp)]
  by_cases h0 : x.feq (.fin 0)
  · obtain rfl := h0.2
    simp [hfs, h0, getKey]
  · simp [hfs, h0, getKey, (hx h0).2]

/-- The tree as read back. -/
def backTree (ord : Splitter K → List String) (t : Tree K) : Tree K :=
  ⟨back ord t.root, t.target, fileWeight t.weight⟩

theorem writeTree_eq {nt : NumText K} {ord : Splitter K → List String} {t : Tree K}
    (ht : t.Writable nt) (i : Nat) :
    writeTree nt ord t i =
      some (writeTreeHeader nt i t.target t.weight ++ nodesText nt ord ['*'] (entries t.root)) := by
  unfold writeTree
  rw [writeNodes_eq t.root ht.root ht.notNil]
  rfl

/-- `readTree` on a written tree, with a forest read before it or not, and anything after it. -/
theorem readTreeLoop_tree {nt : NumText K} {ord : Splitter K → List String}
    (hord : ∀ s : Splitter K, (ord s).Perm s.left) {t : Tree K} (ht : t.Writable nt) (i : Nat)
    (fo : Option (Forest K)) (rest : Text) :
    readTreeLoop nt ⟨none, fo⟩ (writeTreeHeader nt i t.target t.weight ++
        (nodesText nt ord ['*'] (entries t.root) ++ rest)) =
      readTreeLoop nt ⟨some (backTree ord t), fo⟩ rest := by
  obtain ⟨l, h1, h2, h3, h4⟩ := readSfLine_treeHeader nt i t.target t.weight ht.target ht.weight ⟨none, fo⟩
  rw [h1, List.append_assoc, List.singleton_append, readTreeLoop_line h2 h3 (.inl rfl) h4]
  exact readTreeLoop_root hord t.root ht.notNil ht.root t.target (fileWeight t.weight) fo rest

/-- The reader stops before the next tree or forest. -/
theorem readTreeLoop_stop {nt : NumText K} (t : Tree K) (fo : Option (Forest K)) (c : Char) (rest : Text)
    (h : c = 'T' ∨ c = 'F') :
    readTreeLoop nt ⟨some t, fo⟩ (c :: rest) = some ⟨some t, fo, .ok, c :: rest⟩ := by
  unfold readTreeLoop
  rcases h with rfl | rfl <;> simp

theorem readTreeLoop_nil {nt : NumText K} (st : SfState K) :
    readTreeLoop nt st [] = some ⟨st.tree, st.forest, .eof, []⟩ := by
  unfold readTreeLoop
  rfl

end CloudForest
