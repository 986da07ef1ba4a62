import Verif.Lemmas.Sf
import Verif.Spec.Sf

/-!
# A tree, written and read
-/

set_option linter.unusedSectionVars false

namespace CloudForest
variable {K : Type} [Field K] [LinearOrder K] [IsStrictOrderedRing K]

theorem plain_of_simple {s : Text}
    (h : ∀ c ∈ s, isSpaceC c = false ∧ c ≠ '"' ∧ c ≠ '=' ∧ c ≠ '\n' ∧ c ≠ ',') : Plain s := by
  refine ⟨fun hm => (h _ hm).2.1 rfl, fun hm => (h _ hm).2.2.1 rfl, fun hm => (h _ hm).2.2.2.1 rfl, ?_⟩
  intro p hp
  rw [splitC_none (fun hm => (h _ hm).2.2.2.2 rfl), List.mem_singleton] at hp
  subst hp
  exact ⟨fun c hc => (h c (List.mem_of_mem_head? hc)).1, fun c hc => (h c (List.mem_of_mem_getLast? hc)).1⟩

/-- A path in a tree, as written. -/
def IsPath (p : Text) : Prop := ∀ c ∈ p, c = '*' ∨ c = 'L' ∨ c = 'R' ∨ c = 'M'

theorem IsPath.plain {p : Text} (h : IsPath p) : Plain p := by
  apply plain_of_simple
  intro c hc
  rcases h c hc with rfl | rfl | rfl | rfl <;> decide

theorem IsPath.snoc {p : Text} (h : IsPath p) {c : Char} (hc : c = '*' ∨ c = 'L' ∨ c = 'R' ∨ c = 'M') :
    IsPath (p ++ [c]) := by
  intro d hd
  rw [List.mem_append, List.mem_singleton] at hd
  rcases hd with hd | rfl
  · exact h d hd
  · exact hc

theorem plain_fmtNat (n : Nat) : Plain (fmtNat n) := by
  apply plain_of_simple
  intro c hc
  have h := Nat.isDigit_of_mem_toDigits (by decide) (by decide) hc
  have h1 : 48 ≤ c.toNat ∧ c.toNat ≤ 57 := by
    simp only [Char.isDigit, Bool.and_eq_true, decide_eq_true_eq, ge_iff_le, UInt32.le_iff_toNat_le] at h
    exact h
  have hne : ∀ d : Char, (d.toNat < 48 ∨ 57 < d.toNat) → c ≠ d := by
    rintro d hd rfl; omega
  refine ⟨?_, hne _ (by decide), hne _ (by decide), hne _ (by decide), hne _ (by decide)⟩
  unfold isSpaceC
  rw [Bool.or_eq_false_iff]
  constructor
  · simp only [decide_eq_false_iff_not, List.mem_cons, List.not_mem_nil, or_false, not_or]
    refine ⟨hne _ (by decide), hne _ (by decide), hne _ (by decide), hne _ (by decide),
      hne _ (by decide), hne _ (by decide), hne _ (by decide), hne _ (by decide), hne _ (by decide),
      hne _ (by decide), hne _ (by decide), hne _ (by decide), hne _ (by decide), hne _ (by decide)⟩
  · simp only [Bool.and_eq_false_iff, decide_eq_false_iff_not]
    omega

/-- The keys of a map, joined, avoid the delimiters if each of them does. -/
theorem plain_joinKeys (ks : List Text) (h : ∀ k ∈ ks, Plain k) : Plain (joinC ':' ks) := by
  induction ks with
  | nil => exact plain_of_simple (fun c hc => by cases hc)
  | cons k ks ih =>
    cases ks with
    | nil => exact h k (by simp)
    | cons k' ks =>
      have hk := h k (by simp)
      have hr := ih fun x hx => h x (by simp [hx])
      rw [joinC_cons_cons]
      refine ⟨?_, ?_, ?_, ?_⟩
      · simp [hk.noquote, hr.noquote]
      · simp [hk.noequals, hr.noequals]
      · simp [hk.noline, hr.noline]
      · rcases snoc_cases (splitC ',' k) with e | ⟨as, x, e⟩
        · exact absurd e (splitC_ne_nil _ _)
        cases e2 : splitC ',' (joinC ':' (k' :: ks)) with
        | nil => exact absurd e2 (splitC_ne_nil _ _)
        | cons y bs =>
        obtain ⟨q, qs, h2, h3⟩ := splitC_cons_ne (sep := ',') (c := ':') (by decide) (joinC ':' (k' :: ks))
        rw [e2] at h2
        cases h2
        rw [splitC_append e h3]
        intro p hp
        rw [List.mem_append, List.mem_cons] at hp
        rcases hp with hp | rfl | hp
        · exact hk.edges p (by rw [e]; simp [hp])
        · exact (hk.edges x (by rw [e]; simp)).middle (hr.edges y (by rw [e2]; simp)) (by decide)
        · exact hr.edges p (by rw [e2]; simp [hp])

theorem mapKeys_mem (ks : List String) (k : String) : k ∈ mapKeys ks ↔ k ∈ ks := by
  have key : ∀ (ks l : List String),
      k ∈ ks.foldl (fun l k => if l.contains k then l else l ++ [k]) l ↔ k ∈ l ∨ k ∈ ks := by
    intro ks
    induction ks with
    | nil => simp
    | cons x ks ih =>
      intro l
      rw [List.foldl_cons, ih]
      split_ifs with hx
      · rw [List.contains_iff_mem] at hx
        constructor
        · rintro (h | h)
          · exact .inl h
          · exact .inr (by simp [h])
        · rintro (h | h)
          · exact .inl h
          · rw [List.mem_cons] at h
            rcases h with rfl | h
            · exact .inl hx
            · exact .inr h
      · simp only [List.mem_append, List.mem_singleton, List.mem_cons]
        tauto
  unfold mapKeys
  rw [key]
  simp

/-! ## One line -/

/-- The splitter as it is read back. -/
def backSplitter (ord : Splitter K → List String) (s : Splitter K) : Splitter K :=
  if s.numerical then ⟨s.feature, true, s.value, []⟩
  else ⟨s.feature, false, .fin 0, mapKeys (ord s)⟩

/-- The fields of a node line that describe the splitter. -/
def splitterFields (nt : NumText K) (ord : Splitter K → List String) : Option (Splitter K) → List SfField
  | none => []
  | some s =>
    ⟨"SPLITTER".toList, s.feature.toList, false⟩ ::
    if s.numerical then
      [⟨"SPLITTERTYPE".toList, "NUMERICAL".toList, false⟩, ⟨"LVALUES".toList, nt.fmt s.value, false⟩,
        ⟨"RVALUES".toList, nt.fmt s.value, false⟩]
    else [⟨"SPLITTERTYPE".toList, "CATEGORICAL".toList, false⟩,
      ⟨"LVALUES".toList, joinC ':' ((ord s).map String.toList), true⟩]

/-- The fields of a node line. -/
def nodeFields (nt : NumText K) (ord : Splitter K → List String) (pred : String)
    (spl : Option (Splitter K)) (path : Text) : List SfField :=
  ⟨"NODE".toList, path, false⟩ ::
  ((if pred ≠ "" then [⟨"PRED".toList, pred.toList, false⟩] else []) ++ splitterFields nt ord spl)

theorem writeNode_eq (nt : NumText K) (ord : Splitter K → List String) (pred : String)
    (spl : Option (Splitter K)) (path : Text) :
    writeNode nt ord pred spl path = sfLine (nodeFields nt ord pred spl path) ++ ['\n'] := by
  unfold writeNode nodeFields sfLine
  cases spl with
  | none =>
    by_cases hp : pred = "" <;> simp [hp, splitterFields, SfField.text, joinC]
  | some s =>
    cases hs : s.numerical <;> by_cases hp : pred = "" <;>
      simp [hp, hs, splitterFields, SfField.text, joinC, describeMap]

theorem okKey {k v : Text} {q : Bool}
    (hk : k ≠ [] ∧ ∀ c ∈ k, isSpaceC c = false ∧ c ≠ '"' ∧ c ≠ '=' ∧ c ≠ '\n' ∧ c ≠ ',')
    (hv : Plain v) : SfField.OK ⟨k, v, q⟩ := by
  have hp := plain_of_simple hk.2
  exact ⟨hk.1, hp.noquote, hp.noequals, hp.noline, fun hm => (hk.2 _ hm).2.2.2.2 rfl, hp.noEdge, hv⟩

theorem nodeFields_ok {nt : NumText K} {ord : Splitter K → List String} {pred : String}
    {spl : Option (Splitter K)} {path : Text} (hpath : IsPath path) (hpred : Plain pred.toList)
    (hspl : ∀ s, spl = some s → s.Writable nt) (hord : ∀ s : Splitter K, (ord s).Perm s.left) :
    ∀ f ∈ nodeFields nt ord pred spl path, f.OK := by
  intro f hf
  unfold nodeFields at hf
  rw [List.mem_cons, List.mem_append] at hf
  rcases hf with rfl | hf | hf
  · exact okKey (by decide) hpath.plain
  · split_ifs at hf
    · rw [List.mem_singleton] at hf
      subst hf
      exact okKey (by decide) hpred
    · cases hf
  · cases spl with
    | none => cases hf
    | some s =>
      have hw := hspl s rfl
      unfold splitterFields at hf
      cases hn : s.numerical with
      | true =>
        have hnum := (hw.num hn).2.1
        simp only [hn, if_true, List.mem_cons, List.not_mem_nil, or_false] at hf
        rcases hf with rfl | rfl | rfl | rfl
        · exact okKey (by decide) hw.feature
        · exact okKey (by decide) (plain_of_simple (by decide))
        · exact okKey (by decide) hnum
        · exact okKey (by decide) hnum
      | false =>
        have hcat := (hw.cat hn).2.2
        simp only [hn, Bool.false_eq_true, if_false, List.mem_cons, List.not_mem_nil, or_false] at hf
        rcases hf with rfl | rfl | rfl
        · exact okKey (by decide) hw.feature
        · exact okKey (by decide) (plain_of_simple (by decide))
        · refine okKey (by decide) (plain_joinKeys _ ?_)
          intro k hk
          obtain ⟨x, hx, rfl⟩ := List.mem_map.1 hk
          exact (hcat x ((hord s).mem_iff.1 hx)).1

/-- What is found in a node line. -/
theorem nodeFields_read {nt : NumText K} {ord : Splitter K → List String} {pred : String}
    {spl : Option (Splitter K)} {path : Text} (hspl : ∀ s, spl = some s → s.Writable nt)
    (hord : ∀ s : Splitter K, (ord s).Perm s.left) :
    let parsed := (nodeFields nt ord pred spl path).map fun f => (f.key, f.value)
    getKey parsed "NODE" = some path ∧
    String.ofList ((getKey parsed "PRED").getD []) = pred ∧
    readSplitter nt parsed = spl.map (backSplitter ord) := by
  intro parsed
  cases spl with
  | none =>
    by_cases hp : pred = ""
    · simp [parsed, nodeFields, splitterFields, hp, getKey, readSplitter]
    · simp [parsed, nodeFields, splitterFields, hp, getKey, readSplitter]
  | some s =>
    have hw := hspl s rfl
    cases hn : s.numerical with
    | true =>
      have hnum := (hw.num hn).2.2
      by_cases hp : pred = ""
      · simp [parsed, nodeFields, splitterFields, hp, hn, getKey, readSplitter, backSplitter, hnum]
      · simp [parsed, nodeFields, splitterFields, hp, hn, getKey, readSplitter, backSplitter, hnum]
    | false =>
      have hcat := hw.cat hn
      have hne : (ord s).map String.toList ≠ [] := by
        intro e
        have : ord s = [] := List.map_eq_nil_iff.1 e
        have h2 := hord s
        rw [this] at h2
        exact hcat.2.1 (List.nil_perm.1 h2)
      have hsp : splitC ':' (joinC ':' ((ord s).map String.toList)) = (ord s).map String.toList := by
        apply splitC_join hne
        intro p hp
        obtain ⟨x, hx, rfl⟩ := List.mem_map.1 hp
        exact (hcat.2.2 x ((hord s).mem_iff.1 hx)).2
      by_cases hp : pred = ""
      · simp [parsed, nodeFields, splitterFields, hp, hn, getKey, readSplitter, backSplitter, hsp,
          Function.comp_def]
      · simp [parsed, nodeFields, splitterFields, hp, hn, getKey, readSplitter, backSplitter, hsp,
          Function.comp_def]

/-- Reading a node line adds the node. -/
theorem readSfLine_node {nt : NumText K} {ord : Splitter K → List String} {pred : String}
    {spl : Option (Splitter K)} {path : Text} (hpath : IsPath path) (hpred : Plain pred.toList)
    (hspl : ∀ s, spl = some s → s.Writable nt) (hord : ∀ s : Splitter K, (ord s).Perm s.left)
    (t : Tree K) (fo : Option (Forest K)) :
    readSfLine nt ⟨some t, fo⟩ (writeNode nt ord pred spl path) =
      (t.root.addNode path pred (spl.map (backSplitter ord))).map fun root =>
        some ⟨some { t with root := root }, fo⟩ := by
  obtain ⟨h1, h2, h3⟩ := nodeFields_read (pred := pred) (path := path) hspl hord
  have hok := nodeFields_ok hpath hpred hspl hord
  have hN : ∃ s, writeNode nt ord pred spl path = 'N' :: 'O' :: 'D' :: 'E' :: s := by
    unfold writeNode
    exact ⟨_, rfl⟩
  have hpar : parseSfLine (writeNode nt ord pred spl path) =
      some ((nodeFields nt ord pred spl path).map fun f => (f.key, f.value)) := by
    rw [writeNode_eq]
    exact parseSfLine_line _ _ hok
  obtain ⟨s, hs⟩ := hN
  unfold readSfLine
  rw [hpar]
  simp only [Option.bind_eq_bind, Option.bind_some]
  rw [if_neg (by rw [hs]; simp), if_neg (by rw [hs]; simp), if_pos (by rw [hs]; simp)]
  rw [h1, h2, h3]
  simp only [Option.getD_some]
  cases t.root.addNode path pred (spl.map (backSplitter ord)) <;> rfl

end CloudForest
