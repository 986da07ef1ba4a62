import Verif.Model.Toafm
import Verif.Props.Matrix
import Verif.Props.Libsvm
import Mathlib.Tactic.IntervalCases

set_option linter.unusedSectionVars false

/-!
# C105, C106: toafm
-/

namespace CloudForest
variable {K : Type} [Field K] [LinearOrder K] [IsStrictOrderedRing K]

/-! ## Specification -/

/-- The features that toafm should keep: those not on the list, and those named by an option. -/
def keptFeatures (data : List (Feature K)) (anon libsvm : String) (ids : List String) : List (Feature K) :=
  data.filter fun f => decide (f.name ∉ ids ∨ f.name = anon ∨ f.name = libsvm)

/-- The name with a mark for the kind, unless it has one. -/
def kindMarked : Feature K → String
  | .num f => if ['N', ':'] <+: f.name.toList then f.name else "N:" ++ f.name
  | .cat f => if ['C', ':'] <+: f.name.toList ∨ ['B', ':'] <+: f.name.toList then f.name else "C:" ++ f.name

/-- The same kind of feature, and for the first `n` cases the same are missing and the others have the same category or
number. -/
def Feature.SameCases (n : Nat) : Feature K → Feature K → Prop
  | .num f, .num g => ∀ c < n, g.missing[c]? = f.missing[c]? ∧
      (f.missing[c]? = some false → g.numData[c]? = f.numData[c]?)
  | .cat f, .cat g => ∀ c < n, g.missing[c]? = f.missing[c]? ∧ (f.missing[c]? = some false → g.getStr c = f.getStr c)
  | _, _ => False

/-! ## Names -/

theorem take_two_prefix (a b : Char) (l : List Char) : l.take 2 = [a, b] ↔ [a, b] <+: l := by
  rw [List.prefix_iff_eq_take]
  exact eq_comm

theorem annotate_name (f : Feature K) : f.annotate.name = kindMarked f := by
  cases f with
  | num f =>
    simp only [Feature.annotate, Feature.name, kindMarked, hasMark, beq_iff_eq, take_two_prefix]
  | cat f =>
    simp only [Feature.annotate, Feature.name, kindMarked, hasMark, beq_iff_eq, take_two_prefix, Bool.or_eq_true]

theorem utf8_marked {s : String} {a : Char} (h : [a, ':'] <+: s.toList) (ha : (String.ofList [a, ':']).utf8ByteSize = 2) :
    2 ≤ s.utf8ByteSize := by
  obtain ⟨t, ht⟩ := h
  have : s = String.ofList [a, ':'] ++ String.ofList t := by
    apply String.toList_inj.1
    simp [String.toList_append, ← ht]
  rw [this, String.utf8ByteSize_append]
  omega

theorem annotate_typed (f : Feature K) : f.annotate.TypedName := by
  have hname := annotate_name f
  cases f with
  | num f =>
    have goal : ((Feature.num f).annotate.name).toList.take 2 = ['N', ':'] := by
      rw [take_two_prefix, hname]
      simp only [kindMarked]
      split
      · assumption
      · exact ⟨f.name.toList, by simp [String.toList_append]⟩
    exact goal
  | cat f =>
    have goal : ['C', ':'] <+: ((Feature.cat f : Feature K).annotate.name).toList ∨
        ['B', ':'] <+: ((Feature.cat f : Feature K).annotate.name).toList := by
      rw [hname]
      simp only [kindMarked]
      split
      · assumption
      · exact .inl ⟨f.name.toList, by simp [String.toList_append]⟩
    rcases goal with h | h
    · exact ⟨utf8_marked h (by decide), fun e => by
        have e := (take_two_prefix _ _ _).2 h ▸ e
        exact absurd e (by decide)⟩
    · exact ⟨utf8_marked h (by decide), fun e => by
        have e := (take_two_prefix _ _ _).2 h ▸ e
        exact absurd e (by decide)⟩

theorem annotate_tabless {f : Feature K} (h : Tabless f.name.toList) : Tabless f.annotate.name.toList := by
  rw [annotate_name]
  have happ : ∀ a : Char, a ≠ '\t' → a ≠ '"' → a ≠ '\n' → a ≠ '\r' → ∀ s : String, Tabless s.toList →
      Tabless (String.toList (String.ofList [a, ':'] ++ s)) := by
    intro a h1 h2 h3 h4 s hs
    simp only [String.toList_append, String.toList_ofList, Tabless, List.mem_append, List.mem_cons, List.not_mem_nil,
      or_false, not_or]
    exact ⟨⟨⟨h1.symm, by decide⟩, hs.1⟩, ⟨⟨h2.symm, by decide⟩, hs.2.1⟩, ⟨⟨h3.symm, by decide⟩, hs.2.2.1⟩,
      ⟨⟨h4.symm, by decide⟩, hs.2.2.2⟩⟩
  cases f with
  | num f =>
    simp only [kindMarked]
    split
    · exact h
    · exact happ 'N' (by decide) (by decide) (by decide) (by decide) _ h
  | cat f =>
    simp only [kindMarked]
    split
    · exact h
    · exact happ 'C' (by decide) (by decide) (by decide) (by decide) _ h

/-! ## The blacklist -/

/-- The marks are those of the indices the names stand for. -/
theorem toafmMarks_eq (fm : FeatureMatrix K) (hi : fm.Indexed) (anon libsvm : String) (ids : List String) :
    ∃ marks, toafmMarks fm anon libsvm ids = some marks ∧ marks.length = fm.data.length ∧
      ∀ i < fm.data.length, (marks[i]? = some true ↔ ∃ id ∈ ids, id ≠ anon ∧ id ≠ libsvm ∧ fm.map id = some i) ∧
        (marks[i]? = some false ↔ ¬ ∃ id ∈ ids, id ≠ anon ∧ id ≠ libsvm ∧ fm.map id = some i) := by
  suffices h : ∀ (ids : List String) (m0 : List Bool), m0.length = fm.data.length →
      ∃ marks, ids.foldlM (fun marks id =>
        if id = anon ∨ id = libsvm then some marks
        else (fm.map id).elim (some marks) fun i => marks[i]?.map fun _ => marks.set i true) m0 = some marks ∧
        marks.length = fm.data.length ∧
        ∀ i < fm.data.length, (marks[i]? = some true ↔ m0[i]? = some true ∨
          ∃ id ∈ ids, id ≠ anon ∧ id ≠ libsvm ∧ fm.map id = some i) by
    obtain ⟨marks, h1, h2, h3⟩ := h ids (List.replicate fm.data.length false) (by simp)
    refine ⟨marks, h1, h2, fun i hlt => ?_⟩
    have h4 := h3 i hlt
    have h5 : (List.replicate fm.data.length false)[i]? = some false := by simp [hlt]
    rw [h5] at h4
    have h4 : marks[i]? = some true ↔ ∃ id ∈ ids, id ≠ anon ∧ id ≠ libsvm ∧ fm.map id = some i :=
      h4.trans (or_iff_right (by simp))
    refine ⟨h4, ?_⟩
    obtain ⟨b, hb⟩ : ∃ b, marks[i]? = some b := ⟨_, List.getElem?_eq_getElem (by omega)⟩
    rw [← h4, hb]
    cases b <;> simp
  intro ids
  induction ids with
  | nil => intro m0 h0; exact ⟨m0, rfl, h0, fun i _ => by simp⟩
  | cons id ids ih =>
    intro m0 h0
    rw [List.foldlM_cons]
    by_cases hskip : id = anon ∨ id = libsvm
    · rw [if_pos hskip]
      obtain ⟨marks, h1, h2, h3⟩ := ih m0 h0
      refine ⟨marks, h1, h2, fun i hlt => (h3 i hlt).trans (or_congr Iff.rfl ?_)⟩
      constructor
      · rintro ⟨x, hx, h⟩; exact ⟨x, List.mem_cons_of_mem _ hx, h⟩
      · rintro ⟨x, hx, h⟩
        rcases List.mem_cons.1 hx with rfl | hx
        · exact absurd hskip (not_or.2 ⟨h.1, h.2.1⟩)
        · exact ⟨x, hx, h⟩
    · rw [if_neg hskip]
      have hskip := not_or.1 hskip
      cases hm : fm.map id with
      | none =>
        obtain ⟨marks, h1, h2, h3⟩ := ih m0 h0
        refine ⟨marks, h1, h2, fun i hlt => (h3 i hlt).trans (or_congr Iff.rfl ?_)⟩
        constructor
        · rintro ⟨x, hx, h⟩; exact ⟨x, List.mem_cons_of_mem _ hx, h⟩
        · rintro ⟨x, hx, h⟩
          rcases List.mem_cons.1 hx with rfl | hx
          · rw [hm] at h; cases h.2.2
          · exact ⟨x, hx, h⟩
      | some k =>
        obtain ⟨f, hf, -⟩ := hi.sound id k hm
        have hk : k < m0.length := by rw [h0]; exact (List.getElem?_eq_some_iff.1 hf).1
        simp only [Option.elim_some, List.getElem?_eq_getElem hk, Option.map_some, Option.bind_eq_bind,
          Option.bind_some]
        obtain ⟨marks, h1, h2, h3⟩ := ih (m0.set k true) (by simpa using h0)
        refine ⟨marks, h1, h2, fun i hlt => (h3 i hlt).trans ?_⟩
        by_cases hik : k = i
        · subst hik
          rw [List.getElem?_set_self hk]
          simp only [true_or, true_iff]
          exact .inr ⟨id, List.mem_cons_self, hskip.1, hskip.2, hm⟩
        · rw [List.getElem?_set_ne hik]
          refine or_congr Iff.rfl ?_
          constructor
          · rintro ⟨x, hx, h⟩; exact ⟨x, List.mem_cons_of_mem _ hx, h⟩
          · rintro ⟨x, hx, h⟩
            rcases List.mem_cons.1 hx with rfl | hx
            · rw [hm] at h; exact absurd (Option.some.inj h.2.2) hik
            · exact ⟨x, hx, h⟩

theorem zip_filter_map {α : Type} (p : α → Bool) :
    ∀ (l : List α) (marks : List Bool), marks.length = l.length →
      (∀ (i : Nat) (x : α), l[i]? = some x → (marks[i]? = some false ↔ p x = true)) →
      ((l.zip marks).filter fun x => !x.2).map (·.1) = l.filter p := by
  intro l
  induction l with
  | nil => intro marks _ _; simp
  | cons x l ih =>
    intro marks hl h
    cases marks with
    | nil => simp at hl
    | cons b marks =>
      have h0 := h 0 x rfl
      have ht := ih marks (by simpa using hl) fun i y hy => h (i + 1) y hy
      cases b
      · have : p x = true := h0.1 rfl
        simp [this, ht]
      · have : ¬ p x = true := fun hp => by simpa using h0.2 hp
        simp [this, ht]

/-- The features that are left are those to be kept. -/
theorem without_kept (fm : FeatureMatrix K) (hi : fm.Indexed) (hn : (fm.data.map Feature.name).Nodup)
    (anon libsvm : String) (ids : List String) :
    ∃ marks, toafmMarks fm anon libsvm ids = some marks ∧
      (fm.without marks).data = keptFeatures fm.data anon libsvm ids := by
  obtain ⟨marks, h1, h2, h3⟩ := toafmMarks_eq fm hi anon libsvm ids
  refine ⟨marks, h1, zip_filter_map _ _ _ h2 fun i f hf => ?_⟩
  have hlt := (List.getElem?_eq_some_iff.1 hf).1
  rw [(h3 i hlt).2, decide_eq_true_iff]
  constructor
  · intro h
    by_contra hc
    simp only [not_or, not_not] at hc
    obtain ⟨k, hk⟩ := hi.complete f (List.mem_of_getElem? hf)
    obtain ⟨g, hg, hgn⟩ := hi.sound _ _ hk
    have : k = i := by
      have e1 : (fm.data.map Feature.name)[k]? = some f.name := by rw [List.getElem?_map, hg]; simp [hgn]
      have e2 : (fm.data.map Feature.name)[i]? = some f.name := by rw [List.getElem?_map, hf]; rfl
      exact (List.getElem?_inj (by simpa using (List.getElem?_eq_some_iff.1 hg).1) hn).1 (e1.trans e2.symm)
    subst this
    exact h ⟨f.name, hc.1, hc.2.1, hc.2.2, hk⟩
  · rintro h ⟨id, hid, ha, hl, hm⟩
    obtain ⟨g, hg, hgn⟩ := hi.sound _ _ hm
    rw [hf] at hg
    cases hg
    subst hgn
    rcases h with h | h | h
    · exact h hid
    · exact ha h
    · exact hl h

/-! ## C105 -/

theorem annotate_writable {nt : NumText K} {f : Feature K} {c : Nat} (h : f.CaseWritable nt c) :
    f.annotate.CaseWritable nt c := by
  cases f <;> exact h

theorem annotate_sameOn {n : Nat} {f g : Feature K} (h : f.annotate.SameOn (List.range n) g) : f.SameCases n g := by
  have hr : ∀ c < n, (List.range n)[c]? = some c := fun c hc => List.getElem?_range hc
  cases f <;> cases g <;> first | exact h.elim | exact fun c hc => h.2.2 c c (hr c hc)

/-- **C105**: toafm without options but a blacklist writes a file that is read as the features that are not on the
list, in their order, under names marked with their kinds, with the same labels and values. Needed besides what C23
needs is nothing: in particular the names may be of any kind. -/
theorem c105_file (nt : NumText K) (fm : FeatureMatrix K) (hi : fm.Indexed) (hn : (fm.data.map Feature.name).Nodup)
    (ids : List String) (n : Nat) (hpos : 0 < n) (hlen : ∀ f ∈ fm.data, f.length = n)
    (hkept : keptFeatures fm.data "" "" ids ≠ [])
    (hlab : ∀ c < n, ∃ l, fm.caseLabels[c]? = some l ∧ Tabless l.toList)
    (hfirst : ∀ l, fm.caseLabels[0]? = some l → l.toList.take 2 ∉ [['N', ':'], ['C', ':'], ['B', ':']])
    (hnames : ∀ f ∈ fm.data, Tabless f.name.toList) (hcases : ∀ f ∈ fm.data, ∀ c < n, f.CaseWritable nt c)
    (hna : nt.parse "NA".toList = none) :
    ∃ text fm', toafm nt fm "" "" ids = some text ∧ parseAFM nt text = some fm' ∧ fm'.Indexed ∧
      fm'.caseLabels.length = n ∧ (∀ c < n, fm'.caseLabels[c]? = fm.caseLabels[c]?) ∧
      fm'.data.length = (keptFeatures fm.data "" "" ids).length ∧
      ∀ (i : Nat) (f : Feature K), (keptFeatures fm.data "" "" ids)[i]? = some f →
        ∃ g, fm'.data[i]? = some g ∧ g.name = kindMarked f ∧ f.SameCases n g := by
  obtain ⟨marks, hm, hd⟩ := without_kept fm hi hn "" "" ids
  have hsub : ∀ f ∈ keptFeatures fm.data "" "" ids, f ∈ fm.data := fun f hf => (List.mem_filter.1 hf).1
  set kept := keptFeatures fm.data "" "" ids with hk
  obtain ⟨f0, hf0⟩ : ∃ f0, kept[0]? = some f0 := by
    cases h : kept with
    | nil => exact absurd h hkept
    | cons a l => exact ⟨a, rfl⟩
  let out : FeatureMatrix K := ⟨kept.map Feature.annotate, (fm.without marks).map, fm.caseLabels⟩
  have hout : toafmMatrix fm "" "" ids = some out := by
    rw [toafmMatrix, hm]
    simp only [Option.bind_some, ne_eq, not_true_eq_false, if_false, hd]
    rfl
  have hlen0 : f0.annotate.length = n := by
    have := hlen f0 (hsub _ (List.mem_of_getElem? hf0))
    rw [← this]
    cases f0 <;> rfl
  have htext : toafm nt fm "" "" ids = out.writeCases nt (List.range n) := by
    rw [toafm, hout]
    have : out.data[0]? = some f0.annotate := by simp [out, hf0]
    simp [this, hlen0]
  have hw : out.Writable nt (List.range n) :=
    { nonempty := by simpa using by omega
      labels := fun c hc => hlab c (List.mem_range.1 hc)
      first := by
        intro c l hc hl
        rw [List.head?_range, if_neg (by omega)] at hc
        cases hc
        exact hfirst l hl
      names := by
        intro f hf
        obtain ⟨f, hf', rfl⟩ := List.mem_map.1 hf
        exact ⟨annotate_tabless (hnames f (hsub f hf')), annotate_typed f⟩
      cases := by
        intro f hf c hc
        obtain ⟨f, hf', rfl⟩ := List.mem_map.1 hf
        exact annotate_writable (hcases f (hsub f hf') c (List.mem_range.1 hc))
      na := hna }
  obtain ⟨text, fm', h1, h2, h3, h4, h5, h6, h7⟩ := c23_roundtrip_partial nt out _ hw
  refine ⟨text, fm', by rw [htext, h1], h2, h7, by simpa using h4,
    fun c hc => h3 c c (List.getElem?_range hc), by simpa [out] using h5, fun i f hf => ?_⟩
  obtain ⟨g, hg, hs, hgn⟩ := h6 i f.annotate (by simp [out, hf])
  exact ⟨g, hg, by rw [hgn, annotate_name], annotate_sameOn hs⟩

/-! ## C106 -/

/-- Two features that differ at most in their names and the strings of their categories. -/
def Feature.SameShape : Feature K → Feature K → Prop
  | .num f, .num g => g.numData = f.numData ∧ g.missing = f.missing
  | .cat f, .cat g => g.catData = f.catData ∧ g.missing = f.missing ∧ g.cm.back.length = f.cm.back.length
  | _, _ => False

/-- Two matrices that differ at most in strings: those of features, categories and labels. -/
def FeatureMatrix.SameShape (fm fm' : FeatureMatrix K) : Prop :=
  List.Forall₂ Feature.SameShape fm.data fm'.data ∧ fm.caseLabels.length = fm'.caseLabels.length

theorem strip_shape {f g : Feature K} (h : f.SameShape g) (i : Nat) :
    (f.strip i).annotate.name = (g.strip i).annotate.name ∧ (f.strip i).annotate.length = (g.strip i).annotate.length ∧
    ∀ (nt : NumText K) (c : Nat), (f.strip i).annotate.getStr nt c = (g.strip i).annotate.getStr nt c := by
  cases f with
  | num f =>
    cases g with
    | cat g => exact h.elim
    | num g =>
      obtain ⟨h1, h2⟩ := h
      refine ⟨rfl, ?_, fun nt c => ?_⟩
      · simp only [Feature.strip, Feature.annotate, Feature.length, h1, h2]
      · simp only [Feature.strip, Feature.annotate, Feature.getStr, NumFeature.getStr, h1, h2]
  | cat f =>
    cases g with
    | num g => exact h.elim
    | cat g =>
      obtain ⟨h1, h2, h3⟩ := h
      refine ⟨rfl, ?_, fun nt c => ?_⟩
      · simp only [Feature.strip, Feature.annotate, Feature.length, h1, h2]
      · simp only [Feature.strip, Feature.annotate, Feature.getStr, CatFeature.getStr, h1, h2, h3]

theorem swap_shape {a b : String} {l l' : List (Feature K)} (h : List.Forall₂ Feature.SameShape l l')
    (ht : List.Forall₂ (fun f g => f.name = a ↔ g.name = b) l l') :
    List.Forall₂ Feature.SameShape (swapTarget a l) (swapTarget b l') := by
  have hidx : l.findIdx? (fun f => f.name == a) = l'.findIdx? (fun f => f.name == b) := by
    clear h
    induction ht with
    | nil => rfl
    | cons h _ ih =>
      rename_i f g _ _ _
      rw [List.findIdx?_cons, List.findIdx?_cons, ih]
      by_cases hf : f.name = a
      · simp [hf, h.1 hf]
      · have hg : ¬ g.name = b := fun hg => hf (h.2 hg)
        simp [hf, hg]
  have hset : ∀ {l l' : List (Feature K)}, List.Forall₂ Feature.SameShape l l' → ∀ (i : Nat) {f g : Feature K},
      f.SameShape g → List.Forall₂ Feature.SameShape (l.set i f) (l'.set i g) := by
    intro l l' h
    induction h with
    | nil => intro i f g _; exact .nil
    | cons h hs ih =>
      intro i f g hfg
      cases i with
      | zero => exact .cons hfg hs
      | succ i => exact .cons h (ih i hfg)
  have hget : ∀ {l l' : List (Feature K)}, List.Forall₂ Feature.SameShape l l' → ∀ i : Nat,
      (l[i]? = none ∧ l'[i]? = none) ∨ ∃ f g, l[i]? = some f ∧ l'[i]? = some g ∧ f.SameShape g := by
    intro l l' h
    induction h with
    | nil => intro i; exact .inl ⟨rfl, rfl⟩
    | cons h hs ih =>
      intro i
      cases i with
      | zero => exact .inr ⟨_, _, rfl, rfl, h⟩
      | succ i => simpa using ih i
  unfold swapTarget
  rw [hidx]
  cases l'.findIdx? fun f => f.name == b with
  | none => exact h
  | some i =>
    rcases hget h i with ⟨e1, e2⟩ | ⟨f, g, e1, e2, e3⟩
    · simp only [e1, e2]; exact h
    · rcases hget h 0 with ⟨e1', e2'⟩ | ⟨f0, g0, e1', e2', e3'⟩
      · simp only [e1, e2, e1', e2']; exact h
      · simp only [e1, e2, e1', e2']
        exact hset (hset h i e3') 0 e3

theorem writeCases_congr (nt : NumText K) (fm fm' : FeatureMatrix K) (cases : List Nat)
    (hl : fm.caseLabels = fm'.caseLabels)
    (h : List.Forall₂ (fun f g => f.name = g.name ∧ ∀ c, f.getStr nt c = g.getStr nt c) fm.data fm'.data) :
    fm.writeCases nt cases = fm'.writeCases nt cases := by
  unfold FeatureMatrix.writeCases
  rw [hl]
  congr 1
  funext labels
  have : (fm.data.mapM fun f => do
      let vals ← cases.mapM fun c => f.getStr nt c
      some (f.name :: vals)) = (fm'.data.mapM fun f => do
      let vals ← cases.mapM fun c => f.getStr nt c
      some (f.name :: vals)) := by
    generalize fm.data = l at h
    generalize fm'.data = l' at h
    induction h with
    | nil => rfl
    | cons h _ ih =>
      rw [List.mapM_cons, List.mapM_cons, ih]
      simp only [h.1, h.2]
  rw [this]

/-- **C106**: with `-anontarget` the file depends on the data only through the numbers, the numbers of the categories,
and what is missing: two matrices that differ at most in the strings for features, categories and labels, with the
target at the same place and the same features blacklisted, are written as the same file. -/
theorem c106_anonymous (nt : NumText K) (fm fm' : FeatureMatrix K) (hs : fm.SameShape fm') (a b : String) (ha : a ≠ "")
    (hb : b ≠ "") (ht : List.Forall₂ (fun f g => f.name = a ↔ g.name = b) fm.data fm'.data) (ids ids' : List String)
    (hm : toafmMarks fm a "" ids = toafmMarks fm' b "" ids') : toafm nt fm a "" ids = toafm nt fm' b "" ids' := by
  unfold toafm toafmMatrix
  rw [hm]
  cases hmarks : toafmMarks fm' b "" ids' with
  | none => rfl
  | some marks =>
    simp only [Option.bind_some, ne_eq, ha, hb, not_false_eq_true, if_true]
    have hdrop : ∀ (R : Feature K → Feature K → Prop), ∀ {l l' : List (Feature K)}, List.Forall₂ R l l' →
        ∀ marks : List Bool, List.Forall₂ R (((l.zip marks).filter fun x => !x.2).map (·.1))
          (((l'.zip marks).filter fun x => !x.2).map (·.1)) := by
      intro R l l' h
      induction h with
      | nil => intro marks; simp
      | cons h _ ih =>
        intro marks
        cases marks with
        | nil => simp
        | cons m marks =>
          cases m
          · exact .cons h (ih marks)
          · exact ih marks
    have hsw := swap_shape (hdrop _ hs.1 marks) (hdrop _ ht marks)
    have hout : List.Forall₂ (fun f g => f.name = g.name ∧ f.length = g.length ∧ ∀ c, f.getStr nt c = g.getStr nt c)
        (((fm.without marks).stripStrings a).data.map Feature.annotate)
        (((fm'.without marks).stripStrings b).data.map Feature.annotate) := by
      simp only [FeatureMatrix.stripStrings, List.map_map]
      show List.Forall₂ _ (((swapTarget a (fm.without marks).data).zipIdx).map fun x => (x.1.strip x.2).annotate)
        (((swapTarget b (fm'.without marks).data).zipIdx).map fun x => (x.1.strip x.2).annotate)
      have key : ∀ {l l' : List (Feature K)}, List.Forall₂ Feature.SameShape l l' → ∀ n : Nat,
          List.Forall₂ (fun f g => f.name = g.name ∧ f.length = g.length ∧ ∀ c, f.getStr nt c = g.getStr nt c)
            ((l.zipIdx n).map fun x => (x.1.strip x.2).annotate)
            ((l'.zipIdx n).map fun x => (x.1.strip x.2).annotate) := by
        intro l l' h
        induction h with
        | nil => intro n; exact .nil
        | cons h _ ih =>
          intro n
          rw [List.zipIdx_cons, List.zipIdx_cons, List.map_cons, List.map_cons]
          exact .cons ⟨(strip_shape h n).1, (strip_shape h n).2.1, (strip_shape h n).2.2 nt⟩ (ih (n + 1))
      exact key hsw 0
    have hlab : ((fm.without marks).stripStrings a).caseLabels = ((fm'.without marks).stripStrings b).caseLabels := by
      simp only [FeatureMatrix.stripStrings, FeatureMatrix.without, hs.2]
    have hw := writeCases_congr nt { (fm.without marks).stripStrings a with
        data := ((fm.without marks).stripStrings a).data.map Feature.annotate }
      { (fm'.without marks).stripStrings b with
        data := ((fm'.without marks).stripStrings b).data.map Feature.annotate }
    generalize ((fm.without marks).stripStrings a).data.map Feature.annotate = l at hout hw ⊢
    generalize ((fm'.without marks).stripStrings b).data.map Feature.annotate = l' at hout hw ⊢
    have hall := hout.imp fun _ _ h => And.intro h.1 h.2.2
    cases hout with
    | nil => rfl
    | cons h _ =>
      simp only [List.getElem?_cons_zero, Option.bind_some, if_true, h.2.1]
      exact hw _ hlab hall

/-- **C106**, the place of the target, **is false of the code** if the name is not in the data: no error is reported, and
the file is as if the first feature had been named. -/
theorem c106_unknown_target (nt : NumText K) (fm : FeatureMatrix K) (a : String) (ha : a ≠ "")
    (hno : ∀ f ∈ fm.data, f.name ≠ a) (f0 : Feature K) (h0 : fm.data[0]? = some f0) (hne : f0.name ≠ "") :
    toafm nt fm a "" [] = toafm nt fm f0.name "" [] := by
  obtain ⟨rest, hd⟩ : ∃ rest, fm.data = f0 :: rest := by
    cases h : fm.data with
    | nil => simp [h] at h0
    | cons x l => rw [h] at h0; cases h0; exact ⟨l, rfl⟩
  have hw : (fm.without (List.replicate fm.data.length false)).data = fm.data := by
    have := zip_filter_map (fun _ => true) fm.data (List.replicate fm.data.length false) (by simp) (by
      intro i x hx
      simp [(List.getElem?_eq_some_iff.1 hx).1])
    simpa [FeatureMatrix.without] using this
  have h1 : swapTarget a fm.data = fm.data := by
    unfold swapTarget
    have : fm.data.findIdx? (fun f => f.name == a) = none := by
      rw [List.findIdx?_eq_none_iff]
      intro f hf
      simpa using hno f hf
    rw [this]
  have h2 : swapTarget f0.name fm.data = fm.data := by
    unfold swapTarget
    rw [hd, List.findIdx?_cons]
    simp
  unfold toafm toafmMatrix toafmMarks
  simp only [List.foldlM_nil, Option.pure_def, Option.bind_some, ne_eq, ha, hne, not_false_eq_true, if_true,
    FeatureMatrix.stripStrings, hw, h1, h2]

/-! ## Examples -/

/-- As from an ARFF file: the names say nothing of the kinds. -/
def exPlain : FeatureMatrix ℚ :=
  [.num { exAge with name := "age" }, .cat { exLevel with name := "level" }, .cat { exFlag with name := "N:flag" }].foldl
    .push ⟨[], fun _ => none, ["a", "b", "c", "d", "e"]⟩

example : toafm exNums exPlain "" "" ["level", "absent"] =
    some ".\ta\tb\tc\td\te\nN:age\t2\tNA\t0.5\t0.5\t-3\nC:N:flag\tyes\tno\tno\tNA\tyes\n".toList := by decide +kernel

example : ∃ text fm', toafm exNums exPlain "" "" ["level", "absent"] = some text ∧ parseAFM exNums text = some fm' ∧
    fm'.Indexed ∧ fm'.caseLabels.length = 5 ∧ (∀ c < 5, fm'.caseLabels[c]? = exPlain.caseLabels[c]?) ∧
    fm'.data.length = 2 ∧
    ∀ (i : Nat) (f : Feature ℚ), (keptFeatures exPlain.data "" "" ["level", "absent"])[i]? = some f →
      ∃ g, fm'.data[i]? = some g ∧ g.name = kindMarked f ∧ f.SameCases 5 g := by
  have hmem : ∀ f ∈ exPlain.data, f = .num { exAge with name := "age" } ∨ f = .cat { exLevel with name := "level" } ∨
      f = .cat { exFlag with name := "N:flag" } := by
    intro f hf
    have e : exPlain.data = [.num { exAge with name := "age" }, .cat { exLevel with name := "level" },
      .cat { exFlag with name := "N:flag" }] := rfl
    rw [e] at hf
    simpa only [List.mem_cons, List.not_mem_nil, or_false] using hf
  refine c105_file exNums exPlain ((FeatureMatrix.Indexed.empty _).pushAll _) (by decide +kernel) _ 5 (by decide) ?_ ?_ ?_ ?_
    ?_ ?_ (by decide +kernel)
  · intro f hf
    rcases hmem f hf with rfl | rfl | rfl <;> decide +kernel
  · have e : (keptFeatures exPlain.data "" "" ["level", "absent"]).length = 2 := by decide +kernel
    intro h
    rw [h] at e
    cases e
  · have : ∀ c : Fin 5, (exPlain.caseLabels[c.1]?).any (fun l => decide (Tabless l.toList)) = true := by
      unfold Tabless
      decide +kernel
    intro c hc
    obtain ⟨l, h1, h2⟩ := (Option.any_eq_true _ _).1 (this ⟨c, hc⟩)
    exact ⟨l, h1, by simpa using h2⟩
  · intro l hl
    have e : exPlain.caseLabels[0]? = some "a" := by decide +kernel
    rw [e] at hl
    cases hl
    decide +kernel
  · intro f hf
    unfold Tabless
    rcases hmem f hf with rfl | rfl | rfl <;> decide +kernel
  · have hnum : ∀ (f : NumFeature ℚ) (c : Nat), (decide (f.missing[c]? = some true) ||
        (decide (f.missing[c]? = some false) && (f.numData[c]?).any fun x => decide (Tabless (exNums.fmt x)) &&
          decide (exNums.parse (exNums.fmt x) = some x))) = true → (Feature.num f).CaseWritable exNums c := by
      intro f c h
      simp only [Bool.or_eq_true, Bool.and_eq_true, decide_eq_true_eq, Option.any_eq_true] at h
      exact h
    have hcat : ∀ (f : CatFeature) (c : Nat), (decide (f.missing[c]? = some true) ||
        (decide (f.missing[c]? = some false) && (f.catData[c]?).any fun k => (f.cm.back[k]?).any fun s =>
          decide (Tabless s.toList) && decide (isMissingToken s = false))) = true →
        (Feature.cat f : Feature ℚ).CaseWritable exNums c := by
      intro f c h
      simp only [Bool.or_eq_true, Bool.and_eq_true, decide_eq_true_eq, Option.any_eq_true] at h
      refine h.imp id fun ⟨h1, k, h2, s, h3, h4⟩ => ⟨h1, k, s, h2, h3, h4⟩
    intro f hf c hc
    rcases hmem f hf with rfl | rfl | rfl
    · refine hnum _ c ?_
      interval_cases c <;> decide +kernel
    · refine hcat _ c ?_
      interval_cases c <;> decide +kernel
    · refine hcat _ c ?_
      interval_cases c <;> decide +kernel

/-- **C105**: distinct names need not stay distinct: "age" and "N:age" both become "N:age", and the file's index finds
only the second. -/
theorem c105_collision :
    let fm : FeatureMatrix ℚ := [.num { exAge with name := "age" }, .num exAge].foldl .push
      ⟨[], fun _ => none, ["a", "b", "c", "d", "e"]⟩
    fm.Indexed ∧ (fm.data.map Feature.name).Nodup ∧
    toafm exNums fm "" "" [] = some (".\ta\tb\tc\td\te\nN:age\t2\tNA\t0.5\t0.5\t-3\n".toList ++
      "N:age\t2\tNA\t0.5\t0.5\t-3\n".toList) ∧
    ((toafm exNums fm "" "" []).bind (parseAFM exNums)).map (fun fm => (fm.map "age", fm.map "N:age")) =
      some (none, some 1) :=
  ⟨(FeatureMatrix.Indexed.empty _).pushAll _, by decide +kernel, by decide +kernel, by decide +kernel⟩

/-- The same data under other names, with other categories and labels. -/
def exRenamed : FeatureMatrix ℚ :=
  [.num { exAge with name := "x" },
   .cat (["p", "q", "NA", "r", "p"].foldl (fun f v => f.append v) (.new "secret")),
   .cat (["0", "1", "1", "?", "0"].foldl (fun f v => f.append v) (.new "z"))].foldl
    .push ⟨[], fun _ => none, ["v", "w", "x", "y", "z"]⟩

example : toafm exNums exPlain "level" "" ["N:flag"] = toafm exNums exRenamed "secret" "" ["z"] :=
  c106_anonymous exNums exPlain exRenamed
    ⟨.cons ⟨rfl, rfl⟩ (.cons ⟨by decide +kernel, by decide +kernel, by decide +kernel⟩
      (.cons ⟨by decide +kernel, by decide +kernel, by decide +kernel⟩ .nil)), rfl⟩ _ _ (by decide) (by decide)
    (.cons (by decide) (.cons (by decide) (.cons (by decide) .nil))) _ _ (by decide +kernel)

example : toafm exNums exPlain "level" "" ["N:flag"] =
    some ".\t0\t1\t2\t3\t4\nC:0\t0\t1\tNA\t2\t0\nN:1\t2\tNA\t0.5\t0.5\t-3\n".toList := by decide +kernel

example : toafm exNums exPlain "levle" "" [] = toafm exNums exPlain "age" "" [] :=
  c106_unknown_target exNums exPlain "levle" (by decide) (by
    intro f hf
    have e : exPlain.data = [.num { exAge with name := "age" }, .cat { exLevel with name := "level" },
      .cat { exFlag with name := "N:flag" }] := rfl
    rw [e] at hf
    simp only [List.mem_cons, List.not_mem_nil, or_false] at hf
    rcases hf with rfl | rfl | rfl <;> decide) _ rfl (by decide)

end CloudForest
