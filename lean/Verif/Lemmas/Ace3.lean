import Verif.Lemmas.Ace2
import Verif.Lemmas.Parsed
import Verif.Lemmas.Matrix

/-! # Matrices with contrasts -/

set_option linter.unusedSectionVars false

namespace CloudForest
variable {K : Type} [Field K] [LinearOrder K] [IsStrictOrderedRing K] {τ : Type}

/-- A feature of `n` cases fit for contrasts: consistent, and a number has no missing values, which its contrast would hide, and no near ties. -/
def Feature.SoundFor (n : Nat) (f : Feature K) : Prop :=
  f.Consistent ∧ f.length = n ∧ match f with
    | .num f => true ∉ f.missing ∧ (∀ x ∈ f.numData, ∃ y, x = XF.fin y) ∧
        ∀ x y : K, .fin x ∈ f.numData → .fin y ∈ f.numData → x < y → x + 1 / 10000000 < y
    | .cat _ => True

theorem zip_perms {α : Type} {m m' : List Bool} {d d' : List α} (h : (m'.zip d').Perm (m.zip d)) (hl : d.length = m.length)
    (hl' : d'.length = m'.length) : m'.Perm m ∧ d'.Perm d := by
  constructor
  · have := h.map Prod.fst
    rwa [List.map_fst_zip (by omega), List.map_fst_zip (by omega)] at this
  · have := h.map Prod.snd
    rwa [List.map_snd_zip (by omega), List.map_snd_zip (by omega)] at this

theorem mem_zip_getElem? {α β : Type} {l : List α} {l' : List β} {i : Nat} {a : α} {b : β} (h : l[i]? = some a) (h' : l'[i]? = some b) :
    (a, b) ∈ l.zip l' := by
  refine List.mem_of_getElem? (i := i) ?_
  rw [List.getElem?_zip_eq_some]
  exact ⟨h, h'⟩

theorem getElem?_of_mem_zip {α β : Type} {l : List α} {l' : List β} {a : α} {b : β} (h : (a, b) ∈ l.zip l') :
    ∃ i : Nat, l[i]? = some a ∧ l'[i]? = some b := by
  obtain ⟨i, hi⟩ := List.mem_iff_getElem?.1 h
  exact ⟨i, List.getElem?_zip_eq_some.1 hi⟩

theorem Feature.SoundFor.rearranged {n : Nat} {f g : Feature K} (h : f.SoundFor n) (hr : Rearranged f g) : g.SoundFor n := by
  obtain ⟨h1, h2, h3⟩ := h
  cases f with
  | cat f =>
    cases g with
    | num g => exact hr.elim
    | cat g =>
      obtain ⟨r1, r2, r3⟩ := hr
      have h1 : f.Consistent := h1
      obtain ⟨p1, p2⟩ := zip_perms r1 h1.lengths r3
      have hcm : g.cm = f.cm := by rw [r2]
      have hhm : g.hasMissing = f.hasMissing := by rw [r2]
      refine ⟨⟨r3, by rw [hcm]; exact h1.map, fun i k e1 e2 => ?_, fun i e => ?_⟩, ?_, trivial⟩
      · obtain ⟨j, j1, j2⟩ := getElem?_of_mem_zip (r1.mem_iff.1 (mem_zip_getElem? e1 e2))
        rw [hcm]
        exact h1.valid j k j1 j2
      · obtain ⟨j, j1⟩ := List.mem_iff_getElem?.1 (p1.mem_iff.1 (List.mem_of_getElem? e))
        rw [hhm]
        exact h1.missing j j1
      · exact (show g.missing.length = n from p1.length_eq.trans h2)
  | num f =>
    cases g with
    | cat g => exact hr.elim
    | num g =>
      obtain ⟨r1, r2, r3⟩ := hr
      have h1 : f.Consistent := h1
      obtain ⟨p1, p2⟩ := zip_perms r1 h1.lengths r3
      have hhm : g.hasMissing = f.hasMissing := by rw [r2]
      obtain ⟨h3, h4, h5⟩ := h3
      refine ⟨⟨r3, fun i e => ?_⟩, (show g.missing.length = n from p1.length_eq.trans h2), fun h => h3 (p1.mem_iff.1 h),
        fun x hx => h4 x (p2.mem_iff.1 hx), fun x y hx hy => h5 x y (p2.mem_iff.1 hx) (p2.mem_iff.1 hy)⟩
      exact absurd (p1.mem_iff.1 (List.mem_of_getElem? e)) h3

theorem copyTo_all {α : Type} (z : α) {n : Nat} {s : List α} (h : s.length = n) : copyTo z n s = s := by
  unfold copyTo
  subst h
  simp

theorem Feature.SoundFor.copy {n : Nat} {f : Feature K} (h : f.SoundFor n) : f.copy.SoundFor n := by
  obtain ⟨h1, h2, h3⟩ := h
  cases f with
  | cat f =>
    have h1 : f.Consistent := h1
    unfold Feature.copy
    simp only [copyTo_all _ h1.lengths, copyTo_all false (rfl : f.missing.length = f.missing.length)]
    exact ⟨⟨h1.lengths, h1.map, h1.valid, h1.missing⟩, h2, trivial⟩
  | num f =>
    have h1 : f.Consistent := h1
    unfold Feature.copy
    simp only [copyTo_all _ h1.lengths, copyTo_all false (rfl : f.missing.length = f.missing.length)]
    exact ⟨⟨h1.lengths, fun i e => absurd (List.mem_of_getElem? e) h3.1⟩, h2, h3⟩

theorem Feature.SoundFor.rename {n : Nat} {f : Feature K} (h : f.SoundFor n) (s : String) : (f.rename s).SoundFor n := by
  obtain ⟨h1, h2, h3⟩ := h
  cases f with
  | cat f =>
    have h1 : f.Consistent := h1
    exact ⟨⟨h1.lengths, h1.map, h1.valid, h1.missing⟩, h2, trivial⟩
  | num f =>
    have h1 : f.Consistent := h1
    exact ⟨⟨h1.lengths, h1.missing⟩, h2, h3⟩

theorem Feature.SoundFor.even {n : Nat} {f : Feature K} (h : f.SoundFor n) : f.Even := by
  cases f with
  | cat f => exact CatFeature.Consistent.lengths h.1
  | num f => exact NumFeature.Consistent.lengths h.1

theorem Feature.SoundFor.shuffle {n : Nat} {f g : Feature K} {rng rng' : Rng} (h : f.SoundFor n) (e : f.shuffle rng = some (g, rng')) :
    Rearranged f g ∧ g.SoundFor n := by
  obtain ⟨g', r, e', hr⟩ := shuffle_rearranged f h.even rng
  rw [e] at e'
  cases e'
  exact ⟨hr, h.rearranged hr⟩

theorem Feature.SoundFor.shuffledCopy {n : Nat} {f g : Feature K} {rng rng' : Rng} (h : f.SoundFor n) (e : f.shuffledCopy rng = some (g, rng')) :
    g.SoundFor n := by
  unfold Feature.shuffledCopy at e
  simp only [Option.bind_eq_bind] at e
  obtain ⟨⟨g', r⟩, e', e⟩ := Option.bind_eq_some_iff.1 e
  cases e
  exact (h.copy.shuffle e').2.rename _

theorem ShuffledOf.rearranged {f g k : Feature K} (h : ShuffledOf f g) (hr : Rearranged g k) : ShuffledOf f k := by
  cases f <;> cases g <;> cases k <;> first | exact h.elim | exact hr.elim | skip
  · obtain ⟨h1, h2, h3⟩ := h
    obtain ⟨r1, r2, -⟩ := hr
    exact ⟨r1.trans h1, by rw [r2]; exact h2, by rw [r2]; exact h3⟩
  · obtain ⟨h1, h3⟩ := h
    obtain ⟨r1, r2, -⟩ := hr
    exact ⟨r1.trans h1, by rw [r2]; exact h3⟩

theorem ShuffledOf.name {f g : Feature K} (h : ShuffledOf f g) : g.name = f.name ++ ":SHUFFLED" := by
  cases f <;> cases g <;> first | exact h.elim | skip
  · exact h.2.2
  · exact h.2

/-- A matrix during the first forests. -/
structure Contrasted (fm0 fm : FeatureMatrix K) : Prop where
  shape : WithContrasts fm0 fm
  indexed : fm.Indexed
  sound : ∀ f ∈ fm.data, f.SoundFor fm0.caseLabels.length
  labels : fm.caseLabels = fm0.caseLabels

theorem contrastAllLoop_keeps {n : Nat} (nreal : Nat) : ∀ (m : Nat) (fm fm' : FeatureMatrix K) (rng rng' : Rng), fm.Indexed →
    (∀ f ∈ fm.data, f.SoundFor n) → fm.contrastAllLoop nreal m rng = some (fm', rng') → fm'.Indexed ∧ ∀ f ∈ fm'.data, f.SoundFor n := by
  intro m
  induction m with
  | zero => intro fm fm' rng rng' hi hs h; cases h; exact ⟨hi, hs⟩
  | succ m ih =>
    intro fm fm' rng rng' hi hs h
    rw [FeatureMatrix.contrastAllLoop] at h
    simp only [Option.bind_eq_bind] at h
    obtain ⟨f, hf, h⟩ := Option.bind_eq_some_iff.1 h
    obtain ⟨⟨g, r⟩, hg, h⟩ := Option.bind_eq_some_iff.1 h
    refine ih _ _ _ _ (hi.push g) ?_ h
    intro k hk
    rcases List.mem_append.1 (show k ∈ fm.data ++ [g] from hk) with hk | hk
    · exact hs k hk
    · rw [List.mem_singleton.1 hk]
      exact (hs f (List.mem_of_getElem? hf)).shuffledCopy hg

theorem contrastAll_contrasted {fm fm' : FeatureMatrix K} {rng rng' : Rng} (hi : fm.Indexed) (hs : ∀ f ∈ fm.data, f.SoundFor fm.caseLabels.length)
    (h : fm.contrastAll rng = some (fm', rng')) : Contrasted fm fm' := by
  obtain ⟨fakes, m, r, e, h1, h2, h3⟩ := c31_contrastAll fm (fun f hf => (hs f hf).even) rng
  rw [h] at e
  cases e
  obtain ⟨k1, k2⟩ := contrastAllLoop_keeps _ _ _ _ _ _ hi hs h
  exact ⟨⟨fakes, h1, h3⟩, k1, k2, h2⟩

theorem forall₂_set {α β : Type} {R : α → β → Prop} {l : List α} {l' : List β} (h : List.Forall₂ R l l') (i : Nat) {b b' : β} (hb : l'[i]? = some b)
    (hR : ∀ a, R a b → R a b') : List.Forall₂ R l (l'.set i b') := by
  induction h generalizing i with
  | nil => cases hb
  | cons h _ ih =>
    cases i with
    | zero =>
      simp only [List.getElem?_cons_zero, Option.some.injEq] at hb
      subst hb
      exact .cons (hR _ h) (by assumption)
    | succ i => exact .cons h (ih i (by simpa using hb))

theorem Contrasted.set {fm0 fm : FeatureMatrix K} (h : Contrasted fm0 fm) {i : Nat} (hi : fm0.data.length ≤ i) {f g : Feature K}
    (hf : fm.data[i]? = some f) (hr : Rearranged f g) (hg : g.SoundFor fm0.caseLabels.length) : Contrasted fm0 { fm with data := fm.data.set i g } := by
  have hil := (List.getElem?_eq_some_iff.1 hf).1
  refine ⟨?_, ⟨?_, ?_⟩, ?_, h.labels⟩
  · obtain ⟨fakes, h1, h2⟩ := h.shape
    refine ⟨fakes.set (i - fm0.data.length) g, ?_, forall₂_set h2 _ (b := f) ?_ fun a ha => ha.rearranged hr⟩
    · simp only
      rw [h1, List.set_append, if_neg (by omega)]
    · rw [h1, List.getElem?_append_right hi] at hf
      exact hf
  · intro n j hj
    obtain ⟨k, hk, hn⟩ := h.indexed.sound n j hj
    by_cases e : i = j
    · subst e
      rw [hf] at hk
      cases hk
      exact ⟨g, by simp [hil], hr.name.trans hn⟩
    · exact ⟨k, by simp only; rw [List.getElem?_set_ne e]; exact hk, hn⟩
  · intro k hk
    rcases List.mem_or_eq_of_mem_set hk with hk | rfl
    · exact h.indexed.complete k hk
    · obtain ⟨j, hj⟩ := h.indexed.complete f (List.mem_of_getElem? hf)
      exact ⟨j, by rw [hr.name]; exact hj⟩
  · intro k hk
    rcases List.mem_or_eq_of_mem_set hk with hk | rfl
    · exact h.sound k hk
    · exact hg

theorem reshuffle_contrasted {fm0 fm fm' : FeatureMatrix K} {marks : List Bool} {rng rng' : Rng} (h : Contrasted fm0 fm)
    (e : reshuffle fm0.data.length marks fm rng = some (fm', rng')) : Contrasted fm0 fm' := by
  unfold reshuffle at e
  suffices key : ∀ (l : List Nat) (s s' : FeatureMatrix K × Rng), Contrasted fm0 s.1 → l.foldlM (fun (s : FeatureMatrix K × Rng) i =>
      if fm0.data.length ≤ i ∧ marks[i]? = some false then do
        let f ← s.1.data[i]?
        let (g, rng) ← f.shuffle s.2
        some ({ s.1 with data := s.1.data.set i g }, rng)
      else some s) s = some s' → Contrasted fm0 s'.1 from key _ _ _ h e
  intro l
  induction l with
  | nil => intro s s' hs e; cases e; exact hs
  | cons i l ih =>
    intro s s' hs e
    rw [List.foldlM_cons] at e
    obtain ⟨s1, e1, e⟩ := Option.bind_eq_some_iff.1 e
    refine ih _ _ ?_ e
    split at e1
    · next hi =>
      simp only [Option.bind_eq_bind] at e1
      obtain ⟨f, hf, e1⟩ := Option.bind_eq_some_iff.1 e1
      obtain ⟨⟨g, rng⟩, hg, e1⟩ := Option.bind_eq_some_iff.1 e1
      cases e1
      obtain ⟨k1, k2⟩ := (hs.sound f (List.mem_of_getElem? hf)).shuffle hg
      exact hs.set hi.1 hf k1 k2
    · cases e1; exact hs

theorem Contrasted.names {fm0 fm : FeatureMatrix K} (h : Contrasted fm0 fm) (hn : (fm0.data.map Feature.name).Nodup)
    (hs : ∀ f ∈ fm0.data, ∀ g ∈ fm0.data, f.name ≠ g.name ++ ":SHUFFLED") : (fm.data.map Feature.name).Nodup := by
  obtain ⟨fakes, h1, h2⟩ := h.shape
  have hk : fakes.map Feature.name = (fm0.data.map Feature.name).map (· ++ ":SHUFFLED") := by
    clear h1 hn hs
    generalize fm0.data = l at h2
    induction h2 with
    | nil => rfl
    | cons h _ ih => rw [List.map_cons, List.map_cons, List.map_cons, ih, h.name]
  rw [h1, List.map_append, hk, List.nodup_append]
  refine ⟨hn, hn.map fun a b e => ?_, ?_⟩
  · have := congrArg String.toList e
    simp only [String.toList_append, List.append_cancel_right_eq] at this
    exact String.toList_inj.1 this
  · intro x hx y hy
    obtain ⟨f, hf, rfl⟩ := List.mem_map.1 hx
    obtain ⟨z, hz, rfl⟩ := List.mem_map.1 hy
    obtain ⟨g, hg, rfl⟩ := List.mem_map.1 hz
    exact hs f hf g hg

theorem Contrasted.matrixOk {fm0 fm : FeatureMatrix K} (h : Contrasted fm0 fm) (hn : (fm0.data.map Feature.name).Nodup)
    (hs : ∀ f ∈ fm0.data, ∀ g ∈ fm0.data, f.name ≠ g.name ++ ":SHUFFLED") : MatrixOk fm (List.range fm0.caseLabels.length) := by
  rw [← h.labels]
  exact FeatureMatrix.Rectangular.matrixOk ⟨fun f hf => (h.sound f hf).1, fun f hf => by rw [h.labels]; exact (h.sound f hf).2.1⟩ h.indexed (h.names hn hs)

theorem Feature.SoundFor.featOk {n : Nat} {f : Feature K} (h : f.SoundFor n) : FeatOk f (List.range n) ∧ f.NoNearTies (f.knowns (List.range n)) := by
  obtain ⟨h1, h2, h3⟩ := h
  cases f with
  | cat f =>
    have h1 : f.Consistent := h1
    have h2 : f.missing.length = n := h2
    refine ⟨⟨fun c hc => ?_, fun c e => h1.missing c e, fun c hc => ?_⟩, trivial⟩
    · have hl : c < f.missing.length := by rw [h2]; exact List.mem_range.1 hc
      exact ⟨hl, by rw [h1.lengths]; exact hl, fun k e1 e2 => h1.valid c k e1 e2⟩
    · obtain ⟨h5, h6⟩ := List.mem_filter.1 hc
      have hl : c < f.catData.length := by rw [h1.lengths, h2]; exact List.mem_range.1 h5
      exact ⟨_, List.getElem?_eq_getElem hl, h1.valid c _ (by simpa [Feature.isMissing] using h6) (List.getElem?_eq_getElem hl)⟩
  | num f =>
    have h1 : f.Consistent := h1
    have h2 : f.missing.length = n := h2
    obtain ⟨h3, h4, h5⟩ := h3
    have hval : ∀ c ∈ (Feature.num f).knowns (List.range n), .fin (f.value c) ∈ f.numData ∧ ∃ y, f.numData[c]? = some (.fin y) := by
      intro c hc
      have hl : c < f.numData.length := by rw [h1.lengths, h2]; exact List.mem_range.1 (List.mem_filter.1 hc).1
      obtain ⟨y, hy⟩ := h4 _ (List.getElem_mem hl)
      have e : f.numData[c]? = some (.fin y) := by rw [List.getElem?_eq_getElem hl, hy]
      refine ⟨?_, y, e⟩
      have : f.value c = y := by unfold NumFeature.value; rw [e]
      rw [this, ← hy]
      exact List.getElem_mem hl
    refine ⟨⟨fun c hc => ?_, fun c e => h1.missing c e, fun c hc => (hval c hc).2⟩, fun c hc d hd => h5 _ _ (hval c hc).1 (hval d hd).1⟩
    have hl : c < f.missing.length := by rw [h2]; exact List.mem_range.1 hc
    exact ⟨hl, by rw [h1.lengths]; exact hl⟩

end CloudForest
