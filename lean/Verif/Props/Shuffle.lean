import Verif.Lemmas.Shuffle
import Verif.Spec.Feature
import Mathlib.Data.Rat.Defs
import Mathlib.Algebra.Order.Ring.Rat

/-!
# Property C31: shuffling
-/

set_option linter.unusedSectionVars false

namespace CloudForest
variable {K : Type} [Field K] [LinearOrder K] [IsStrictOrderedRing K]

/-- **C31, class features.** `ShuffleCases` succeeds and moves value and missing flag together
by one rearrangement of the case numbers that leaves every case not listed alone; everything
else about the feature stays. -/
theorem c31_shuffleCases_cat (f : CatFeature) (cases : List Nat)
    (hl : f.catData.length = f.missing.length) (hc : ∀ c ∈ cases, c < f.missing.length)
    (rng : Rng) :
    ∃ g rng', ∃ π : Equiv.Perm Nat, f.shuffleCases cases rng = some (g, rng') ∧
      (∀ c, c ∉ cases → π c = c) ∧
      (∀ c, g.missing[c]? = f.missing[π c]? ∧ g.catData[c]? = f.catData[π c]?) ∧
      (g.missing.zip g.catData).Perm (f.missing.zip f.catData) ∧
      g.cm = f.cm ∧ g.name = f.name ∧ g.hasMissing = f.hasMissing := by
  obtain ⟨m, d, r, π, e, -, -, h3, h4⟩ := shuffleLoop_ok cases f.missing.length hc _ 0 rfl f.missing
    f.catData rng rfl hl
  unfold CatFeature.shuffleCases
  have hp := shuffleLoop_perm cases _ 0 rfl _ _ _ _ hl.symm e
  rw [e]
  exact ⟨_, _, π, rfl, h3, h4, hp, rfl, rfl, rfl⟩

/-- **C31, numerical features.** -/
theorem c31_shuffleCases_num (f : NumFeature K) (cases : List Nat)
    (hl : f.numData.length = f.missing.length) (hc : ∀ c ∈ cases, c < f.missing.length)
    (rng : Rng) :
    ∃ g rng', ∃ π : Equiv.Perm Nat, f.shuffleCases cases rng = some (g, rng') ∧
      (∀ c, c ∉ cases → π c = c) ∧
      (∀ c, g.missing[c]? = f.missing[π c]? ∧ g.numData[c]? = f.numData[π c]?) ∧
      (g.missing.zip g.numData).Perm (f.missing.zip f.numData) ∧
      g.name = f.name ∧ g.hasMissing = f.hasMissing := by
  obtain ⟨m, d, r, π, e, -, -, h3, h4⟩ := shuffleLoop_ok cases f.missing.length hc _ 0 rfl f.missing
    f.numData rng rfl hl
  unfold NumFeature.shuffleCases
  have hp := shuffleLoop_perm cases _ 0 rfl _ _ _ _ hl.symm e
  rw [e]
  exact ⟨_, _, π, rfl, h3, h4, hp, rfl, rfl⟩

/-- A class feature for the examples. -/
def exShuf : CatFeature :=
  ⟨⟨fun _ => none, ["a", "b", "c"]⟩, [0, 1, 2, 0, 1], [false, true, false, false, true], "s", false, true⟩

/-- Cases 1, 3, 3 and 4 of five are shuffled; cases 0 and 2 stay. -/
example : exShuf.catData.length = exShuf.missing.length ∧
    (∀ c ∈ [1, 3, 3, 4], c < exShuf.missing.length) ∧
    (exShuf.shuffleCases [1, 3, 3, 4] (fun k => k + 3)).map (fun r => (r.1.missing, r.1.catData)) =
      some ([false, true, false, true, false], [0, 1, 2, 1, 0]) ∧
    (exShuf.shuffleCases [1, 3, 3, 4] (fun k => k + 1)).map (fun r => (r.1.missing, r.1.catData)) =
      some ([false, false, false, true, true], [0, 0, 2, 1, 1]) := by
  decide +kernel

/-- **C31, whole features.** `Shuffle` of either kind rearranges (missing, value) pairs, and
every rearrangement of the cases comes out for some random stream. -/
theorem c31_shuffle_cat (f : CatFeature) (hl : f.catData.length = f.missing.length) :
    (∀ rng, ∃ g rng', ∃ π : Equiv.Perm Nat,
      Feature.shuffle (.cat (K := K) f) rng = some (.cat g, rng') ∧
      (∀ c, f.missing.length ≤ c → π c = c) ∧
      (∀ c, g.missing[c]? = f.missing[π c]? ∧ g.catData[c]? = f.catData[π c]?) ∧
      (g.missing.zip g.catData).Perm (f.missing.zip f.catData) ∧ g.cm = f.cm ∧ g.name = f.name) ∧
    (∀ π : Equiv.Perm Nat, (∀ c, f.missing.length ≤ c → π c = c) → ∃ rng g rng',
      Feature.shuffle (.cat (K := K) f) rng = some (.cat g, rng') ∧
      ∀ c, g.missing[c]? = f.missing[π c]? ∧ g.catData[c]? = f.catData[π c]?) := by
  constructor
  · intro rng
    obtain ⟨m, d, r, π, e, -, -, h3, h4⟩ := shuffleLoop_ok (List.range f.missing.length)
      f.missing.length (by simp) _ 0 rfl f.missing f.catData rng rfl hl
    have hp := shuffleLoop_perm _ _ 0 rfl _ _ _ _ hl.symm e
    rw [← shuffleAllLoop_eq _ _ 0 rfl] at e
    unfold Feature.shuffle
    simp only [e]
    exact ⟨_, _, π, rfl, fun c hc => h3 c (by simpa using hc), h4, hp, rfl, rfl⟩
  · intro π hπ
    obtain ⟨rng, h⟩ := shuffleAllLoop_surj (α := Nat) f.missing.length _ 0 rfl π (by intro c hc; omega) hπ
    obtain ⟨m, d, r, e, h4⟩ := h f.missing f.catData rfl hl
    refine ⟨rng, { f with missing := m, catData := d }, r, ?_, h4⟩
    unfold Feature.shuffle
    simp only [e]
    rfl

@[inherit_doc c31_shuffle_cat]
theorem c31_shuffle_num (f : NumFeature K) (hl : f.numData.length = f.missing.length) :
    (∀ rng, ∃ g rng', ∃ π : Equiv.Perm Nat,
      Feature.shuffle (.num f) rng = some (.num g, rng') ∧
      (∀ c, f.missing.length ≤ c → π c = c) ∧
      (∀ c, g.missing[c]? = f.missing[π c]? ∧ g.numData[c]? = f.numData[π c]?) ∧
      (g.missing.zip g.numData).Perm (f.missing.zip f.numData) ∧ g.name = f.name) ∧
    (∀ π : Equiv.Perm Nat, (∀ c, f.missing.length ≤ c → π c = c) → ∃ rng g rng',
      Feature.shuffle (.num f) rng = some (.num g, rng') ∧
      ∀ c, g.missing[c]? = f.missing[π c]? ∧ g.numData[c]? = f.numData[π c]?) := by
  constructor
  · intro rng
    obtain ⟨m, d, r, π, e, -, -, h3, h4⟩ := shuffleLoop_ok (List.range f.missing.length)
      f.missing.length (by simp) _ 0 rfl f.missing f.numData rng rfl hl
    have hp := shuffleLoop_perm _ _ 0 rfl _ _ _ _ hl.symm e
    rw [← shuffleAllLoop_eq _ _ 0 rfl] at e
    unfold Feature.shuffle
    simp only [e]
    exact ⟨_, _, π, rfl, fun c hc => h3 c (by simpa using hc), h4, hp, rfl⟩
  · intro π hπ
    obtain ⟨rng, h⟩ := shuffleAllLoop_surj (α := XF K) f.missing.length _ 0 rfl π
      (by intro c hc; omega) hπ
    obtain ⟨m, d, r, e, h4⟩ := h f.missing f.numData rfl hl
    refine ⟨rng, { f with missing := m, numData := d }, r, ?_, h4⟩
    unfold Feature.shuffle
    simp only [e]
    rfl

example : exShuf.catData.length = exShuf.missing.length ∧
    (Feature.shuffle (.cat (K := ℚ) exShuf) (fun k => k + 2)).map (fun r =>
      match r.1 with
      | .cat g => g.catData
      | .num _ => []) = some [2, 1, 0, 1, 0] := by
  decide +kernel

theorem copyTo_self {α : Type} (z : α) {n : Nat} {s : List α} (h : s.length = n) : copyTo z n s = s := by
  subst h
  simp [copyTo]

/-- **C31, artificial contrasts.** `ShuffledCopy` has the values of the original in some order,
each with its missing flag, under the original's name with `:SHUFFLED`. -/
theorem c31_contrast_cat (f : CatFeature) (hl : f.catData.length = f.missing.length) (rng : Rng) :
    ∃ g rng', Feature.shuffledCopy (.cat (K := K) f) rng = some (.cat g, rng') ∧
      (g.missing.zip g.catData).Perm (f.missing.zip f.catData) ∧ g.cm = f.cm ∧
      g.name = f.name ++ ":SHUFFLED" := by
  unfold Feature.shuffledCopy Feature.copy
  simp only [copyTo_self _ hl, copyTo_self _ (rfl : f.missing.length = _)]
  obtain ⟨g, r, π, e, -, -, hp, h1, h2⟩ := (c31_shuffle_cat (K := K) f hl).1 rng
  have e' : Feature.shuffle (.cat (K := K) ⟨f.cm, f.catData, f.missing, f.name, f.randomSearch,
    f.hasMissing⟩) rng = some (.cat g, r) := e
  rw [e']
  exact ⟨_, _, rfl, hp, h1, rfl⟩

@[inherit_doc c31_contrast_cat]
theorem c31_contrast_num (f : NumFeature K) (hl : f.numData.length = f.missing.length) (rng : Rng) :
    ∃ g rng', Feature.shuffledCopy (.num f) rng = some (.num g, rng') ∧
      (g.missing.zip g.numData).Perm (f.missing.zip f.numData) ∧
      g.name = f.name ++ ":SHUFFLED" := by
  unfold Feature.shuffledCopy Feature.copy
  simp only [copyTo_self _ hl, copyTo_self _ (rfl : f.missing.length = _)]
  obtain ⟨g, r, π, e, -, -, hp, h1⟩ := (c31_shuffle_num
    ⟨f.numData, f.missing, f.name, false⟩ hl).1 rng
  rw [e]
  exact ⟨_, _, rfl, hp, rfl⟩

/-- `g` has the values of `f` in some order, each with its missing flag, under `f`'s name with `:SHUFFLED`. -/
def ShuffledOf : Feature K → Feature K → Prop
  | .cat f, .cat g => (g.missing.zip g.catData).Perm (f.missing.zip f.catData) ∧ g.cm = f.cm ∧
      g.name = f.name ++ ":SHUFFLED"
  | .num f, .num g => (g.missing.zip g.numData).Perm (f.missing.zip f.numData) ∧ g.name = f.name ++ ":SHUFFLED"
  | _, _ => False

/-- As many values as missing marks. -/
def Feature.Even : Feature K → Prop
  | .cat f => f.catData.length = f.missing.length
  | .num f => f.numData.length = f.missing.length

theorem shuffledCopy_of (f : Feature K) (h : f.Even) (rng : Rng) :
    ∃ g rng', f.shuffledCopy rng = some (g, rng') ∧ ShuffledOf f g := by
  cases f with
  | cat f =>
    obtain ⟨g, r, e, h1, h2, h3⟩ := c31_contrast_cat (K := K) f h rng
    exact ⟨_, r, e, h1, h2, h3⟩
  | num f =>
    obtain ⟨g, r, e, h1, h2⟩ := c31_contrast_num f h rng
    exact ⟨_, r, e, h1, h2⟩

/-- **C31, contrasts for all features.** `ContrastAll` keeps the features and adds, in their order, a shuffled
copy of each. -/
theorem c31_contrastAll (fm : FeatureMatrix K) (he : ∀ f ∈ fm.data, f.Even) (rng : Rng) :
    ∃ fakes fm' rng', fm.contrastAll rng = some (fm', rng') ∧ fm'.data = fm.data ++ fakes ∧
      fm'.caseLabels = fm.caseLabels ∧ List.Forall₂ ShuffledOf fm.data fakes := by
  have key : ∀ (rest done fakes : List (Feature K)) (m : FeatureMatrix K) (rng : Rng),
      m.data = done ++ rest ++ fakes → (∀ f ∈ rest, f.Even) →
      ∃ more m' rng', m.contrastAllLoop (done.length + rest.length) rest.length rng = some (m', rng') ∧
        m'.data = m.data ++ more ∧ m'.caseLabels = m.caseLabels ∧ List.Forall₂ ShuffledOf rest more := by
    intro rest
    induction rest with
    | nil =>
      intro done fakes m rng _ _
      exact ⟨[], m, rng, rfl, by simp, rfl, .nil⟩
    | cons f rest ih =>
      intro done fakes m rng hm hr
      obtain ⟨g, r, e, hg⟩ := shuffledCopy_of f (hr f (by simp)) rng
      have hget : m.data[done.length + (rest.length + 1) - (rest.length + 1)]? = some f := by
        rw [hm]
        simp
      obtain ⟨more, m', r', h1, h2, h3, h4⟩ := ih (done ++ [f]) (fakes ++ [g]) (m.push g) r
        (by simp [FeatureMatrix.push, hm]) (fun x hx => hr x (by simp [hx]))
      refine ⟨g :: more, m', r', ?_, ?_, h3, .cons hg h4⟩
      · rw [List.length_cons, FeatureMatrix.contrastAllLoop, hget]
        simp only [Option.bind_eq_bind, Option.bind_some, e]
        rw [← h1]
        congr 1
        simp
        omega
      · rw [h2]
        simp [FeatureMatrix.push]
  obtain ⟨more, m', r', h1, h2, h3, h4⟩ := key fm.data [] [] fm rng (by simp) he
  refine ⟨more, m', r', ?_, h2, h3, h4⟩
  unfold FeatureMatrix.contrastAll
  rw [← h1]
  simp

/-- **C31, some contrasts.** `AddContrasts` keeps the features and adds shuffled copies of `n` of them. -/
theorem c31_addContrasts (fm : FeatureMatrix K) (hne : fm.data ≠ []) (he : ∀ f ∈ fm.data, f.Even) (n : Nat)
    (rng : Rng) :
    ∃ fakes fm' rng', fm.addContrasts n rng = some (fm', rng') ∧ fm'.data = fm.data ++ fakes ∧
      fm'.caseLabels = fm.caseLabels ∧ fakes.length = n ∧ ∀ g ∈ fakes, ∃ f ∈ fm.data, ShuffledOf f g := by
  have key : ∀ (n : Nat) (fakes : List (Feature K)) (m : FeatureMatrix K) (rng : Rng), m.data = fm.data ++ fakes →
      ∃ more m' rng', m.addContrastsLoop fm.data.length n rng = some (m', rng') ∧ m'.data = m.data ++ more ∧
        m'.caseLabels = m.caseLabels ∧ more.length = n ∧ ∀ g ∈ more, ∃ f ∈ fm.data, ShuffledOf f g := by
    intro n
    induction n with
    | zero =>
      intro fakes m rng _
      exact ⟨[], m, rng, rfl, by simp, rfl, rfl, by simp⟩
    | succ n ih =>
      intro fakes m rng hm
      have hpos : 0 < fm.data.length := List.length_pos_iff.2 hne
      rw [FeatureMatrix.addContrastsLoop]
      obtain ⟨i, r, hi, hlt⟩ : ∃ i r, rng.intn fm.data.length = some (i, r) ∧ i < fm.data.length := by
        unfold Rng.intn
        rw [if_neg (by omega)]
        exact ⟨_, _, rfl, Nat.mod_lt _ hpos⟩
      have hget : m.data[i]? = some fm.data[i] := by
        rw [hm, List.getElem?_append_left hlt, List.getElem?_eq_getElem hlt]
      obtain ⟨g, r2, e, hg⟩ := shuffledCopy_of fm.data[i] (he _ (List.getElem_mem hlt)) r
      obtain ⟨more, m', r', h1, h2, h3, h4, h5⟩ := ih (fakes ++ [g]) (m.push g) r2
        (by simp [FeatureMatrix.push, hm])
      refine ⟨g :: more, m', r', ?_, ?_, h3, by simp [h4], ?_⟩
      · rw [hi]
        simp only [Option.bind_eq_bind, Option.bind_some, hget, e]
        exact h1
      · rw [h2]
        simp [FeatureMatrix.push]
      · intro x hx
        rcases List.mem_cons.1 hx with rfl | hx
        · exact ⟨_, List.getElem_mem hlt, hg⟩
        · exact h5 x hx
  obtain ⟨more, m', r', h1, h2, h3, h4, h5⟩ := key n [] fm rng (by simp)
  exact ⟨more, m', r', h1, h2, h3, h4, h5⟩

/-- Two features of three cases. -/
def exTwo : FeatureMatrix ℚ :=
  (FeatureMatrix.push ⟨[], fun _ => none, ["a", "b", "c"]⟩
    (.num ⟨[.fin 1, .fin 2, .fin 3], [false, true, false], "N:x", true⟩)).push
    (.num ⟨[.fin 4, .fin 5, .fin 6], [false, false, false], "N:y", false⟩)

theorem exTwo_even : ∀ f ∈ exTwo.data, f.Even := by
  intro f hf
  simp only [exTwo, FeatureMatrix.push, List.nil_append, List.singleton_append, List.mem_cons, List.not_mem_nil,
    or_false] at hf
  rcases hf with rfl | rfl <;> rfl

/-- The hypotheses hold, and this is a run: the copies of x and y after x and y. -/
example : exTwo.data ≠ [] ∧ (∀ f ∈ exTwo.data, f.Even) ∧
    (exTwo.contrastAll fun _ => 1).map (fun r => r.1.data.map Feature.name) =
      some ["N:x", "N:y", "N:x:SHUFFLED", "N:y:SHUFFLED"] ∧
    (exTwo.addContrasts 3 fun k => k).map (fun r => r.1.data.length) = some 5 :=
  ⟨by simp [exTwo, FeatureMatrix.push], exTwo_even, by decide +kernel, by decide +kernel⟩

end CloudForest
