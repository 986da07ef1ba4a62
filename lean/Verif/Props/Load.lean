import Verif.Model.Load
import Verif.Props.Libsvm

/-!
# C175: loading data files
-/

set_option linter.unusedSectionVars false
namespace CloudForest
variable {K : Type} [Field K] [LinearOrder K] [IsStrictOrderedRing K]

theorem load_arff (nt : NumText K) {name : String} (hn : ".arff".toList <:+ name.toList) (text : Text) :
    loadAFM nt name (some { text := text }) = (parseARFF nt text).map fun r => (r, false) := by
  simp only [loadAFM]
  rw [if_pos hn]

/-! ## C175 -/

/-- **C175**, for files in the format of the project: an archive is loaded as the first file in it would be, whatever the archive is called and
whatever else is in it. Missing: files in other formats, see `c175_packed`, and archives that are empty or damaged, see `c175_empty`. -/
theorem c175_zip_partial (nt : NumText K) (outer inner : String) (h1 : ¬ ".arff".toList <:+ inner.toList)
    (h2 : ¬ ".libsvm".toList <:+ inner.toList) (raw text : Text) (rest : List (String × Option Text)) :
    loadAFM nt outer (some ⟨raw, some ((inner, some text) :: rest)⟩) = loadAFM nt inner (some { text := text }) := by
  simp only [loadAFM]
  rw [if_neg h1, if_neg h2]

/-- **C175**, errors: there is an error if and only if the file cannot be opened, and then there is no matrix. -/
theorem c175_error (nt : NumText K) (name : String) (file : Option DiskFile) (r : Option (FeatureMatrix K)) :
    loadAFM nt name file = some (r, true) ↔ file = none ∧ r = none := by
  unfold loadAFM
  split
  · simp [eq_comm]
  · split
    · simp
    · simp
    · split
      · simp
      · split <;> simp

/-- **C175**, the project's format: what `WriteCases` writes is loaded with its labels and values, packed or not, under every name that does not end
in `.arff` or `.libsvm`. -/
theorem c175_afm (nt : NumText K) (fm : FeatureMatrix K) (cases : List Nat) (h : fm.Writable nt cases) (name : String)
    (h1 : ¬ ".arff".toList <:+ name.toList) (h2 : ¬ ".libsvm".toList <:+ name.toList) :
    ∃ text fm', fm.writeCases nt cases = some text ∧ loadAFM nt name (some { text := text }) = some (some fm', false) ∧
      (∀ (outer : String) (raw : Text) (rest : List (String × Option Text)),
        loadAFM nt outer (some ⟨raw, some ((name, some text) :: rest)⟩) = some (some fm', false)) ∧
      (∀ j c : Nat, cases[j]? = some c → fm'.caseLabels[j]? = fm.caseLabels[c]?) ∧
      fm'.caseLabels.length = cases.length ∧ fm'.data.length = fm.data.length ∧
      (∀ (i : Nat) (f : Feature K), fm.data[i]? = some f → ∃ g, fm'.data[i]? = some g ∧ f.SameOn cases g ∧ g.name = f.name) := by
  obtain ⟨text, fm', k1, k2, k3, k4, k5, k6, _⟩ := c23_roundtrip_partial nt fm cases h
  have hl : loadAFM nt name (some { text := text }) = some (some fm', false) := by
    simp only [loadAFM]
    rw [if_neg h1, if_neg h2, k2]
    rfl
  exact ⟨text, fm', k1, hl, fun outer raw rest => by rw [c175_zip_partial nt outer name h1 h2, hl], k3, k4, k5, k6⟩

/-- **C175**, ARFF: what `WriteArffCases` writes is loaded with its values if the name of the file ends in `.arff`. -/
theorem c175_arff (nt : NumText K) (fm : FeatureMatrix K) (cases : List Nat) (relation : Text) (h : fm.ArffWritable nt cases relation) (name : String)
    (hn : ".arff".toList <:+ name.toList) :
    ∃ text fm', fm.writeArffCases nt cases relation = some text ∧ loadAFM nt name (some { text := text }) = some (some fm', false) ∧
      fm'.caseLabels.length = cases.length ∧ fm'.data.length = fm.data.length ∧
      (∀ (i : Nat) (f : Feature K), fm.data[i]? = some f → ∃ g, fm'.data[i]? = some g ∧ f.SameOn cases g) := by
  obtain ⟨text, fm', k1, k2, k3, k4, k5, _⟩ := c59_roundtrip_partial nt fm cases relation h
  refine ⟨text, fm', k1, ?_, k3, k4, k5⟩
  rw [load_arff nt hn, k2]
  rfl

/-- **C175**, libsvm: well formed lines are loaded, each number in its column, if the name of the file ends in `.libsvm`. -/
theorem c175_libsvm (nt : NumText K) (zero : nt.parse ['0'] = some (.fin 0)) (lines : List Text) (ls : List LibLine)
    (h : List.Forall₂ LibLine.In ls lines) (hw : ∀ l ∈ ls, l.WellFormed nt) (name : String) (hn : ".libsvm".toList <:+ name.toList) :
    ∃ fm, loadAFM nt name (some { text := unlines lines }) = some (some fm, false) ∧ fm.caseLabels.length = lines.length ∧
      (∀ (i : Nat) (l : LibLine) (k : Nat) (v : Text), ls[i]? = some l → (k, v) ∈ l.entries →
        ∃ g, fm.data[k]? = some (.num g) ∧ g.missing[i]? = some false ∧ g.numData[i]? = nt.parse v) := by
  obtain ⟨fm, k1, _, k3, _, k5, _⟩ := c24_parse nt zero lines ls h hw
  refine ⟨fm, ?_, k3, k5⟩
  have hne : ¬ ".arff".toList <:+ name.toList := by
    intro ha
    rcases List.suffix_or_suffix_of_suffix ha hn with h | h
    · exact absurd h (by decide)
    · exact absurd h (by decide)
  simp only [loadAFM]
  rw [if_neg hne, if_pos hn, k1]
  rfl

/-! ## Examples -/

/-- The names occur that the theorems speak of. -/
example : ¬ ".arff".toList <:+ "data.arff.tsv".toList ∧ ¬ ".libsvm".toList <:+ "data.arff.tsv".toList ∧ ".arff".toList <:+ "a/mix.arff".toList ∧
    ".libsvm".toList <:+ "a.arff.libsvm".toList := by
  decide +kernel

/-- The conditions of `c175_afm` hold; the archive is called as if it were something else. -/
example : ∃ text fm', exMix.writeCases exNums [4, 0, 2] = some text ∧
    loadAFM exNums "mix.libsvm" (some ⟨['P', 'K'], some [("mix.afm", some text), ("more.arff", none)]⟩) = some (some fm', false) ∧
    fm'.data.length = 3 := by
  obtain ⟨text, fm', h1, _, h3, _, _, h4, _⟩ := c175_afm exNums exMix [4, 0, 2] exMix_writable "mix.afm" (by decide +kernel) (by decide +kernel)
  exact ⟨text, fm', h1, h3 _ _ _, h4⟩

/-- The conditions of `c175_arff` hold. -/
example : ∃ text fm', exMix.writeArffCases exNums [4, 0, 2] "mix".toList = some text ∧
    loadAFM exNums "mix.arff" (some { text := text }) = some (some fm', false) ∧ fm'.data.length = 3 := by
  obtain ⟨text, fm', h1, h2, _, h4, _⟩ := c175_arff exNums exMix [4, 0, 2] "mix".toList exMix_arff "mix.arff" (by decide +kernel)
  exact ⟨text, fm', h1, h2, h4⟩

/-- The lines of the example beside `c24_parse`, loaded from a file. -/
example : (loadAFM exNums0 "x.libsvm" (some { text := unlines exLines })).map (fun r => (r.1.map (·.caseLabels.length), r.2)) =
    some (some 3, false) := by
  decide +kernel

/-! ## Negations -/

/-- **C175 is false of the code for packed files in other formats.** ParseAFM reads whatever is in an archive: an ARFF file of three
cases and a libsvm file of two, both of which can be loaded, make it panic when packed, the one even if the archive is called `.arff`. -/
theorem c175_packed :
    (let text := "@attribute a numeric\n@data\n1\n0\n1\n".toList
     (loadAFM exNums0 "x.arff" (some { text := text })).map (fun r => r.1.map (·.caseLabels.length)) = some (some 3) ∧
      (loadAFM exNums0 "x.arff" (some ⟨['P', 'K'], some [("x.arff", some text)]⟩)).isNone = true) ∧
    (let text := "u 1:1\nv 1:0\n".toList
     (loadAFM exNums0 "x.libsvm" (some { text := text })).map (fun r => r.1.map (·.caseLabels.length)) = some (some 2) ∧
      (loadAFM exNums0 "x.zip" (some ⟨['P', 'K'], some [("x.libsvm", some text)]⟩)).isNone = true) := by
  decide +kernel

/-- **C175 is false of the code for archives without files and ARFF files without data.** An archive without files makes it panic instead of
returning an error; for an ARFF file without `@data` it returns neither a matrix nor an error. -/
theorem c175_empty (nt : NumText K) : (∀ name raw, loadAFM nt name (some ⟨raw, some []⟩) = none) ∧
    loadAFM nt "x.arff" (some { text := "@attribute a numeric\n".toList }) = some (none, false) := by
  refine ⟨fun _ _ => rfl, ?_⟩
  have hh : arffHeader (splitC '\n' "@attribute a numeric\n".toList).dropLast (⟨[], fun _ => none, []⟩ : FeatureMatrix K) = some none := by
    rfl
  have hp : parseARFF nt "@attribute a numeric\n".toList = some none := by
    unfold parseARFF
    simp only [hh]
  rw [load_arff nt (by decide +kernel), hp]
  rfl

end CloudForest
