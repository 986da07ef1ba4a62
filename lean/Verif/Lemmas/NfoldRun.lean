import Verif.Spec.NfoldRun
import Verif.Props.Nfold
import Verif.Props.Matrix
import Verif.Props.Toafm

/-!
# Lemmas on runs of nfold
-/

set_option linter.unusedSectionVars false

namespace CloudForest
variable {K : Type} [Field K] [LinearOrder K] [IsStrictOrderedRing K]

/-! ## The map of a list of features -/

/-- The map that is made along with a list of features. -/
def indexOfNames (names : List String) (k : Nat) (m : Option Nat) (s : String) : Option Nat :=
  (names.zipIdx k).foldl (fun m (x : String × Nat) => if s = x.1 then some x.2 else m) m

theorem indexOf_eq (data : List (Feature K)) (s : String) (k : Nat) (m : Option Nat) :
    (data.zipIdx k).foldl (fun m (x : Feature K × Nat) => if s = x.1.name then some x.2 else m) m =
      indexOfNames (data.map Feature.name) k m s := by
  unfold indexOfNames
  rw [List.zipIdx_map, List.foldl_map]
  rfl

theorem indexOfNames_some : ∀ (names : List String) (k : Nat) (m : Option Nat) (s : String) (i : Nat),
    indexOfNames names k m s = some i → m = some i ∨ k ≤ i ∧ names[i - k]? = some s
  | [], k, m, s, i, h => .inl h
  | n :: names, k, m, s, i, h => by
    unfold indexOfNames at h
    rw [List.zipIdx_cons, List.foldl_cons] at h
    rcases indexOfNames_some names (k + 1) _ s i h with h1 | ⟨h1, h2⟩
    · simp only at h1
      split_ifs at h1 with hs
      · cases h1
        exact .inr ⟨le_refl _, by simp [hs]⟩
      · exact .inl h1
    · refine .inr ⟨by omega, ?_⟩
      rw [show i - k = (i - (k + 1)) + 1 by omega, List.getElem?_cons_succ]
      exact h2

theorem indexOfNames_mem : ∀ (names : List String) (k : Nat) (m : Option Nat) (s : String),
    s ∈ names ∨ m ≠ none → ∃ i, indexOfNames names k m s = some i
  | [], k, m, s, h => by
    rcases h with h | h
    · exact absurd h (by simp)
    · cases m with
      | none => exact absurd rfl h
      | some i => exact ⟨i, rfl⟩
  | n :: names, k, m, s, h => by
    unfold indexOfNames
    rw [List.zipIdx_cons, List.foldl_cons]
    refine indexOfNames_mem names (k + 1) _ s ?_
    by_cases hs : s = n
    · exact .inr (by simp [hs])
    · rcases h with h | h
      · exact .inl (by simpa [hs] using h)
      · exact .inr (by simpa [hs] using h)

theorem limitCats_indexed (fm : FeatureMatrix K) (mc : Int) : (fm.limitCats mc).Indexed := by
  constructor
  · intro n i h
    have h : indexOfNames ((fm.limitCats mc).data.map Feature.name) 0 none n = some i := by
      rw [← indexOf_eq]
      exact h
    rcases indexOfNames_some _ _ _ _ _ h with h | ⟨-, h⟩
    · cases h
    · rw [Nat.sub_zero, List.getElem?_map] at h
      exact Option.map_eq_some_iff.1 h
  · intro f hf
    obtain ⟨i, hi⟩ := indexOfNames_mem ((fm.limitCats mc).data.map Feature.name) 0 none f.name
      (.inl (List.mem_map_of_mem hf))
    refine ⟨i, ?_⟩
    rw [← indexOf_eq] at hi
    exact hi

theorem limitCats_kept (o : NfoldOpts) (ids : List String) (data : List (Feature K)) :
    (keptFeatures data o.target o.target ids).filter (fun f => decide (o.maxcats = -1 ∨ (f.nCats : Int) ≤ o.maxcats)) =
      nfoldKept o ids data := by
  unfold keptFeatures nfoldKept
  rw [List.filter_filter]
  congr 1
  funext f
  rw [← Bool.decide_and]
  congr 1
  rw [and_comm, or_self]

theorem oneHot_some (fm : FeatureMatrix K) (h : ∀ f ∈ fm.data, f.Consistent) : ∃ fm', fm.oneHot = some fm' := by
  unfold FeatureMatrix.oneHot
  rw [encodeLoop_eq]
  have hc : ∀ f ∈ fm.data, ∃ cols, columnsOf (fun f => f.oneHot.map (·.map Feature.cat)) f = some cols := by
    intro f hf
    cases f with
    | num f => exact ⟨_, rfl⟩
    | cat f =>
      simp only [columnsOf]
      by_cases hn : 2 < f.cm.nCats
      · rw [oneHot_gt (h _ hf) hn]; exact ⟨_, rfl⟩
      · rw [CatFeature.oneHot, if_neg hn]; exact ⟨_, rfl⟩
  have : ∃ cols, encodedColumns (fun f => f.oneHot.map (·.map Feature.cat)) fm.data = some cols := by
    unfold encodedColumns
    rw [mapM_some (h := fun f => (columnsOf (fun f => f.oneHot.map (·.map Feature.cat)) f).getD [])]
    · exact ⟨_, rfl⟩
    · intro f hf
      obtain ⟨cols, hcols⟩ := hc f hf
      rw [hcols]
      rfl
  obtain ⟨cols, hcols⟩ := this
  rw [hcols]
  exact ⟨_, rfl⟩

theorem nfoldMatrix_plain (nt : NumText K) (o : NfoldOpts) (fm : FeatureMatrix K) (ids : List String)
    (hi : fm.Indexed) (hn : (fm.data.map Feature.name).Nodup) (hc : ∀ f ∈ fm.data, f.Consistent)
    (h1 : o.impute = false) (h2 : o.num = false) :
    ∃ m, nfoldMatrix nt o fm ids = some m ∧ m.data = nfoldKept o ids fm.data ∧ m.caseLabels = fm.caseLabels ∧
      m.Indexed ∧ ∀ s, m.map s = indexOfNames (m.data.map Feature.name) 0 none s := by
  obtain ⟨marks, hm, hd⟩ := without_kept fm hi hn o.target o.target ids
  refine ⟨(fm.without marks).limitCats o.maxcats, ?_, ?_, rfl, limitCats_indexed _ _, fun s => ?_⟩
  · unfold nfoldMatrix
    simp only [hm, Option.bind_eq_bind, Option.bind_some, h1, h2, Bool.false_eq_true, if_false]
    have hcons : ∀ f ∈ ((fm.without marks).limitCats o.maxcats).data, f.Consistent := by
      intro f hf
      have hf : f ∈ (fm.without marks).data := (List.mem_filter.1 hf).1
      rw [hd] at hf
      exact hc f (List.mem_filter.1 hf).1
    obtain ⟨oh, hoh⟩ := oneHot_some _ hcons
    cases o.onehot with
    | true => simp only [if_true, hoh, Option.bind_some]
    | false => simp only [Bool.false_eq_true, if_false, Option.bind_some]
  · rw [← limitCats_kept, ← hd]
    rfl
  · rw [← indexOf_eq]
    rfl

/-! ## The folds -/

theorem nfoldFolds_ok (o : NfoldOpts) (h0 : 0 < o.folds) (m : FeatureMatrix K) (hi : m.Indexed)
    (hn : (m.data.map Feature.name).Nodup) (hc : ∀ f ∈ m.data, f.Consistent)
    (hl : ∀ f ∈ m.data, f.length = m.caseLabels.length)
    (hk : ∀ f, Feature.cat f ∈ m.data → ∀ k ∈ f.catData, k < f.cm.nCats) (rng : Rng) :
    ∃ fs, nfoldFolds o m rng = some fs ∧ fs.length = o.folds ∧ TestSets m.caseLabels.length fs ∧
      (∀ f, Feature.cat f ∈ m.data → f.name = o.target → o.unstratified = false → ∀ t ∈ fs, ∀ k < f.cm.nCats,
        (t.filter fun c => decide (f.catData[c]? = some k)).length = (f.classCases k).length / o.folds) ∧
      ((o.unstratified = true ∨ ∀ f, Feature.cat f ∈ m.data → f.name ≠ o.target) →
        ∀ t ∈ fs, t.length = m.caseLabels.length / o.folds) := by
  have hun : ∃ fs, nfoldUnstratified m.caseLabels.length o.folds rng = some fs ∧ fs.length = o.folds ∧
      TestSets m.caseLabels.length fs ∧ ∀ t ∈ fs, t.length = m.caseLabels.length / o.folds := by
    obtain ⟨fs, e, hlen, h1, h2, h3, -⟩ := c40_unstratified m.caseLabels.length o.folds h0 rng
    exact ⟨fs, e, hlen, ⟨fun t ht => (h1 t ht).2, h2, h3⟩, fun t ht => (h1 t ht).1⟩
  obtain ⟨fs, e, hlen, h1, h2⟩ := hun
  have huniq : ∀ i g, m.map o.target = some i → m.data[i]? = some g → ∀ f ∈ m.data, f.name = o.target → f = g := by
    intro i g hmap hg f hf hfn
    obtain ⟨g', hg', hgn⟩ := hi.sound _ _ hmap
    rw [hg] at hg'
    cases hg'
    exact List.inj_on_of_nodup_map hn hf (List.mem_of_getElem? hg) (hfn.trans hgn.symm)
  unfold nfoldFolds
  cases hmap : m.map o.target with
  | none =>
    refine ⟨fs, e, hlen, h1, fun f hf hfn _ => ?_, fun _ => h2⟩
    obtain ⟨i, hi'⟩ := hi.complete _ hf
    have : (Feature.cat f : Feature K).name = o.target := hfn
    rw [this, hmap] at hi'
    cases hi'
  | some i =>
    obtain ⟨g, hg, hgn⟩ := hi.sound _ _ hmap
    simp only [hg]
    cases g with
    | num g =>
      refine ⟨fs, e, hlen, h1, fun f hf hfn _ => ?_, fun _ => h2⟩
      have := huniq i _ hmap hg _ hf hfn
      cases this
    | cat g =>
      have hmem : Feature.cat g ∈ m.data := List.mem_of_getElem? hg
      by_cases hu : o.unstratified = true
      · simp only [hu, if_true]
        exact ⟨fs, e, hlen, h1, fun f _ _ h => by simp at h, fun _ => h2⟩
      · simp only [hu, if_false]
        have hcg : g.Consistent := hc _ hmem
        have hlg : g.missing.length = m.caseLabels.length := hl _ hmem
        have hkn : g.Known := ⟨hcg.lengths.symm, fun i k h => hk g hmem k (List.mem_of_getElem? h)⟩
        obtain ⟨fs, e, hlen, k1, k2, -, k3, k4, -⟩ := c40_stratified g hkn o.folds h0 rng
        refine ⟨fs, e, hlen, ⟨fun t ht c hct => ?_, k3, k4⟩, fun f hf hfn _ => ?_, fun h => ?_⟩
        · have := (k1 t ht c hct).1
          rw [hcg.lengths, hlg] at this
          exact this
        · have := huniq i _ hmap hg _ hf hfn
          cases this
          exact k2
        · rcases h with h | h
          · simp at h
          · exact absurd hgn (h g hmem)

/-! ## The files -/

/-- What `WriteCases` writes. -/
def afmText (nt : NumText K) (fm : FeatureMatrix K) (cases : List Nat) : Text :=
  ((("." :: cases.map (labelOf fm)) :: fm.data.map fun f => f.name :: cases.map (cellOf nt f)).map
    fun r => joinC '\t' (r.map String.toList) ++ ['\n']).flatten

theorem foldlM_files {ε : Type} {step : ε × List (String × Text) → Nat → Option (ε × List (String × Text))}
    {g : Nat → List (String × Text)} {n : Nat} {e : ε}
    (h : ∀ i < n, ∀ l, step (e, l) i = some (e, l ++ g i)) :
    (List.range n).foldlM step (e, []) = some (e, (List.range n).flatMap g) := by
  induction n with
  | zero => rfl
  | succ n ih =>
    rw [List.range_succ, List.foldlM_append, ih fun i hi => h i (by omega)]
    simp only [Option.bind_eq_bind, Option.bind_some, List.foldlM_cons, List.foldlM_nil, h n (by omega)]
    simp [List.flatMap_append]

theorem caseWritable_getStr {nt : NumText K} {f : Feature K} {c : Nat} (h : f.CaseWritable nt c) :
    ∃ v, f.getStr nt c = some v := by
  cases f with
  | num f =>
    rcases h with h | ⟨h, x, hx, -⟩
    · exact ⟨"NA", by simp [Feature.getStr, NumFeature.getStr, h]⟩
    · exact ⟨String.ofList (nt.fmt x), by simp [Feature.getStr, NumFeature.getStr, h, hx]⟩
  | cat f =>
    rcases h with h | ⟨h, k, s, hk, hs, -⟩
    · exact ⟨"NA", by simp [Feature.getStr, CatFeature.getStr, h]⟩
    · exact ⟨s, by simp [Feature.getStr, CatFeature.getStr, h, hk, hs]⟩

/-- A run that writes only AFM files. -/
structure NfoldOpts.Plain (o : NfoldOpts) : Prop where
  impute : o.impute = false
  num : o.num = false
  libsvm : o.writelibsvm = false
  arff : o.writearff = false
  all : o.writeall = false

theorem nfold_plain (nt : NumText K) (o : NfoldOpts) (ho : o.Plain) (h0 : 0 < o.folds) (fm : FeatureMatrix K)
    (h : fm.AllWritable nt) (ids : List String) (rng : Rng) :
    ∃ m fs, nfoldMatrix nt o fm ids = some m ∧ m.data = nfoldKept o ids fm.data ∧ m.caseLabels = fm.caseLabels ∧
      (∀ s, m.map s = indexOfNames (m.data.map Feature.name) 0 none s) ∧
      nfoldFolds o m rng = some fs ∧ fs.length = o.folds ∧ TestSets fm.caseLabels.length fs ∧
      (∀ f, Feature.cat f ∈ nfoldKept o ids fm.data → f.name = o.target → o.unstratified = false → ∀ t ∈ fs,
        ∀ k < f.cm.nCats,
          (t.filter fun c => decide (f.catData[c]? = some k)).length = (f.classCases k).length / o.folds) ∧
      ((o.unstratified = true ∨ ∀ f, Feature.cat f ∈ nfoldKept o ids fm.data → f.name ≠ o.target) →
        ∀ t ∈ fs, t.length = fm.caseLabels.length / o.folds) ∧
      (∀ i te, fs[i]? = some te → TrainingSet fs te ((nfoldTrain o.folds fs i).getD [])) ∧
      nfold nt o fm ids rng = some ((List.range o.folds).flatMap fun i =>
        [(o.test i, afmText nt m (fs.getD i [])), (o.train i, afmText nt m ((nfoldTrain o.folds fs i).getD []))]) := by
  obtain ⟨m, e1, hd, hlab, hi, hmap⟩ := nfoldMatrix_plain nt o fm ids h.indexed h.distinct h.consistent ho.impute ho.num
  have hsub : ∀ f ∈ m.data, f ∈ fm.data := fun f hf => by
    rw [hd] at hf
    exact (List.mem_filter.1 hf).1
  have hnd : (m.data.map Feature.name).Nodup := by
    rw [hd]
    exact h.distinct.sublist (List.filter_sublist.map _)
  obtain ⟨fs, e2, hlen, hts, hs1, hs2⟩ := nfoldFolds_ok o h0 m hi hnd (fun f hf => h.consistent f (hsub f hf))
    (fun f hf => by rw [hlab]; exact h.lengths f (hsub f hf)) (fun f hf => h.numbers f (hsub _ hf)) rng
  rw [hlab] at hts hs2
  rw [hd] at hs1 hs2
  have htr : ∀ i te, fs[i]? = some te → ∃ tr, nfoldTrain o.folds fs i = some tr ∧ TrainingSet fs te tr := by
    intro i te hte
    obtain ⟨tr, e, h1, h2⟩ := c40_train fs hts.nodup hts.disjoint i te hte
    exact ⟨tr, hlen ▸ e, h1, h2⟩
  refine ⟨m, fs, e1, hd, hlab, hmap, e2, hlen, hts, hs1, hs2, fun i te hte => ?_, ?_⟩
  · obtain ⟨tr, e, ht⟩ := htr i te hte
    rw [e]
    exact ht
  · have hwrite : ∀ cs : List Nat, (∀ c ∈ cs, c < fm.caseLabels.length) → m.writeCases nt cs = some (afmText nt m cs) := by
      intro cs hcs
      refine writeCases_eq (fun c hc => ?_) fun f hf c hc => ?_
      · rw [hlab]
        exact ⟨_, List.getElem?_eq_getElem (hcs c hc)⟩
      · exact caseWritable_getStr (h.cases f (hsub f hf) c (hcs c hc))
    unfold nfold
    simp only [e1, e2, Option.bind_eq_bind, Option.bind_some, ho.libsvm, ho.all, Bool.or_self, Bool.and_false,
      Bool.false_eq_true, if_false]
    rw [foldlM_files (g := fun i => [(o.test i, afmText nt m (fs.getD i [])),
      (o.train i, afmText nt m ((nfoldTrain o.folds fs i).getD []))])]
    · rfl
    · intro i hlt l
      have hte : fs[i]? = some fs[i] := List.getElem?_eq_getElem (by omega)
      obtain ⟨tr, e, ht⟩ := htr i _ hte
      unfold nfoldFiles
      have hte' : ∀ c ∈ fs[i], c < fm.caseLabels.length := hts.cases _ (List.mem_of_getElem? hte)
      have htr' : ∀ c ∈ tr, c < fm.caseLabels.length := fun c hc => by
        obtain ⟨⟨t, ht1, ht2⟩, -⟩ := (ht.mem c).1 hc
        exact hts.cases t ht1 c ht2
      simp only [e, hte, Option.bind_eq_bind, Option.bind_some, ho.libsvm, ho.arff, ho.all, Bool.or_self,
        Bool.false_eq_true, if_false, Bool.not_false, Bool.and_self, Bool.true_or, if_true, hwrite _ hte',
        hwrite _ htr', Option.getD_some, List.getD_eq_getElem?_getD, List.append_nil]

end CloudForest
