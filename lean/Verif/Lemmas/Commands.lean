import Verif.Model.Commands
import Verif.Spec.Commands
import Verif.Lemmas.Parsed
import Verif.Lemmas.Cores
import Verif.Props.Parsed
import Verif.Props.Apply
import Verif.Props.Setup
import Verif.Props.Driver
import Verif.Props.Values

/-!
Pieces of the way from a data file to predictions.
-/

set_option linter.unusedSectionVars false

namespace CloudForest
variable {K : Type} [Field K] [LinearOrder K] [IsStrictOrderedRing K] {τ : Type}

/-! ## What parsing gives -/

theorem appendRecord_all {P : Feature K → Prop} {nt : NumText K} (happ : ∀ f v, P f → P (f.append nt v)) :
    ∀ (fs : List (Feature K)) (vs : List String) (fs' : List (Feature K)), (∀ f ∈ fs, P f) →
      appendRecord nt fs vs = some fs' → ∀ f ∈ fs', P f := by
  intro fs
  induction fs with
  | nil =>
    intro vs fs' hf h
    cases vs with
    | nil => cases h; exact hf
    | cons v vs => cases h
  | cons g fs ih =>
    intro vs fs' hf h
    cases vs with
    | nil => cases h; exact hf
    | cons v vs =>
      rw [appendRecord, Option.map_eq_some_iff] at h
      obtain ⟨r, hr, rfl⟩ := h
      intro f hm
      rcases List.mem_cons.1 hm with rfl | hm
      · exact happ g v (hf g List.mem_cons_self)
      · exact ih vs r (fun x hx => hf x (List.mem_cons_of_mem _ hx)) hr f hm

theorem loadCases_all {P : Feature K → Prop} {nt : NumText K} (happ : ∀ f v, P f → P (f.append nt v)) (rl : Bool) :
    ∀ (rs : List (List String)) (fm : FeatureMatrix K) (n : Nat) (fm' : FeatureMatrix K), (∀ f ∈ fm.data, P f) →
      loadCases nt rl rs fm n = some fm' → ∀ f ∈ fm'.data, P f := by
  intro rs
  induction rs with
  | nil => intro fm n fm' hf h; cases h; exact hf
  | cons r rs ih =>
    intro fm n fm' hf h
    cases rl with
    | true =>
      cases r with
      | nil => cases h
      | cons l vs =>
        rw [loadCases] at h
        obtain ⟨data, hd, h⟩ := Option.bind_eq_some_iff.1 h
        exact ih _ _ _ (appendRecord_all happ _ _ _ hf hd) h
    | false =>
      rw [loadCases] at h
      obtain ⟨data, hd, h⟩ := Option.bind_eq_some_iff.1 h
      exact ih _ _ _ (appendRecord_all happ _ _ _ hf hd) h

/-- What holds of new features and survives appending holds of what is parsed. -/
theorem parseAFM_all {P : Feature K → Prop} {nt : NumText K} (hnum : ∀ n, hasPrefix2 ['N', ':'] n = true → P (.num (.new n))) (hcat : ∀ n, P (.cat (.new n)))
    (happ : ∀ f v, P f → P (f.append nt v)) {text : Text} {fm : FeatureMatrix K} (h : parseAFM nt text = some fm) :
    ∀ f ∈ fm.data, P f := by
  unfold parseAFM at h
  cases hr : (csvRecords '\t' text).map (·.map String.ofList) with
  | nil => rw [hr] at h; cases h
  | cons header rest =>
    rw [hr] at h
    simp only at h
    split at h
    · cases h
    · rename_i h0 hs ht
      split at h
      · obtain ⟨data, hm, h⟩ := Option.bind_eq_some_iff.1 h
        refine loadCases_all happ true rest _ 0 fm ?_ h
        intro f hf
        rw [pushAll_data] at hf
        obtain ⟨l, -, hl⟩ := (mapM_results hm).2 f (by simpa using hf)
        unfold columnFeature at hl
        split_ifs at hl with h1 h2 <;> cases hl
        · exact hnum _ h2
        · exact hcat _
      · obtain ⟨data, hm, h⟩ := Option.bind_eq_some_iff.1 h
        cases h
        intro f hf
        rw [pushAll_data] at hf
        obtain ⟨r, -, hl⟩ := (mapM_results hm).2 f (by simpa using hf)
        have hfold : ∀ (vs : List String) (f : Feature K), P f → P (vs.foldl (fun f v => f.append nt v) f) := by
          intro vs
          induction vs with
          | nil => exact fun f h => h
          | cons v vs ih => exact fun f h => ih _ (happ f v h)
        have hn : ∀ (vs : List String) (f : NumFeature K), Feature.num (vs.foldl (fun f v => f.append nt v) f) =
            vs.foldl (fun f v => Feature.append nt f v) (.num f) := by
          intro vs
          induction vs with
          | nil => exact fun f => rfl
          | cons v vs ih => exact fun f => ih _
        have hc : ∀ (vs : List String) (f : CatFeature), Feature.cat (vs.foldl (fun f v => f.append v) f) =
            vs.foldl (fun f v => Feature.append nt f v) (.cat f : Feature K) := by
          intro vs
          induction vs with
          | nil => exact fun f => rfl
          | cons v vs ih => exact fun f => ih _
        cases r with
        | nil => cases hl
        | cons name vals =>
          unfold parseFeature at hl
          simp only at hl
          split_ifs at hl with h1 h2 <;> cases hl
          · rw [hn]; exact hfold _ _ (hnum _ h2)
          · rw [hc]; exact hfold _ _ (hcat _)

/-- Missing values are stored as zero. -/
def Feature.ZeroFilled : Feature K → Prop
  | .cat f => f.catData.length = f.missing.length ∧ ∀ i : Nat, f.missing[i]? = some true → f.catData[i]? = some 0
  | .num f => f.numData.length = f.missing.length ∧ ∀ i : Nat, f.missing[i]? = some true → f.numData[i]? = some (.fin 0)

theorem zero_snoc {α : Type} {z : α} {data : List α} {missing : List Bool} (hl : data.length = missing.length)
    (h : ∀ i : Nat, missing[i]? = some true → data[i]? = some z) (x : α) (b : Bool) (hb : b = true → x = z) :
    (data ++ [x]).length = (missing ++ [b]).length ∧
      ∀ i : Nat, (missing ++ [b])[i]? = some true → (data ++ [x])[i]? = some z := by
  refine ⟨by simp [hl], fun i hi => ?_⟩
  rcases Nat.lt_trichotomy i missing.length with hlt | rfl | hgt
  · rw [List.getElem?_append_left hlt] at hi
    rw [List.getElem?_append_left (by omega)]
    exact h i hi
  · rw [List.getElem?_append_right (le_refl _)] at hi
    rw [← hl, List.getElem?_append_right (le_refl _)]
    simp at hi ⊢
    exact hb hi
  · rw [List.getElem?_eq_none (by simp; omega)] at hi
    cases hi

theorem parsed_zeroFilled {nt : NumText K} {text : Text} {fm : FeatureMatrix K} (h : parseAFM nt text = some fm) :
    ∀ f ∈ fm.data, f.ZeroFilled := by
  refine parseAFM_all (fun n _ => ⟨rfl, by simp [NumFeature.new]⟩) (fun n => ⟨rfl, by simp [CatFeature.new]⟩) ?_ h
  intro f v hf
  cases f with
  | num f =>
    obtain ⟨h1, h2⟩ := hf
    show Feature.ZeroFilled (.num (f.append nt v))
    unfold NumFeature.append
    split
    · exact zero_snoc h1 h2 _ _ fun _ => rfl
    · exact zero_snoc h1 h2 _ _ nofun
  | cat f =>
    obtain ⟨h1, h2⟩ := hf
    show Feature.ZeroFilled (.cat (f.append v))
    unfold CatFeature.append
    split
    · exact zero_snoc h1 h2 _ _ fun _ => rfl
    · exact zero_snoc h1 h2 _ _ nofun

/-- Every category of a parsed feature is the value of some case. -/
theorem parsed_occurs {nt : NumText K} {text : Text} {fm : FeatureMatrix K} (h : parseAFM nt text = some fm) {f : CatFeature}
    (hf : .cat f ∈ fm.data) : ∀ k < f.cm.back.length, ∃ i : Nat, f.missing[i]? = some false ∧ f.catData[i]? = some k := by
  refine (parseAFM_all (P := fun (f : Feature K) => match f with
    | .num _ => True
    | .cat f => f.catData.length = f.missing.length ∧
        ∀ k < f.cm.back.length, ∃ i : Nat, f.missing[i]? = some false ∧ f.catData[i]? = some k)
    (fun _ _ => trivial) (fun _ => ⟨rfl, by simp [CatFeature.new, CatMap.empty]⟩) ?_ h _ hf).2
  intro f v hf
  cases f with
  | num f => trivial
  | cat f =>
    obtain ⟨h1, h2⟩ := hf
    have old : ∀ (k : Nat) (x : Nat) (b : Bool), k < f.cm.back.length →
        ∃ i : Nat, (f.missing ++ [b])[i]? = some false ∧ (f.catData ++ [x])[i]? = some k := by
      intro k x b hk
      obtain ⟨i, e1, e2⟩ := h2 k hk
      have l1 := (List.getElem?_eq_some_iff.1 e1).1
      have l2 := (List.getElem?_eq_some_iff.1 e2).1
      exact ⟨i, by rw [List.getElem?_append_left l1]; exact e1, by rw [List.getElem?_append_left l2]; exact e2⟩
    show (f.append v).catData.length = _ ∧ _
    unfold CatFeature.append
    split
    · exact ⟨by simp [h1], fun k hk => old k _ _ hk⟩
    · refine ⟨by simp [h1], fun k hk => ?_⟩
      unfold CatMap.catToNum at hk ⊢
      cases hm : f.cm.map v with
      | some n =>
        simp only [hm] at hk ⊢
        exact old k _ _ hk
      | none =>
        simp only [hm, List.length_append, List.length_singleton] at hk ⊢
        rcases Nat.lt_succ_iff_lt_or_eq.1 hk with hk | rfl
        · exact old k _ _ hk
        · refine ⟨f.missing.length, ?_, ?_⟩
          · rw [List.getElem?_append_right (le_refl _)]; simp
          · rw [← h1, List.getElem?_append_right (le_refl _)]; simp

/-- Numerical features are called so. -/
theorem parsed_num_name {nt : NumText K} {text : Text} {fm : FeatureMatrix K} (h : parseAFM nt text = some fm) {f : NumFeature K}
    (hf : .num f ∈ fm.data) : f.name.toList.head? = some 'N' := by
  refine parseAFM_all (P := fun f => match f with
    | .num f => f.name.toList.head? = some 'N'
    | .cat _ => True) (fun n hn => ?_) (fun _ => trivial) ?_ h _ hf
  · unfold hasPrefix2 at hn
    simp only [decide_eq_true_eq] at hn
    show n.toList.head? = some 'N'
    cases hl : n.toList with
    | nil => rw [hl] at hn; cases hn
    | cons a t =>
      rw [hl] at hn
      cases t <;> cases hn
      rfl
  · intro f v hf
    cases f with
    | cat f => trivial
    | num f =>
      show (f.append nt v).name.toList.head? = some 'N'
      have : (f.append nt v).name = f.name := by
        unfold NumFeature.append
        split <;> rfl
      rw [this]
      exact hf

/-! ## Leaves -/

theorem reaches_landing {fm : FeatureMatrix K} {c : Nat} : ∀ {n : Node K} {x : List Dir × String}, x ∈ leavesOf n →
    reaches fm n x.1 c = true → landing fm n c = some x := by
  intro n
  induction n with
  | nil => intro x h; cases h
  | mk coded fi l r m pred spl ihl ihr ihm =>
    intro x h hr
    rw [leavesOf] at h
    rw [landing]
    split at h
    · rename_i hs
      rw [if_pos hs]
      simp only [List.mem_append, List.mem_map] at h
      rcases h with (⟨y, hy, rfl⟩ | ⟨y, hy, rfl⟩) | ⟨y, hy, rfl⟩
      all_goals
        rw [reaches, Bool.and_eq_true, beq_iff_eq] at hr
        rw [hr.1]
      · simp only [ihl hy hr.2, Option.map_some]
      · simp only [ihr hy hr.2, Option.map_some]
      · simp only [ihm hy hr.2, Option.map_some]
    · rename_i hs
      rw [if_neg hs]
      rw [List.mem_singleton.1 h]

theorem leaf_subtree : ∀ {n : Node K} {x : List Dir × String}, x ∈ leavesOf n → subtreeAt n x.1 ≠ .nil := by
  intro n
  induction n with
  | nil => intro x h; cases h
  | mk coded fi l r m pred spl ihl ihr ihm =>
    intro x h
    rw [leavesOf] at h
    split at h
    · simp only [List.mem_append, List.mem_map] at h
      rcases h with (⟨y, hy, rfl⟩ | ⟨y, hy, rfl⟩) | ⟨y, hy, rfl⟩
      · exact ihl hy
      · exact ihr hy
      · exact ihm hy
    · rw [List.mem_singleton.1 h]
      nofun

theorem leaf_path : ∀ {n : Node K} {x : List Dir × String}, n.NoMissing → x ∈ leavesOf n → Dir.M ∉ x.1 := by
  intro n
  induction n with
  | nil => intro x _ h; cases h
  | mk coded fi l r m pred spl ihl ihr ihm =>
    intro x hn h
    obtain ⟨hm, hl, hr⟩ := hn
    rw [leavesOf] at h
    split at h
    · simp only [List.mem_append, List.mem_map] at h
      rcases h with (⟨y, hy, rfl⟩ | ⟨y, hy, rfl⟩) | ⟨y, hy, rfl⟩
      · simpa using ihl hl hy
      · simpa using ihr hr hy
      · cases m with
        | nil => cases hy
        | mk _ _ _ _ _ _ _ => cases hm
    · rw [List.mem_singleton.1 h]
      simp

theorem landing_in_leaves {fm : FeatureMatrix K} {c : Nat} : ∀ {n : Node K} {x : List Dir × String}, landing fm n c = some x →
    x ∈ leavesOf n := by
  intro n
  induction n with
  | nil => intro x h; cases h
  | mk coded fi l r m pred spl ihl ihr ihm =>
    intro x h
    rw [landing] at h
    rw [leavesOf]
    split at h
    · rename_i hs
      rw [if_pos hs]
      simp only [List.mem_append, List.mem_map]
      split at h
      · obtain ⟨y, hy, rfl⟩ := Option.map_eq_some_iff.1 h
        exact .inl (.inl ⟨y, ihl hy, rfl⟩)
      · obtain ⟨y, hy, rfl⟩ := Option.map_eq_some_iff.1 h
        exact .inl (.inr ⟨y, ihr hy, rfl⟩)
      · obtain ⟨y, hy, rfl⟩ := Option.map_eq_some_iff.1 h
        exact .inr ⟨y, ihm hy, rfl⟩
      · cases h
    · rename_i hs
      rw [if_neg hs]
      cases h
      exact List.mem_singleton_self _

theorem caseDir_exists {fm : FeatureMatrix K} {cases : List Nat} {coded : Option (Coded K)} {fi : Nat}
    {spl : Option (Splitter K)} (h : NodeOk fm cases coded fi spl) {c : Nat} (hc : c ∈ cases) :
    ∃ d, caseDir fm coded fi spl c = some d := by
  obtain ⟨sp, -, h2⟩ := nodeSplit_ok h [c] (by simpa using hc)
  have : c ∈ sp.left ++ sp.missing ++ sp.right := h2.perm.mem_iff.2 (List.mem_singleton_self c)
  simp only [List.mem_append] at this
  rcases this with (h | h) | h
  · exact ⟨_, h2.left c h⟩
  · exact ⟨_, h2.missing c h⟩
  · exact ⟨_, h2.right c h⟩

theorem caseDir_missing {fm : FeatureMatrix K} {coded : Option (Coded K)} {fi : Nat} {spl : Option (Splitter K)} {c : Nat}
    (h : caseDir fm coded fi spl c = some .M) : ∃ f ∈ fm.data, f.isMissing c = some true := by
  unfold caseDir at h
  split at h
  · split at h
    · cases h
    · rename_i f hf
      refine ⟨f, List.mem_of_getElem? hf, ?_⟩
      split at h <;> first | assumption | cases h
  · split at h
    · cases h
    · rename_i f hf
      refine ⟨f, List.mem_of_getElem? hf, ?_⟩
      split at h <;> first | assumption | cases h
  · cases h

/-- Only a case with a missing value can go nowhere. -/
theorem landing_none {fm : FeatureMatrix K} {cases : List Nat} {c : Nat} (hc : c ∈ cases) : ∀ {n : Node K}, Usable fm cases n →
    landing fm n c = none → ∃ f ∈ fm.data, f.isMissing c = some true := by
  intro n
  induction n with
  | nil => intro hu; exact hu.elim
  | mk coded fi l r m pred spl ihl ihr ihm =>
    intro hu h
    rw [landing] at h
    split at h
    · rename_i hs
      obtain ⟨h1, hl, hr, -⟩ := (usable_split hs).1 hu
      split at h
      · exact ihl hl (by simpa using h)
      · exact ihr hr (by simpa using h)
      · rename_i hd
        exact caseDir_missing hd
      · rename_i hd
        obtain ⟨d, e⟩ := caseDir_exists h1 hc
        rw [e] at hd
        cases hd
    · cases h

/-! ## The trees of a run -/

/-- A tree without what old trees left below its leaves, and its bag. -/
def voterOf (x : Tree K × List Nat) : Tree K × List Nat := ({ x.1 with root := prune x.1.root }, x.2)

/-- What a tree answers: nothing only if a value is missing, otherwise the prediction for its neighbours in the bag. -/
theorem recorded_voters {r : RunSetup K τ} {L : TargetLaws r.T r.all} {good : τ → Prop} {cans : List Nat}
    (hr : r.Ok L good cans) (hsm : r.splitmissing = false) {out : List (Tree K × List Nat)} (hx : ∀ x ∈ out, r.Recorded L cans x) :
    (cleaned r.target out).Fits r.fm ∧
    ∀ x ∈ out.map voterOf, x.1.weight = .fin (-1) ∧
      (x.2.length ≤ r.nSamples ∧ (r.how.isNobag = false → x.2.length = r.nSamples)) ∧ (∀ c ∈ x.2, r.missing[c]? = some false) ∧
      ∀ c ∈ r.all, (x.1.opinion r.fm c = none → ∃ f ∈ r.fm.data, f.isMissing c = some true) ∧
        ∀ p, x.1.opinion r.fm c = some p → ∃ S, S.Perm (neighbours r.fm x.1 x.2 c) ∧ p = r.findPredicted S ∧ (x.2 ≠ [] → S ≠ []) := by
  obtain ⟨a1, a2, -⟩ := treeGrower_search_any hr.setting r.findPredicted r.maxDepth r.splitmissing
  refine ⟨?_, ?_⟩
  · intro t ht
    obtain ⟨x, hxm, rfl⟩ := List.mem_map.1 ht
    obtain ⟨-, c2, -, c4, st, st', c5, c6, c7, c8⟩ := hx x hxm
    refine ⟨⟨-1, c2⟩, fun cases hc => ?_⟩
    rw [hr.cases] at hc
    cases hc
    have hg := (grow_grown hr.matrix a1 _ 0 "" _ x.2 0 0 _ _ ⟨c5, c6, c7⟩ (Nat.zero_le _) (fun c h => r.mem_all (c4 c h)) c8).2 false
    exact (hg.usable hr.matrix).resolve_left hg.not_nil
  · intro y hy
    obtain ⟨x, hxm, rfl⟩ := List.mem_map.1 hy
    obtain ⟨-, c2, c3, c4, st, st', c5, c6, c7, c8⟩ := hx x hxm
    refine ⟨c2, c3, c4, fun c hc => ?_⟩
    have hall : ∀ c ∈ x.2, c ∈ r.all := fun c h => r.mem_all (c4 c h)
    have hg := (grow_grown hr.matrix a1 _ 0 "" _ x.2 0 0 _ _ ⟨c5, c6, c7⟩ (Nat.zero_le _) hall c8).2 false
    have hu := (hg.usable hr.matrix).resolve_left hg.not_nil
    refine ⟨fun h => landing_none hc hu (by simpa [voterOf, Tree.opinion] using h), fun p hp => ?_⟩
    obtain ⟨y, hy, rfl⟩ := Option.map_eq_some_iff.1 hp
    have hy : landing r.fm (prune x.1.root) c = some y := hy
    have hleaf := landing_in_leaves hy
    rcases hg.leaves y hleaf with ⟨S, hS, hp⟩ | ⟨h1, -⟩
    · have he : neighbours r.fm (voterOf x).1 (voterOf x).2 c =
          x.2.filter fun d => (landing r.fm (prune x.1.root) d).map (·.1) == some y.1 := by
        unfold neighbours voterOf
        simp only [hy, Option.map_some]
      refine ⟨S, he ▸ hS, hp, fun hne => ?_⟩
      have key : ∃ d ∈ x.2, landing r.fm (prune x.1.root) d = some y := by
        rcases List.eq_nil_or_concat y.1 with h0 | ⟨q, d, h0⟩
        · obtain ⟨d, hd⟩ := List.exists_mem_of_ne_nil _ hne
          refine ⟨d, hd, reaches_landing hleaf ?_⟩
          rw [h0]
          cases hroot : prune x.1.root with
          | nil => rw [hroot] at hg; exact absurd rfl hg.not_nil
          | mk => rfl
        · have hM := leaf_path (grow_noMissing (g := r.freeGrower) hsm _ 0 "" _ _ 0 0 _ _ c8) hleaf
          have hlim := (c09_limits (hr.matrix.mono hall) (a1.mono hall) (a2.mono hall) ⟨c5, c6, c7⟩ (Nat.zero_le _) c8).1 q d
            (by rintro rfl; rw [h0] at hM; simp at hM) (by
              have := leaf_subtree hleaf
              rw [h0] at this
              simpa using this)
          have h1 : 1 ≤ r.o.leafSize := hr.setting.leafSize
          obtain ⟨d', hd'⟩ := List.exists_mem_of_length_pos (Nat.lt_of_lt_of_le h1 hlim)
          obtain ⟨hd1, hd2⟩ := List.mem_filter.1 hd'
          refine ⟨d', hd1, reaches_landing hleaf ?_⟩
          rw [h0]
          simpa using hd2
      obtain ⟨d, hd, e⟩ := key
      have : d ∈ S := hS.mem_iff.2 (List.mem_filter.2 ⟨hd, by rw [e]; simp⟩)
      exact List.ne_nil_of_mem this
    · have : r.splitmissing = true := h1
      rw [hsm] at this
      cases this

end CloudForest
