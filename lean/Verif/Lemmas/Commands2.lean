import Verif.Lemmas.Commands
import Verif.Lemmas.Regression

/-!
growforest on a table that was parsed, up to the file.
-/

set_option linter.unusedSectionVars false

namespace CloudForest
variable {K : Type} [Field K] [LinearOrder K] [IsStrictOrderedRing K] {τ : Type}

theorem count_range {α : Type} (P : α → Bool) : ∀ l : List α,
    ((List.range l.length).filter fun i => (l[i]?).any P).length = (l.filter P).length := by
  intro l
  induction l with
  | nil => rfl
  | cons a l ih =>
    rw [List.length_cons, List.range_succ_eq_map, List.filter_cons, List.filter_cons, List.filter_map, ]
    simp only [List.getElem?_cons_zero, Option.any_some]
    have : ((fun i => Option.any P (a :: l)[i]?) ∘ Nat.succ) = fun i => (l[i]?).any P := by
      funext i
      simp
    rw [this]
    split <;> simp [ih]

theorem nKnown_eq (missing : List Bool) : nKnown missing = (bagKnown missing).length := by
  rw [nKnown, List.countP_eq_length_filter, ← count_range (fun m => !m) missing]
  unfold bagKnown
  congr 2
  funext i
  cases missing[i]? with
  | none => rfl
  | some b => cases b <;> rfl

/-- A parsed clean table: what growing needs, whatever the target. -/
structure Prepared (fm : FeatureMatrix K) (a : GrowArgs) (F : Feature K) (ti : Nat) (b : Blacklist) : Prop where
  chosen : chooseFeatures fm a.blacklist a.target a.block a.incl = some (ti, b)
  target : fm.data[ti]? = some F
  count : (b.nFeatures fm).toNat = (allowedFeatures fm a.blacklist a.target a.block a.incl).length
  cans : (candidates fm ti b.marks).length = (allowedFeatures fm a.blacklist a.target a.block a.incl).length
  exist : ∀ i ∈ candidates fm ti b.marks, i < fm.data.length
  cases : fm.allCases = some (List.range fm.caseLabels.length)
  length : F.length = fm.caseLabels.length
  matrix : MatrixOk fm (List.range fm.caseLabels.length)
  feats : ∀ f ∈ fm.data, FeatOk f (List.range fm.caseLabels.length)

theorem prepared {nt : NumText K} {text : Text} {fm : FeatureMatrix K} (hp : parseAFM nt text = some fm) {a : GrowArgs}
    (hc : fm.Clean a.target) {F : Feature K} (hF : F ∈ fm.data) (hn : F.name = a.target) (hids : a.target ∉ a.blacklist) :
    ∃ ti b, Prepared fm a F ti b := by
  obtain ⟨hR, hI⟩ := c139_afm nt text fm hp
  have hM := c139_sound nt text fm hp hc.names
  obtain ⟨ti, b, h1, h2, h3, h4⟩ := c93_candidates_partial fm hI hM.named a.blacklist a.target a.block a.incl ⟨F, hF, hn⟩
  have hmap : fm.map a.target = some ti := by
    unfold chooseFeatures at h1
    obtain ⟨b1, -, h1⟩ := Option.bind_eq_some_iff.1 h1
    obtain ⟨t1, e, h1⟩ := Option.bind_eq_some_iff.1 h1
    obtain ⟨b2, -, h1⟩ := Option.bind_eq_some_iff.1 h1
    obtain ⟨b3, -, h1⟩ := Option.bind_eq_some_iff.1 h1
    cases h1
    exact e
  obtain ⟨j, hj⟩ := List.mem_iff_getElem?.1 hF
  have hji := hM.named j F hj
  rw [hn, hmap, Option.some.injEq] at hji
  subst hji
  have hcl : (candidates fm ti b.marks).length = (allowedFeatures fm a.blacklist a.target a.block a.incl).length := by
    unfold allowedFeatures
    rw [← count_range]
    refine List.Perm.length_eq ?_
    rw [List.perm_ext_iff_of_nodup (h3.imp fun h => Nat.ne_of_lt h) (List.nodup_range.filter _)]
    intro i
    rw [h2 i, List.mem_filter, List.mem_range]
    constructor
    · rintro ⟨f, e, h⟩
      exact ⟨(List.getElem?_eq_some_iff.1 e).1, by rw [e]; simpa using h⟩
    · rintro ⟨hl, h⟩
      exact ⟨_, List.getElem?_eq_getElem hl, by rw [List.getElem?_eq_getElem hl] at h; simpa using h⟩
  refine ⟨ti, b, h1, hj, ?_, hcl, ?_, ?_, hR.lengths F hF, hM, ?_⟩
  · rw [h4 hids, hcl]
    rfl
  · intro i hi
    obtain ⟨f, e, -⟩ := (h2 i).1 hi
    exact (List.getElem?_eq_some_iff.1 e).1
  · unfold FeatureMatrix.allCases
    cases hd : fm.data with
    | nil => rw [hd] at hF; cases hF
    | cons g gs =>
      rw [← hR.lengths g (by rw [hd]; exact List.mem_cons_self)]
      rfl
  · intro f hf
    refine ⟨hM.valid f hf, hM.sound f hf, ?_⟩
    cases f with
    | num f =>
      intro c hcm
      obtain ⟨h5, h6⟩ := List.mem_filter.1 hcm
      have h7 := (hM.valid _ hf c h5).2
      obtain ⟨y, e⟩ := hc.finite f hf c _ (by simpa [Feature.isMissing] using h6) (List.getElem?_eq_getElem h7)
      exact ⟨y, by rw [List.getElem?_eq_getElem h7, e]⟩
    | cat f =>
      intro c hcm
      obtain ⟨h5, h6⟩ := List.mem_filter.1 hcm
      obtain ⟨-, h7, h8⟩ := hM.valid _ hf c h5
      exact ⟨_, List.getElem?_eq_getElem h7, h8 _ (by simpa [Feature.isMissing] using h6) (List.getElem?_eq_getElem h7)⟩

/-- The numbers that are inferred are usable. -/
theorem inferLeafSize_pos [FloorRing K] {nt : NumText K} {s : Text} {n k : Nat} {l : Int}
    (h : inferLeafSize nt s false n k = some l) : 1 ≤ l := by
  unfold inferLeafSize at h
  obtain ⟨x, -, rfl⟩ := Option.map_eq_some_iff.1 h
  simp only [Bool.false_eq_true, if_false]
  split_ifs <;> omega

theorem inferNSamples_pos [FloorRing K] {nt : NumText K} {s : Text} {k : Nat} {l : Int} (hk : 1 ≤ k)
    (h : inferNSamples nt s k = some l) : 1 ≤ l := by
  unfold inferNSamples at h
  obtain ⟨x, -, rfl⟩ := Option.map_eq_some_iff.1 h
  split_ifs <;> omega

theorem nKnown_pos {missing : List Bool} {i : Nat} (h : missing[i]? = some false) : 1 ≤ nKnown missing := by
  rw [nKnown_eq]
  refine List.length_pos_of_mem (a := i) ?_
  exact List.mem_filter.2 ⟨List.mem_range.2 (List.getElem?_eq_some_iff.1 h).1, by simp [h]⟩

/-- The file of a run, read again. -/
theorem run_read {r : RunSetup K τ} {L : TargetLaws r.T r.all} {good : τ → Prop} {cans : List Nat}
    (hr : r.Ok L good cans) (hv : ¬ (r.o.vet = true ∧ r.o.evaloob = true)) (hsm : r.splitmissing = false) {nCores nCats : Nat}
    (hcores : 1 ≤ nCores) (hok : L.Ok (newAllocs nCats)) (own global : Nat → Rng) (pick : Nat → Nat) {nt : NumText K}
    (hnt : ∀ x, nt.Faithful x)
    (ht : ∀ f ∈ r.fm.data, f.Tidy) (hp : ∀ cs, Plain (r.findPredicted cs).toList) (htarget : Plain r.target.toList)
    (ord : Splitter K → List String) (hord : ∀ s : Splitter K, (ord s).Perm s.left) (progress : Bool) :
    let cmd := (r.runCores r.grower nCores (nKnown r.missing) nCats cans own global pick).bind fun out =>
      growforestFile nt ord progress r.target none (out.map (·.1))
    (cmd = none → r.Exhausted) ∧
    ∀ file, cmd = some file → ∃ out forest, out.length = max nCores r.nTrees ∧ (∀ x ∈ out, r.Recorded L cans x) ∧
      readForest nt file = some ⟨some forest, .ok, []⟩ ∧ forest.target = r.target ∧ forest.intercept = .fin 0 ∧
      (∀ o, applyForest nt o forest r.fm = applyForest nt o (cleaned r.target out) r.fm) ∧
      ∀ fm2 o, applyForest nt o forest fm2 = applyForest nt o (cleaned r.target out).named fm2 := by
  intro cmd
  obtain ⟨k1, k2, k3⟩ := runCores_ok hr (nCores := nCores) hok own global pick
  have hcmd : cmd = (r.runCores r.freeGrower nCores (bagKnown r.missing).length nCats cans own global pick).bind fun out =>
      growforestFile nt ord progress r.target none (out.map (·.1)) := by rw [← k3 hv, ← nKnown_eq]
  rw [hcmd]
  cases hrun : r.runCores r.freeGrower nCores (bagKnown r.missing).length nCats cans own global pick with
  | none => exact ⟨fun _ => k1 hrun, fun file h => by cases h⟩
  | some out =>
    obtain ⟨hl, hx⟩ := k2 out hrun
    rw [if_neg (by omega)] at hl
    obtain ⟨text, f', b1, b2, b3, b4, -, b6, b7⟩ := recorded_file hr hsm hnt ht hp htarget ord hord progress (out := out) (by
      rintro rfl
      simp at hl
      omega) hx
    simp only [Option.bind_some, b1]
    refine ⟨fun h => (by cases h), fun file h => ?_⟩
    cases h
    exact ⟨out, f', hl, hx, b2, b3, b4, b6, b7⟩

/-! ## Targets -/

theorem anewLaws_total3 (imp : List Nat → Option (XF K)) (cases : List Nat) (I : List Nat → XF K)
    (hI : ∀ cs, (∀ c ∈ cs, c ∈ cases) → imp cs = some (I cs)) (hp : ∀ l l' : List Nat, l.Perm l' → I l = I l') :
    (anewLaws imp cases I hI hp).Total3 := by
  intro a l r m _ hc
  have h1 := hI l fun c h => hc c (List.mem_append_left _ (List.mem_append_left _ h))
  have h2 := hI r fun c h => hc c (List.mem_append_left _ (List.mem_append_right _ h))
  have h3 := hI m fun c h => hc c (List.mem_append_right _ h)
  have h3 : imp (missBlock (some m)) = some (I m) := h3
  have key : ∃ x, anewSplit imp l r (some m) = some x := by
    unfold anewSplit
    simp only [h1, h2, h3, Option.bind_eq_bind, Option.bind_some]
    split
    · exact ⟨_, rfl⟩
    · exact ⟨_, rfl⟩
  obtain ⟨x, hx⟩ := key
  refine ⟨x, a, ?_, trivial⟩
  show (anewSplit imp l r (some m)).map _ = _
  rw [hx]
  rfl

/-- Numerical targets, with either impurity. -/
theorem num_laws (f : NumFeature K) (cases : List Nat) (h : f.Finite cases) (hc : ∀ c ∈ cases, c < f.missing.length)
    (hl : f.numData.length = f.missing.length) (l1 : Bool) :
    ∃ L : TargetLaws (if l1 then l1Target f else sseTarget f) cases, L.Ok = (fun _ => True) ∧ L.Total3 := by
  cases l1 with
  | false => exact ⟨sseLaws f cases h, rfl, sseLaws_total3 f cases h⟩
  | true =>
    exact ⟨l1Laws f cases hc hl fun c hcm => h c (mem_knownOf.1 hcm).1, rfl, anewLaws_total3 _ _ _ _ _⟩

theorem numContrast_any (f : NumFeature K) (cases : List Nat) (h : f.Finite cases) (hm : f.missing.length = f.numData.length)
    {T : Target K} (L : TargetLaws T cases) (hL : L.Ok = fun _ => True) :
    ContrastOk L (numContrast f) (fun g => g.Finite cases ∧ g.missing.length = g.numData.length) := by
  obtain ⟨h1, h2, h3⟩ := numContrast_ok f cases h hm
  refine ⟨h1, h2, fun c hc => ?_⟩
  obtain ⟨L', e⟩ := h3 c hc
  exact ⟨L', e.trans hL.symm⟩

/-- How cases are chosen for a parsed target. -/
theorem bagging_ok {nt : NumText K} {text : Text} {fm : FeatureMatrix K} (hp : parseAFM nt text = some fm) {f : CatFeature}
    (hf : .cat f ∈ fm.data) {i : Nat} (hi : f.missing[i]? = some false) (hin : f.InRange f.cm.nCats (List.range f.missing.length))
    (hcons : f.Consistent) (a : GrowArgs) :
    ∃ how, a.bagging f = some how ∧ how.Fit f.missing ∧ how.isNobag = a.nobag ∧
      (how = .plain → a.nobag = false ∧ a.balance = false) := by
  have hil := (List.getElem?_eq_some_iff.1 hi).1
  have hK : f.Known := ⟨hcons.lengths.symm, fun i k hk => by
    have hlt := (List.getElem?_eq_some_iff.1 hk).1
    obtain ⟨k', e1, e2⟩ := hin i (List.mem_range.2 (by rw [← hcons.lengths]; exact hlt))
    rw [hk] at e1
    cases e1
    exact e2⟩
  unfold GrowArgs.bagging
  cases hb : a.balance with
  | false =>
    cases hn : a.nobag with
    | false => exact ⟨.plain, rfl, Nat.lt_of_le_of_lt (Nat.zero_le _) hil, rfl, fun _ => ⟨rfl, rfl⟩⟩
    | true => exact ⟨.nobag, rfl, trivial, rfl, nofun⟩
  | true =>
    have he := newBalancedSampler_eq f hK
    cases hn : a.nobag with
    | true =>
      refine ⟨.nobag, ?_, trivial, rfl, nofun⟩
      rw [he]
      rfl
    | false =>
      refine ⟨.balanced ((List.range f.cm.nCats).map f.classCases), ?_, ⟨f, hK, rfl, he, ?_, fun k hk h0 => ?_⟩, rfl, nofun⟩
      · rw [he]
        rfl
      · have hd := List.getElem?_eq_getElem (l := f.catData) (i := i) (by rw [hcons.lengths]; exact hil)
        exact Nat.lt_of_le_of_lt (Nat.zero_le _) (hcons.valid i _ hi hd)
      · obtain ⟨j, e1, e2⟩ := parsed_occurs hp hf k hk
        have : j ∈ f.classCases k := List.mem_filter.2 ⟨List.mem_range.2 (List.getElem?_eq_some_iff.1 e2).1, by simp [e1, e2]⟩
        rw [h0] at this
        cases this

/-! ## What is predicted from a bag -/

theorem Plurality.perm {f : CatFeature} {S S' : List Nat} (h : S.Perm S') {p : String} (hp : f.Plurality S p) :
    f.Plurality S' p := by
  obtain ⟨⟨c, h1, h2⟩, h3⟩ := hp
  refine ⟨⟨c, h.mem_iff.1 h1, h2⟩, fun q => ?_⟩
  rw [← (h.filter _).length_eq, ← (h.filter _).length_eq]
  exact h3 q

theorem knownOf_all {missing : List Bool} {S : List Nat} (h : ∀ c ∈ S, missing[c]? = some false) : knownOf missing S = S := by
  unfold knownOf
  exact List.filter_eq_self.2 fun c hc => by simp [h c hc]

theorem plurality_of {f : CatFeature} (hf : f.Consistent) {S : List Nat} (hS : ∀ c ∈ S, f.missing[c]? = some false)
    (hne : S ≠ []) : ∃ p, f.findPredicted S = some p ∧ f.Plurality S p := by
  obtain ⟨s, m, h1, h2, h3⟩ := c38_cat f hf S (fun c hc => (List.getElem?_eq_some_iff.1 (hS c hc)).1) (by rwa [knownOf_all hS])
  rw [knownOf_all hS] at h3
  have hval : ∀ c ∈ S, ∃ k q, f.catData[c]? = some k ∧ f.cm.back[k]? = some q ∧ f.getStr c = some q := by
    intro c hc
    have hlt : c < f.catData.length := by rw [hf.lengths]; exact (List.getElem?_eq_some_iff.1 (hS c hc)).1
    have hk := List.getElem?_eq_getElem hlt
    have hkl := hf.valid c _ (hS c hc) hk
    have hq := List.getElem?_eq_getElem hkl
    refine ⟨_, _, hk, hq, ?_⟩
    unfold CatFeature.getStr
    simp only [hS c hc, hk, Option.bind_eq_bind, Option.bind_some, Bool.false_eq_true, if_false]
    exact hq
  have hle : ∀ q k, f.cm.back[k]? = some q → (S.filter fun c => decide (f.getStr c = some q)).length = f.catCount S k := by
    intro q k hk
    unfold CatFeature.catCount
    rw [List.countP_eq_length_filter]
    congr 1
    refine List.filter_congr fun c hc => ?_
    obtain ⟨k', q', e1, e2, e3⟩ := hval c hc
    rw [e1, e3]
    by_cases h : k' = k
    · subst h
      rw [hk] at e2
      cases e2
      simp
    · have : q' ≠ q := by
        rintro rfl
        have w1 := (hf.map q' k').2 e2
        have w2 := (hf.map q' k).2 hk
        rw [w1] at w2
        cases w2
        exact h rfl
      simp [h, this]
  have hmax : ∀ q, (S.filter fun c => decide (f.getStr c = some q)).length ≤
      (S.filter fun c => decide (f.getStr c = some s)).length := by
    intro q
    rw [hle s m h2]
    by_cases hq : ∃ k : Nat, f.cm.back[k]? = some q
    · obtain ⟨k, hk⟩ := hq
      rw [hle q k hk]
      exact h3 k
    · have : (S.filter fun c => decide (f.getStr c = some q)) = [] := by
        rw [List.filter_eq_nil_iff]
        intro c hc h
        obtain ⟨k', q', e1, e2, e3⟩ := hval c hc
        rw [e3] at h
        simp only [Option.some.injEq, decide_eq_true_eq] at h
        subst h
        exact hq ⟨k', e2⟩
      rw [this]
      exact Nat.zero_le _
  refine ⟨s, h1, ?_, hmax⟩
  obtain ⟨c, hc⟩ := List.exists_mem_of_ne_nil _ hne
  obtain ⟨k, q, -, -, e3⟩ := hval c hc
  have h4 := hmax q
  have h5 : 0 < (S.filter fun c => decide (f.getStr c = some q)).length :=
    List.length_pos_of_mem (List.mem_filter.2 ⟨hc, by simpa using e3⟩)
  obtain ⟨d, hd⟩ := List.exists_mem_of_length_pos (Nat.lt_of_lt_of_le h5 h4)
  obtain ⟨hd1, hd2⟩ := List.mem_filter.1 hd
  exact ⟨d, hd1, by simpa using hd2⟩

theorem neighbours_mean_perm {f : NumFeature K} {S S' : List Nat} (h : S.Perm S') : f.meanOf S = f.meanOf S' := by
  unfold NumFeature.meanOf
  rw [(h.map _).sum_eq, h.length_eq]

/-! ## Trees of equal weight -/

theorem say_one {t : Tree K} (h : t.weight = .fin (-1)) : t.say = 1 := by
  unfold Tree.say
  rw [h]
  simp only
  rw [if_neg]
  rw [not_le]
  exact neg_one_lt_zero

theorem weightOf_votes (fm : FeatureMatrix K) (c : Nat) (p : String) : ∀ (voters : List (Tree K × List Nat)),
    (∀ x ∈ voters, x.1.weight = .fin (-1)) → weightOf fm (voters.map (·.1)) c p = (votesFor fm voters c p : K) := by
  intro voters
  induction voters with
  | nil => intro _; simp [weightOf, votesFor]
  | cons x voters ih =>
    intro h
    have ih := ih fun y hy => h y (List.mem_cons_of_mem _ hy)
    unfold weightOf votesFor at ih ⊢
    rw [List.map_cons, List.filter_cons, List.filter_cons]
    split
    · rw [List.map_cons, List.sum_cons, ih, say_one (h x List.mem_cons_self), List.length_cons]
      push_cast
      ring
    · exact ih

theorem cleaned_voters (target : String) (out : List (Tree K × List Nat)) :
    (cleaned target out).trees = (out.map voterOf).map (·.1) := by
  simp only [cleaned, voterOf, List.map_map]
  rfl

end CloudForest
