import Verif.Props.Commands
import Verif.Props.Driver
import Verif.Spec.OtherData

/-!
Trees read from a file, on another table.
-/

set_option linter.unusedSectionVars false

namespace CloudForest
variable {K : Type} [Field K] [LinearOrder K] [IsStrictOrderedRing K] {τ : Type}

/-- The leaves of a tree do not depend on its codes. -/
theorem leavesOf_stripCodes {fm : FeatureMatrix K} : ∀ {n : Node K}, CodesDecoded fm n → leavesOf n.stripCodes = leavesOf n := by
  intro n
  induction n with
  | nil => intro _; rfl
  | mk coded fi l r m pred spl ihl ihr ihm =>
    rintro ⟨h1, h2, h3, h4⟩
    have hs : splits (none : Option (Coded K)) spl = splits coded spl := by
      cases coded with
      | none => rfl
      | some code =>
        obtain ⟨f, s, -, e, -⟩ := h1 code rfl
        rw [e]
        rfl
    rw [Node.stripCodes, leavesOf, leavesOf, hs, ihl h2, ihr h3, ihm h4]

/-- A tree read from a file can be used on any table that was parsed. -/
theorem usable_stripCodes {fm fm2 : FeatureMatrix K} {cases : List Nat} {n : Node K} (hu : Usable fm cases n)
    (hd : CodesDecoded fm n) (hR : fm2.Rectangular) (hI : fm2.Indexed) (h0 : fm2.data ≠ []) :
    Usable fm2 (List.range fm2.caseLabels.length) n.stripCodes := by
  have key : ∀ s : Splitter K, ∃ f, fm2.featureOf s = some f ∧ f.MissingSound ∧
      ∀ c ∈ List.range fm2.caseLabels.length, f.ValidCase c := by
    intro s
    have : ∃ f, fm2.featureOf s = some f := by
      unfold FeatureMatrix.featureOf
      cases hm : fm2.map s.feature with
      | none =>
        rw [Option.getD_none]
        exact ⟨_, List.getElem?_eq_getElem (List.length_pos_iff.2 h0)⟩
      | some i =>
        obtain ⟨f, e, -⟩ := hI.sound _ _ hm
        exact ⟨f, e⟩
    obtain ⟨f, e⟩ := this
    have hf : f ∈ fm2.data := List.mem_of_getElem? e
    refine ⟨f, e, ?_, fun c hc => ?_⟩
    · have hcons := hR.consistent f hf
      cases f with
      | cat f => exact fun c h => CatFeature.Consistent.missing hcons c h
      | num f => exact fun c h => NumFeature.Consistent.missing hcons c h
    · have hl := hR.lengths f hf
      have hcons := hR.consistent f hf
      rw [List.mem_range, ← hl] at hc
      cases f with
      | cat f =>
        have h1 : c < f.missing.length := hc
        exact ⟨h1, by rw [CatFeature.Consistent.lengths hcons]; exact h1, fun k h2 h3 => CatFeature.Consistent.valid hcons c k h2 h3⟩
      | num f =>
        have h1 : c < f.missing.length := hc
        exact ⟨h1, by rw [NumFeature.Consistent.lengths hcons]; exact h1⟩
  induction n with
  | nil => exact hu.elim
  | mk coded fi l r m pred spl ihl ihr ihm =>
    obtain ⟨h1, h2, h3, h4⟩ := hd
    have hm' : ∀ (h : m = .nil ∨ Usable fm cases m), m.stripCodes = .nil ∨ Usable fm2 (List.range fm2.caseLabels.length) m.stripCodes := by
      rintro (rfl | h)
      · exact .inl rfl
      · exact .inr (ihm h h4)
    cases coded with
    | none =>
      cases spl with
      | none =>
        obtain ⟨e1, e2⟩ := hu
        subst e1 e2
        exact ⟨rfl, rfl⟩
      | some s =>
        obtain ⟨-, u1, u2, u3⟩ := hu
        exact ⟨key s, ihl u1 h2, ihr u2 h3, hm' u3⟩
    | some code =>
      obtain ⟨f, s, -, e, -⟩ := h1 code rfl
      subst e
      obtain ⟨-, u1, u2, u3⟩ := hu
      exact ⟨key s, ihl u1 h2, ihr u2 h3, hm' u3⟩

/-- What is predicted at a leaf: the prediction for the cases of the bag that end there. -/
theorem recorded_leaves {r : RunSetup K τ} {L : TargetLaws r.T r.all} {good : τ → Prop} {cans : List Nat}
    (hr : r.Ok L good cans) (hsm : r.splitmissing = false) {out : List (Tree K × List Nat)} (hx : ∀ x ∈ out, r.Recorded L cans x) :
    ∀ x ∈ out.map voterOf, r.Grown L cans x.2 x.1.root ∧ CodesDecoded r.fm x.1.root ∧ Usable r.fm r.all x.1.root ∧
      ∀ y ∈ leavesOf x.1.root, ∃ S, S.Perm (x.2.filter fun d => (landing r.fm x.1.root d).map (·.1) == some y.1) ∧
        y.2 = r.findPredicted S ∧ (x.2 ≠ [] → S ≠ []) := by
  obtain ⟨a1, a2, -⟩ := treeGrower_search_any hr.setting r.findPredicted r.maxDepth r.splitmissing
  intro y hy
  obtain ⟨x, hxm, rfl⟩ := List.mem_map.1 hy
  obtain ⟨-, c2, c3, c4, hgr⟩ := hx x hxm
  have ⟨st, st', c5, c6, c7, c8⟩ := hgr
  have hall : ∀ c ∈ x.2, c ∈ r.all := fun c h => r.mem_all (c4 c h)
  have hg := (grow_grown hr.matrix a1 _ 0 "" _ x.2 0 0 _ _ ⟨c5, c6, c7⟩ (Nat.zero_le _) hall c8).2 false
  have hu := (hg.usable hr.matrix).resolve_left hg.not_nil
  refine ⟨hgr, hg.codesDecoded hr.matrix, hu, fun y hleaf => ?_⟩
  have hleaf : y ∈ leavesOf (prune x.1.root) := hleaf
  show ∃ S : List Nat, S.Perm (x.2.filter fun d => (landing r.fm (prune x.1.root) d).map (·.1) == some y.1) ∧ _
  rcases hg.leaves y hleaf with ⟨S, hS, hp⟩ | ⟨h1, -⟩
  · refine ⟨S, hS, hp, fun hne => ?_⟩
    have hne : x.2 ≠ [] := hne
    have key : ∃ d ∈ x.2, landing r.fm (prune x.1.root) d = some y := by
      rcases List.eq_nil_or_concat y.1 with h0 | ⟨q, d, h0⟩
      · obtain ⟨d, hd⟩ := List.exists_mem_of_ne_nil _ hne
        refine ⟨d, hd, reaches_landing hleaf ?_⟩
        rw [h0]
        cases hroot : prune x.1.root with
        | nil => rw [hroot] at hg; exact absurd rfl hg.not_nil
        | mk => rfl
      · have hM := leaf_path (grow_noMissing (g := r.freeGrower) hsm _ 0 "" _ _ 0 0 _ _ c8) hleaf
        have hlim := (c09_limits (hr.matrix.mono hall) (a1.mono hall) (a2.mono hall) ⟨c5, c6, c7⟩ (Nat.zero_le _) c8).1 q d
          (by rintro rfl; rw [h0] at hM; simp at hM) (by
            have := leaf_subtree hleaf
            rw [h0] at this
            simpa using this)
        have h1 : 1 ≤ r.o.leafSize := hr.setting.leafSize
        obtain ⟨d', hd'⟩ := List.exists_mem_of_length_pos (Nat.lt_of_lt_of_le h1 hlim)
        obtain ⟨hd1, hd2⟩ := List.mem_filter.1 hd'
        refine ⟨d', hd1, reaches_landing hleaf ?_⟩
        rw [h0]
        simpa using hd2
    obtain ⟨d, hd, e⟩ := key
    have : d ∈ S := hS.mem_iff.2 (List.mem_filter.2 ⟨hd, by rw [e]; simp⟩)
    exact List.ne_nil_of_mem this
  · have : r.splitmissing = true := h1
    rw [hsm] at this
    cases this

/-- What a tree read from a file answers on another table. -/
theorem recorded_answers {r : RunSetup K τ} {L : TargetLaws r.T r.all} {good : τ → Prop} {cans : List Nat}
    (hr : r.Ok L good cans) (hsm : r.splitmissing = false) {out : List (Tree K × List Nat)} (hrec : ∀ x ∈ out, r.Recorded L cans x)
    {fm2 : FeatureMatrix K}
    (hR : fm2.Rectangular) (hI : fm2.Indexed) (h0 : fm2.data ≠ []) :
    ∀ x ∈ out.map voterOf, ∀ c < fm2.caseLabels.length,
      (x.1.named.opinion fm2 c = none → ∃ f ∈ fm2.data, f.isMissing c = some true) ∧
      ∀ p, x.1.named.opinion fm2 c = some p →
        ∃ S, S.Perm (neighboursIn r.fm fm2 x.1 x.2 c) ∧ p = r.findPredicted S ∧ (x.2 ≠ [] → S ≠ []) := by
  intro x hx c hc
  obtain ⟨-, hd, hu, hy⟩ := recorded_leaves hr hsm hrec x hx
  have hu2 := usable_stripCodes hu hd hR hI h0
  refine ⟨fun h => landing_none (List.mem_range.2 hc) hu2 (by simpa [Tree.named, Tree.opinion] using h), fun p hp => ?_⟩
  obtain ⟨y, hl, rfl⟩ := Option.map_eq_some_iff.1 hp
  have hleaf := landing_in_leaves hl
  rw [show x.1.named.root = x.1.root.stripCodes from rfl, leavesOf_stripCodes hd] at hleaf
  obtain ⟨S, h1, h2, h3⟩ := hy y hleaf
  refine ⟨S, ?_, h2, h3⟩
  unfold neighboursIn
  rw [hl]
  exact h1

/-- The recorded trees, applied to another table. -/
theorem recorded_read_other {r : RunSetup K τ} {L : TargetLaws r.T r.all} {good : τ → Prop} {cans : List Nat}
    (hr : r.Ok L good cans) (hsm : r.splitmissing = false) {out : List (Tree K × List Nat)} (hrec : ∀ x ∈ out, r.Recorded L cans x) :
    (∀ x ∈ out.map voterOf, x.1.weight = .fin (-1) ∧ r.Grown L cans x.2 x.1.root ∧ CodesDecoded r.fm x.1.root ∧ Usable r.fm r.all x.1.root ∧
      (x.2.length ≤ r.nSamples ∧ (r.how.isNobag = false → x.2.length = r.nSamples)) ∧ (∀ c ∈ x.2, r.missing[c]? = some false)) ∧
    ∀ fm2 : FeatureMatrix K, fm2.Rectangular → fm2.Indexed → fm2.data ≠ [] →
      (cleaned r.target out).named.Fits fm2 ∧
      ∀ x ∈ out.map voterOf, ∀ c < fm2.caseLabels.length,
        (x.1.named.opinion fm2 c = none → ∃ f ∈ fm2.data, f.isMissing c = some true) ∧
        ∀ p, x.1.named.opinion fm2 c = some p →
          ∃ S, S.Perm (neighboursIn r.fm fm2 x.1 x.2 c) ∧ p = r.findPredicted S ∧ (x.2 ≠ [] → S ≠ []) := by
  obtain ⟨c2, c3⟩ := recorded_voters hr hsm hrec
  have hl := recorded_leaves hr hsm hrec
  refine ⟨fun x hx => ?_, fun fm2 hR hI h0 => ⟨?_, recorded_answers hr hsm hrec hR hI h0⟩⟩
  · obtain ⟨d1, d2, d3, -⟩ := c3 x hx
    obtain ⟨e1, e2, e3, -⟩ := hl x hx
    exact ⟨d1, e1, e2, e3, d2, d3⟩
  · intro t ht'
    have ht' : t ∈ (cleaned r.target out).trees.map fun t => { t with root := t.root.stripCodes } := ht'
    obtain ⟨t, ht2, rfl⟩ := List.mem_map.1 ht'
    rw [cleaned_voters] at ht2
    obtain ⟨x, hx, rfl⟩ := List.mem_map.1 ht2
    obtain ⟨-, e2, e3, -⟩ := hl x hx
    refine ⟨⟨-1, (c3 x hx).1⟩, fun cases hc => ?_⟩
    have : cases = List.range fm2.caseLabels.length := by
      unfold FeatureMatrix.allCases at hc
      cases hdt : fm2.data with
      | nil => exact absurd hdt h0
      | cons g gs =>
        rw [hdt] at hc
        rw [← hR.lengths g (by rw [hdt]; exact List.mem_cons_self)]
        cases hc
        rfl
    rw [this]
    exact usable_stripCodes e3 e2 hR hI h0

/-! ## Cases with the same values -/

theorem goesLeft_same {f g : Feature K} {d c : Nat} (h : SameValue f d g c) (hf : f.isMissing d = some false)
    (s : Splitter K) : f.goesLeft d s = g.goesLeft c s := by
  cases f with
  | num f =>
    cases g with
    | num g =>
      have := h.2 hf
      simp only [Feature.goesLeft, this]
    | cat g => exact h.elim
  | cat f =>
    cases g with
    | num g => exact h.elim
    | cat g =>
      have hf : f.missing[d]? = some false := hf
      have h2 := h.2 hf
      have h1 := h.1
      rw [hf] at h1
      have e1 : f.getStr d = (f.catData[d]?).bind fun k => f.cm.back[k]? := by
        simp [CatFeature.getStr, hf]
      have e2 : g.getStr c = (g.catData[c]?).bind fun k => g.cm.back[k]? := by
        simp [CatFeature.getStr, ← h1]
      rw [e1, e2] at h2
      simp only [Feature.goesLeft, Option.bind_eq_bind, ← Option.bind_assoc, h2]

theorem isMissing_same {f g : Feature K} {d c : Nat} (h : SameValue f d g c) : f.isMissing d = g.isMissing c := by
  cases f <;> cases g <;> first | exact h.1 | exact h.elim

/-- A case with the values of another goes where that one goes. -/
theorem landing_same {fm fm2 : FeatureMatrix K} {cases : List Nat} {d c : Nat} (hd : d ∈ cases) : ∀ {n : Node K},
    Usable fm cases n → CodesDecoded fm n →
    (∀ s ∈ n.splitNames, ∃ f g, fm.data[(fm.map s).getD 0]? = some f ∧ fm2.data[(fm2.map s).getD 0]? = some g ∧ SameValue f d g c) →
    landing fm2 n.stripCodes c = landing fm n d := by
  intro n
  induction n with
  | nil => intro h; exact h.elim
  | mk coded fi l r m pred spl ihl ihr ihm =>
    rintro hu ⟨h1, h2, h3, h4⟩ hn
    have hdir : ∀ s, spl = some s → caseDir fm2 none fi spl c = caseDir fm none fi spl d := by
      rintro s rfl
      obtain ⟨f, g, e1, e2, hs⟩ := hn s.feature (by simp [Node.splitNames])
      have e1 : fm.featureOf s = some f := e1
      have e2 : fm2.featureOf s = some g := e2
      simp only [caseDir, e1, e2, ← isMissing_same hs]
      cases hm : f.isMissing d with
      | none => rfl
      | some b =>
        cases b with
        | true => rfl
        | false => simp only [← goesLeft_same hs hm]
    have hkids : (Usable fm cases l ∧ Usable fm cases r ∧ (m = .nil ∨ Usable fm cases m)) →
        landing fm2 l.stripCodes c = landing fm l d ∧ landing fm2 r.stripCodes c = landing fm r d ∧
          landing fm2 m.stripCodes c = landing fm m d := by
      rintro ⟨u1, u2, u3⟩
      refine ⟨ihl u1 h2 fun s hs => hn s (by simp [Node.splitNames, hs]), ihr u2 h3 fun s hs => hn s (by simp [Node.splitNames, hs]), ?_⟩
      rcases u3 with rfl | u3
      · rfl
      · exact ihm u3 h4 fun s hs => hn s (by simp [Node.splitNames, hs])
    cases coded with
    | none =>
      cases spl with
      | none => rfl
      | some s =>
        obtain ⟨-, u⟩ := hu
        obtain ⟨k1, k2, k3⟩ := hkids u
        rw [Node.stripCodes, landing, landing, k1, k2, k3, hdir s rfl]
    | some code =>
      obtain ⟨f, s, hf, e, hw, hdec, hfo⟩ := h1 code rfl
      subst e
      obtain ⟨⟨f', hf', hfit, -, hval⟩, u⟩ := hu
      rw [hf, Option.some.injEq] at hf'
      subst hf'
      obtain ⟨k1, k2, k3⟩ := hkids u
      have hsame : caseDir fm none fi (some s) d = caseDir fm (some code) fi (some s) d := by
        simp only [caseDir, hfo, hf]
        cases hm : f.isMissing d with
        | none => rfl
        | some b =>
          cases b with
          | true => rfl
          | false => rw [coded_eq_decoded hw hfit hdec (hval d hd) hm]
      rw [Node.stripCodes, landing, landing, k1, k2, k3, hdir s rfl, hsame]
      rfl

end CloudForest
