import Verif.Lemmas.Units3
import Verif.Model.Values

/-! # Lemmas about trees that treat cases alike, and about predictions that do not depend on order -/

set_option linter.unusedSectionVars false

namespace CloudForest
variable {K : Type} [Field K] [LinearOrder K] [IsStrictOrderedRing K]

/-- With the same matrix, trees that treat cases alike are equal. -/
theorem treatAlike_eq {fm : FeatureMatrix K} {n : Node K} : ∀ {n' : Node K} {cs : List Nat}, TreatAlike fm fm n n' cs →
    n' = n := by
  induction n with
  | nil =>
    intro n' cs h
    rw [TreatAlike] at h
    exact h
  | mk coded fi l r m pred spl ihl ihr ihm =>
    intro n' cs h
    match coded, n' with
    | none, n' =>
      rw [TreatAlike] at h
      exact h.1
    | some code, .nil => rw [TreatAlike] at h; exact absurd h id
    | some code, .mk none _ _ _ _ _ _ => rw [TreatAlike] at h; exact absurd h id
    | some code, .mk (some code') fi' l' r' m' pred' spl' =>
      rw [TreatAlike] at h
      obtain ⟨rfl, rfl, F, F', p, hF, hF', -, h4, -, h5, h6, h7⟩ := h
      rw [hF] at hF'
      cases hF'
      obtain ⟨rfl, rfl⟩ := h4 rfl
      rw [ihl h5, ihr h6, ihm h7]

theorem answerAlike_leaf (fm fm' : FeatureMatrix K) (fi : Nat) (pred : String) (c : Nat) :
    AnswerAlike fm fm' (.mk none fi .nil .nil .nil pred none) (.mk none fi .nil .nil .nil pred none) c := by
  intro path
  cases path with
  | nil => exact ⟨rfl, fun _ => ⟨rfl, rfl⟩⟩
  | cons d p => exact ⟨rfl, fun h => absurd h (by simp [reaches, caseDir])⟩

theorem answerAlike_nil (fm fm' : FeatureMatrix K) (c : Nat) : AnswerAlike fm fm' (.nil : Node K) .nil c := by
  intro path
  cases path with
  | nil => exact ⟨rfl, fun _ => ⟨rfl, rfl⟩⟩
  | cons d p => exact ⟨rfl, fun h => absurd h (by simp [reaches])⟩

theorem treatAlike_isNil {fm fm' : FeatureMatrix K} {n n' : Node K} {cs : List Nat} (h : TreatAlike fm fm' n n' cs) :
    n'.isNil = n.isNil := by
  match n, n' with
  | .nil, n' => rw [TreatAlike] at h; rw [h]
  | .mk none _ _ _ _ _ _, n' => rw [TreatAlike] at h; rw [h.1]
  | .mk (some code) _ _ _ _ _ _, .nil => rw [TreatAlike] at h; exact absurd h id
  | .mk (some code) _ _ _ _ _ _, .mk none _ _ _ _ _ _ => rw [TreatAlike] at h; exact absurd h id
  | .mk (some code) _ _ _ _ _ _, .mk (some code') _ _ _ _ _ _ => rfl

/-- One step down. -/
theorem answerAlike_mk {fm fm' : FeatureMatrix K} {code code' : Coded K} {fi : Nat} {l r m l' r' m' : Node K} {pred : String}
    {spl spl' : Option (Splitter K)} {c : Nat}
    (hd : caseDir fm' (some code') fi spl' c = caseDir fm (some code) fi spl c)
    (hl : l'.isNil = l.isNil) (hr : r'.isNil = r.isNil)
    (h : ∀ d, caseDir fm (some code) fi spl c = some d →
      AnswerAlike fm fm' (Node.child (.mk (some code) fi l r m pred spl) d)
        (Node.child (.mk (some code') fi l' r' m' pred spl') d) c) :
    AnswerAlike fm fm' (.mk (some code) fi l r m pred spl) (.mk (some code') fi l' r' m' pred spl') c := by
  intro path
  cases path with
  | nil =>
    refine ⟨rfl, fun _ => ⟨?_, rfl⟩⟩
    simp only [subtreeAt, Node.isLeaf, hl, hr]
  | cons d p =>
    simp only [reaches, subtreeAt, hd]
    by_cases hc : caseDir fm (some code) fi spl c = some d
    · obtain ⟨h1, h2⟩ := h d hc p
      refine ⟨by rw [h1], fun h3 => h2 ?_⟩
      rw [Bool.and_eq_true] at h3
      exact h3.2
    · have : (caseDir fm (some code) fi spl c == some d) = false := beq_eq_false_iff_ne.2 hc
      simp [this]

/-- The listed cases are answered alike. -/
theorem treatAlike_answer {fm fm' : FeatureMatrix K} {all : List Nat} (hR : fm.Rescaled fm' all) {n : Node K} :
    ∀ {n' : Node K} {cs : List Nat}, TreatAlike fm fm' n n' cs → ∀ c ∈ cs, AnswerAlike fm fm' n n' c := by
  induction n with
  | nil =>
    intro n' cs h c _
    rw [TreatAlike] at h
    rw [h]
    exact answerAlike_nil fm fm' c
  | mk coded fi l r m pred spl ihl ihr ihm =>
    intro n' cs h c hc
    match coded, n' with
    | none, n' =>
      rw [TreatAlike] at h
      obtain ⟨rfl, rfl, rfl, rfl, rfl⟩ := h
      exact answerAlike_leaf fm fm' fi pred c
    | some code, .nil => rw [TreatAlike] at h; exact absurd h id
    | some code, .mk none _ _ _ _ _ _ => rw [TreatAlike] at h; exact absurd h id
    | some code, .mk (some code') fi' l' r' m' pred' spl' =>
      rw [TreatAlike] at h
      obtain ⟨rfl, rfl, F, F', p, hF, hF', h3, -, -, h5, h6, h7⟩ := h
      have hres := hR.2 _ _ _ hF hF'
      have hmiss : F'.isMissing c = F.isMissing c := by rw [hres.isMissing]
      cases hm : F.isMissing c with
      | none =>
        refine answerAlike_mk ?_ (treatAlike_isNil h5) (treatAlike_isNil h6) fun d hd => ?_
        · rw [caseDir_some hF, caseDir_some hF', hmiss, hm]
        · rw [caseDir_some hF, hm] at hd
          cases hd
      | some b =>
        cases b with
        | true =>
          have hcm : c ∈ F.missings cs := List.mem_filter.2 ⟨hc, by simp [hm]⟩
          refine answerAlike_mk ?_ (treatAlike_isNil h5) (treatAlike_isNil h6) fun d hd => ?_
          · rw [caseDir_some hF, caseDir_some hF', hmiss, hm]
          · rw [caseDir_some hF, hm] at hd
            cases hd
            exact ihm h7 c hcm
        | false =>
          have hck : c ∈ F.knowns cs := List.mem_filter.2 ⟨hc, by simp [hm]⟩
          obtain ⟨h8, h9⟩ := h3 c hck
          refine answerAlike_mk ?_ (treatAlike_isNil h5) (treatAlike_isNil h6) fun d hd => ?_
          · rw [caseDir_some hF, caseDir_some hF', hmiss, hm, h8, h9]
          · rw [caseDir_some hF, hm, h8] at hd
            cases hp : p c with
            | true =>
              rw [hp] at hd
              cases hd
              exact ihl h5 c (List.mem_filter.2 ⟨hck, by simp [hp]⟩)
            | false =>
              rw [hp] at hd
              cases hd
              exact ihr h6 c (List.mem_filter.2 ⟨hck, by simp [hp]⟩)

theorem inUnit_le {a b : K} (ha : 0 < a) (x : XF K) (v : K) :
    XF.inUnit a b x ≤ .fin (a * v + b) ↔ x ≤ .fin v := by
  cases x with
  | fin x =>
    simp only [XF.inUnit, XF.fin_le]
    constructor
    · intro h; nlinarith
    · intro h; nlinarith
  | nan => simp only [XF.inUnit]; exact Iff.rfl
  | pinf => simp only [XF.inUnit]; exact Iff.rfl
  | ninf => simp only [XF.inUnit]; exact Iff.rfl

/-- In affine units every case is answered alike. -/
theorem treatAlike_converted {fm fm' : FeatureMatrix K} (hR : fm.Converted fm') {all : List Nat}
    (hfin : ∀ (i : Nat) (F : Feature K), fm.data[i]? = some F → F.Searchable (F.knowns all)) {n : Node K} :
    ∀ {n' : Node K} {cs : List Nat}, (∀ c ∈ cs, c ∈ all) → TreatAlike fm fm' n n' cs → ∀ c, AnswerAlike fm fm' n n' c := by
  induction n with
  | nil =>
    intro n' cs _ h c
    rw [TreatAlike] at h
    rw [h]
    exact answerAlike_nil fm fm' c
  | mk coded fi l r m pred spl ihl ihr ihm =>
    intro n' cs hcs h c
    match coded, n' with
    | none, n' =>
      rw [TreatAlike] at h
      obtain ⟨rfl, rfl, rfl, rfl, rfl⟩ := h
      exact answerAlike_leaf fm fm' fi pred c
    | some code, .nil => rw [TreatAlike] at h; exact absurd h id
    | some code, .mk none _ _ _ _ _ _ => rw [TreatAlike] at h; exact absurd h id
    | some code, .mk (some code') fi' l' r' m' pred' spl' =>
      rw [TreatAlike] at h
      obtain ⟨rfl, rfl, F, F', p, hF, hF', h3, h4, hmv, h5, h6, h7⟩ := h
      have hres := hR.2 _ _ _ hF hF'
      have hmiss : F'.isMissing c = F.isMissing c := by
        cases F <;> cases F' <;> simp only [Feature.Converted] at hres
        · rw [hres]
        · simp only [Feature.isMissing, hres.1]
      have hleft : F'.codedLeft code' c = F.codedLeft code c := by
        cases F with
        | cat f =>
          cases F' with
          | num f' => exact absurd hres id
          | cat f' =>
            have : f' = f := hres
            subst this
            rw [(h4 rfl).1]
        | num f =>
          cases F' with
          | cat f' => exact absurd hres id
          | num f' =>
            obtain ⟨-, -, a, b, ha, hdata⟩ := hres
            have hget : ∀ c : Nat, f'.numData[c]? = f.numData[c]?.map (XF.inUnit a b) := by
              intro c
              rw [hdata, List.getElem?_map]
            obtain ⟨v, rfl, rfl⟩ := hmv f f' a b rfl rfl (by
              intro c hc
              obtain ⟨x, hx⟩ := hfin _ _ hF c (knowns_mem hcs c hc)
              unfold NumFeature.value
              rw [hget, hx]
              rfl)
            simp only [Feature.codedLeft, hget]
            cases f.numData[c]? with
            | none => rfl
            | some x => simp only [Option.map_some, Option.bind_eq_bind, Option.bind_some, inUnit_le ha]
      have hsub : ∀ {q : Nat → Bool}, ∀ c ∈ (F.knowns cs).filter q, c ∈ all := fun c hc =>
        hcs c (F.mem_knowns (List.mem_of_mem_filter hc))
      refine answerAlike_mk ?_ (treatAlike_isNil h5) (treatAlike_isNil h6) fun d hd => ?_
      · rw [caseDir_some hF, caseDir_some hF', hmiss, hleft]
      · cases d with
        | L => exact ihl hsub h5 c
        | R => exact ihr hsub h6 c
        | M => exact ihm (fun c hc => hcs c (F.mem_missings hc)) h7 c

/-- Other units keep the order. -/
theorem converted_rescaled {fm fm' : FeatureMatrix K} (hR : fm.Converted fm') {all : List Nat}
    (hfin : ∀ (i : Nat) (F : Feature K), fm.data[i]? = some F → F.Searchable (F.knowns all)) : fm.Rescaled fm' all := by
  refine ⟨hR.1, fun i F F' hF hF' => ?_⟩
  have hres := hR.2 _ _ _ hF hF'
  have hs := hfin _ _ hF
  cases F with
  | cat f =>
    cases F' with
    | num f' => exact absurd hres id
    | cat f' => exact (show f' = f from hres).symm
  | num f =>
    cases F' with
    | cat f' => exact absurd hres id
    | num f' =>
      obtain ⟨h1, h2, a, b, ha, hdata⟩ := hres
      refine ⟨h1.symm, h2.symm, fun c hc d hd => ?_⟩
      have hv : ∀ c ∈ (Feature.num f).knowns all, f'.value c = a * f.value c + b := by
        intro c hc
        obtain ⟨x, hx⟩ := hs c hc
        unfold NumFeature.value
        rw [hdata, List.getElem?_map, hx]
        rfl
      rw [hv c hc, hv d hd]
      constructor
      · intro h; nlinarith
      · intro h; nlinarith

/-! ## Predictions -/

theorem foldlM_perm {α β : Type} {step : β → α → Option β}
    (hcomm : ∀ b x y, (step b x >>= fun b => step b y) = (step b y >>= fun b => step b x)) {l l' : List α} (h : l.Perm l') :
    ∀ b, l.foldlM step b = l'.foldlM step b := by
  induction h with
  | nil => intro b; rfl
  | cons x _ ih =>
    intro b
    rw [List.foldlM_cons, List.foldlM_cons]
    congr 1
    funext b'
    exact ih b'
  | swap x y l =>
    intro b
    simp only [List.foldlM_cons]
    have := hcomm b y x
    simp only [Option.bind_eq_bind] at this ⊢
    rw [← Option.bind_assoc, ← Option.bind_assoc, this]
  | trans _ _ ih1 ih2 => intro b; rw [ih1, ih2]

theorem bump_comm (acc : List Int) (j k : Nat) :
    (bump acc j 1 >>= fun b => bump b k 1) = (bump acc k 1 >>= fun b => bump b j 1) := by
  have key : ∀ (acc : List Int) (j : Nat), bump acc j 1 = if j < acc.length then some (acc.modify j (· + 1)) else none := by
    intro acc j
    unfold bump
    by_cases hj : j < acc.length
    · rw [List.getElem?_eq_getElem hj, if_pos hj]
      simp only [Option.bind_eq_bind, Option.bind_some, Option.some.injEq]
      rw [List.modify_eq_set, List.getElem?_eq_getElem hj]
      rfl
    · rw [List.getElem?_eq_none (by omega), if_neg hj]
      rfl
  simp only [key, Option.bind_eq_bind]
  by_cases hj : j < acc.length <;> by_cases hk : k < acc.length <;>
    simp only [hj, hk, if_true, if_false, Option.bind_some, Option.bind_none, List.length_modify]
  congr 1
  by_cases h : j = k
  · rw [h]
  · exact List.modify_modify_ne _ _ _ h

/-- The class predicted for a leaf does not depend on the order of its cases. -/
theorem catFindPredicted_perm (f : CatFeature) {cs cs' : List Nat} (h : cs'.Perm cs) :
    f.findPredicted cs' = f.findPredicted cs := by
  unfold CatFeature.findPredicted CatFeature.modei CatFeature.modeCounts
  rw [foldlM_perm _ h]
  intro b x y
  cases hx : f.missing[x]? with
  | none =>
    cases hy : f.missing[y]? with
    | none => rfl
    | some my =>
      cases my
      · simp [hx, hy]
      · simp [hx, hy]
  | some mx =>
    cases hy : f.missing[y]? with
    | none => cases mx <;> simp [hx, hy]
    | some my =>
      cases mx <;> cases my <;> simp [hx, hy]
      cases hx2 : f.catData[x]? with
      | none =>
        cases hy2 : f.catData[y]? <;> simp [hx2, hy2]
      | some j =>
        cases hy2 : f.catData[y]? with
        | none => simp
        | some k =>
          simp only [Option.bind_some]
          exact bump_comm b j k

theorem XF.add_right_comm' (a b c : XF K) : a + b + c = a + c + b := by
  cases a <;> cases b <;> cases c <;> first | rfl | (simp only [XF.fin_add]; rw [add_right_comm])

/-- The mean predicted for a leaf does not depend on the order of its cases. -/
theorem numFindPredicted_perm (nt : NumText K) (f : NumFeature K) {cs cs' : List Nat} (h : cs'.Perm cs) :
    f.findPredicted nt cs' = f.findPredicted nt cs := by
  unfold NumFeature.findPredicted NumFeature.mean
  rw [foldlM_perm _ h]
  intro b x y
  cases hx : f.missing[x]? with
  | none =>
    cases hy : f.missing[y]? with
    | none => rfl
    | some my =>
      cases my
      · simp [hx, hy]
      · simp [hx, hy]
  | some mx =>
    cases hy : f.missing[y]? with
    | none => cases mx <;> simp [hx, hy]
    | some my =>
      cases mx <;> cases my <;> simp [hx, hy]
      cases hx2 : f.numData[x]? with
      | none =>
        cases hy2 : f.numData[y]? <;> simp [hx2, hy2]
      | some j =>
        cases hy2 : f.numData[y]? with
        | none => simp
        | some k => simp [XF.add_right_comm']

end CloudForest
