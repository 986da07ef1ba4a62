import Verif.Model.BoostRun
import Verif.Props.Boost
import Verif.Props.Values
import Verif.Props.Splitter
import Verif.Lemmas.Driver
import Verif.Lemmas.Targets2
import Mathlib.Algebra.BigOperators.Fin
import Mathlib.Algebra.Order.BigOperators.Group.Finset

/-!
# Lemmas for runs of gradient boosting
-/

set_option linter.unusedSectionVars false

namespace CloudForest
variable {K : Type} [Field K] [LinearOrder K] [IsStrictOrderedRing K] {σ τ : Type}

/-- Trees grown with candidates that leave out the target avoid it. -/
theorem Grown.avoids {T : Target K} {all : List Nat} {L : TargetLaws T all} {C : Contrast K τ} {o : SplitOpts}
    {fp : List Nat → String} {md : Int} {sm : Bool} {cans oob : List Nat} {Q : Nat → Prop} {fm : FeatureMatrix K}
    (hN : ∀ i f, fm.data[i]? = some f → fm.map f.name = some i) {ti : Nat} (hti : ti ∉ cans) {b : Bool} {n : Node K}
    {cs : List Nat} {d : Nat} (h : Grown (treeGrower fm T C o fp md sm) fm (StateOk L fm cans oob) Q b n cs d) :
    n.Avoids fm ti := by
  induction h with
  | absent => trivial
  | empty => exact ⟨fun h => absurd rfl h, nofun, trivial, trivial, trivial⟩
  | leaf hp => exact ⟨fun h => absurd rfl h, nofun, trivial, trivial, trivial⟩
  | @split b cs d nc st st' res code f spl sp l r m hd hlen hP hQ hb hs hf hfit hdec hsp hl hr hm ihl ihr ihm =>
    have hfi : res.fi ≠ ti := by
      simp only [treeGrower, Option.bind_eq_bind] at hb
      obtain ⟨d, hd, hb⟩ := Option.bind_eq_some_iff.1 hb
      cases hb
      have := (bestSplitter_keeps hd).2 (by rw [show d.split = some code from hs]; simp)
      rintro rfl
      exact hti (hP.cans_.mem_iff.1 this)
    refine ⟨fun _ => hfi, ?_, ihl, ihr, ihm⟩
    intro s hs'
    cases hs'
    rw [Feature.decodeSplit_name hdec, hN _ _ hf]
    exact hfi

theorem featureOf_set {fm : FeatureMatrix K} {ti : Nat} {F : Feature K} {s : Splitter K}
    (h : (fm.map s.feature).getD 0 ≠ ti) :
    FeatureMatrix.featureOf { fm with data := fm.data.set ti F } s = fm.featureOf s := by
  simp only [FeatureMatrix.featureOf]
  rw [List.getElem?_set_ne (Ne.symm h)]

/-- Changing a feature that a tree avoids does not change where cases end. -/
theorem landing_avoids (fm : FeatureMatrix K) (ti : Nat) (F : Feature K) (n : Node K) (h : n.Avoids fm ti) (c : Nat) :
    landing { fm with data := fm.data.set ti F } n c = landing fm n c := by
  induction n with
  | nil => rfl
  | mk coded fi l r m pred spl ihl ihr ihm =>
    obtain ⟨h1, h2, hl, hr, hm⟩ := h
    have hs : caseDir { fm with data := fm.data.set ti F } coded fi spl c = caseDir fm coded fi spl c := by
      unfold caseDir
      cases coded with
      | some code =>
        simp only
        rw [List.getElem?_set_ne (Ne.symm (h1 (by simp)))]
      | none =>
        cases spl with
        | none => rfl
        | some s =>
          simp only
          rw [featureOf_set (h2 s rfl)]
    rw [landing, landing, hs, ihl hl, ihr hr, ihm hm]

theorem usable_avoids (fm : FeatureMatrix K) (ti : Nat) (F : Feature K) (cases : List Nat) (n : Node K)
    (h : n.Avoids fm ti) (hu : Usable { fm with data := fm.data.set ti F } cases n) : Usable fm cases n := by
  induction n with
  | nil => exact hu
  | mk coded fi l r m pred spl ihl ihr ihm =>
    obtain ⟨h1, h2, hl, hr, hm⟩ := h
    cases coded with
    | some code =>
      obtain ⟨⟨f, hf, hu⟩, ul, ur, um⟩ := hu
      rw [List.getElem?_set_ne (Ne.symm (h1 (by simp)))] at hf
      exact ⟨⟨f, hf, hu⟩, ihl hl ul, ihr hr ur, um.imp_right (ihm hm)⟩
    | none =>
      cases spl with
      | none => exact hu
      | some s =>
        obtain ⟨⟨f, hf, hu⟩, ul, ur, um⟩ := hu
        rw [featureOf_set (h2 s rfl)] at hf
        exact ⟨⟨f, hf, hu⟩, ihl hl ul, ihr hr ur, um.imp_right (ihm hm)⟩

theorem avoids_set (fm : FeatureMatrix K) (ti : Nat) (F : Feature K) (n : Node K)
    (h : n.Avoids { fm with data := fm.data.set ti F } ti) : n.Avoids fm ti := by
  induction n with
  | nil => trivial
  | mk coded fi l r m pred spl ihl ihr ihm => exact ⟨h.1, h.2.1, ihl h.2.2.1, ihr h.2.2.2.1, ihm h.2.2.2.2⟩

theorem sum_range_list (n : Nat) (g : Nat → K) : ((List.range n).map g).sum = ∑ i ∈ Finset.range n, g i := by
  induction n with
  | zero => rfl
  | succ n ih => rw [List.range_succ, List.map_append, List.sum_append, ih, Finset.sum_range_succ]; simp

/-- Means over groups are orthogonal to what they leave over. -/
theorem group_means {κ : Type} [DecidableEq κ] (n : Nat) (v t : Nat → K) (key : Nat → Option κ)
    (h0 : ∀ i < n, key i = none → t i = 0)
    (h1 : ∀ i < n, ∀ p, key i = some p →
      t i = (((List.range n).filter fun j => decide (key j = some p)).map v).sum /
        ((List.range n).filter fun j => decide (key j = some p)).length) :
    ((List.range n).map fun i => v i * t i).sum = ((List.range n).map fun i => t i ^ 2).sum := by
  rw [sum_range_list, sum_range_list,
    ← Finset.sum_fiberwise_of_maps_to (s := Finset.range n) (t := (Finset.range n).image key) (g := key)
      (fun i hi => Finset.mem_image_of_mem key hi),
    ← Finset.sum_fiberwise_of_maps_to (s := Finset.range n) (t := (Finset.range n).image key) (g := key)
      (fun i hi => Finset.mem_image_of_mem key hi)]
  apply Finset.sum_congr rfl
  intro k _
  cases k with
  | none =>
    rw [Finset.sum_eq_zero, Finset.sum_eq_zero]
    · intro i hi
      obtain ⟨hi, hk⟩ := Finset.mem_filter.1 hi
      rw [h0 i (Finset.mem_range.1 hi) hk]; ring
    · intro i hi
      obtain ⟨hi, hk⟩ := Finset.mem_filter.1 hi
      rw [h0 i (Finset.mem_range.1 hi) hk]; ring
  | some p =>
    have hlist : ∀ g : Nat → K, (((List.range n).filter fun j => decide (key j = some p)).map g).sum =
        ∑ i ∈ (Finset.range n).filter (fun i => key i = some p), g i := by
      intro g
      rw [Finset.sum_filter, ← sum_range_list]
      induction List.range n with
      | nil => rfl
      | cons a l ih =>
        rw [List.filter_cons, List.map_cons, List.sum_cons, ← ih]
        by_cases ha : key a = some p
        · simp [ha]
        · have : decide (key a = some p) = false := by simpa using ha
          simp [ha]
    have hlen : ((((List.range n).filter fun j => decide (key j = some p)).length : Nat) : K) =
        ∑ i ∈ (Finset.range n).filter (fun i => key i = some p), 1 := by
      rw [← hlist]; simp
    by_cases hne : ((Finset.range n).filter fun i => key i = some p) = ∅
    · rw [hne]; rfl
    have hcard : (∑ i ∈ (Finset.range n).filter (fun i => key i = some p), (1 : K)) ≠ 0 := by
      rw [Finset.sum_const, nsmul_eq_mul, mul_one]
      exact_mod_cast Finset.card_ne_zero.2 (Finset.nonempty_iff_ne_empty.2 hne)
    have ht : ∀ i ∈ (Finset.range n).filter (fun i => key i = some p), t i =
        (∑ i ∈ (Finset.range n).filter (fun i => key i = some p), v i) /
          ∑ i ∈ (Finset.range n).filter (fun i => key i = some p), 1 := by
      intro i hi
      obtain ⟨hi, hk⟩ := Finset.mem_filter.1 hi
      rw [h1 i (Finset.mem_range.1 hi) p hk, hlist, hlen]
    obtain ⟨m, hm⟩ : ∃ m, m = (∑ i ∈ (Finset.range n).filter (fun i => key i = some p), v i) /
        ∑ i ∈ (Finset.range n).filter (fun i => key i = some p), 1 := ⟨_, rfl⟩
    rw [← hm] at ht
    have e1 : ∑ i ∈ (Finset.range n).filter (fun i => key i = some p), v i * t i =
        ∑ i ∈ (Finset.range n).filter (fun i => key i = some p), v i * m :=
      Finset.sum_congr rfl fun i hi => by rw [ht i hi]
    have e2 : ∑ i ∈ (Finset.range n).filter (fun i => key i = some p), t i ^ 2 =
        ∑ i ∈ (Finset.range n).filter (fun i => key i = some p), m ^ 2 :=
      Finset.sum_congr rfl fun i hi => by rw [ht i hi]
    rw [e1, e2, ← Finset.sum_mul, Finset.sum_const, nsmul_eq_mul]
    have : ((Finset.card ((Finset.range n).filter fun i => key i = some p) : Nat) : K) =
        ∑ i ∈ (Finset.range n).filter (fun i => key i = some p), 1 := by
      rw [Finset.sum_const, nsmul_eq_mul, mul_one]
    rw [this, hm]
    field_simp

/-- A tree grown from all residuals. -/
theorem grow_boost {b : BoostSetup K τ} {nt : NumText K} (hnt : ∀ x, nt.parse (nt.fmt x) = some x) {fm : FeatureMatrix K}
    {n : Nat} {f : NumFeature K} (hti : fm.data[b.ti]? = some (.num f)) (hf : (Feature.num f).length = n)
    (hc : fm.allCases = some (List.range n)) (hM : MatrixOk fm (List.range n))
    (hfeat : ∀ F ∈ fm.data, FeatOk F (List.range n)) (hvet : b.o.vet = false) (hoob : b.o.evaloob = false)
    (hleaf : 1 ≤ b.o.leafSize) {st : SplitState K} (hexist : ∀ i ∈ st.cans, i < fm.data.length) (havoid : b.ti ∉ st.cans)
    (hmTry : b.o.mTry ≤ st.cans.length) (hst : ∀ c ∈ st.oob, c < n) (v : Nat → K) {bag : List Nat}
    (hbag : bag.Perm (List.range n)) :
    ∃ root st', grow (treeGrower { fm with data := fm.data.set b.ti (.num (withValues f n v)) } (gradTarget (withValues f n v))
        (b.C (withValues f n v)) b.o (fun S => ((withValues f n v).findPredicted nt S).getD "") b.maxDepth b.splitmissing)
        { fm with data := fm.data.set b.ti (.num (withValues f n v)) } (bag.length + 1) .fresh st bag 0 0 = some (root, st') ∧
      Usable fm (List.range n) root ∧ root.Avoids fm b.ti ∧
      (Tree.mk root b.target (.fin (-1))).FiniteFor (fun p => nt.parse p.toList) fm n ∧
      ((List.range n).map fun i => v i * treeValue (fun p => nt.parse p.toList) fm ⟨root, b.target, .fin (-1)⟩ i).sum =
        ((List.range n).map fun i => treeValue (fun p => nt.parse p.toList) fm ⟨root, b.target, .fin (-1)⟩ i ^ 2).sum ∧
      st'.cans.Perm st.cans ∧ st'.oob.Perm st.oob := by
  obtain ⟨fmR, hfmR⟩ : ∃ x, x = ({ fm with data := fm.data.set b.ti (.num (withValues f n v)) } : FeatureMatrix K) := ⟨_, rfl⟩
  have hfin : (withValues f n v).Finite (List.range n) := fun c hcc => ⟨_, finList_get v (List.mem_range.1 hcc)⟩
  have hmem : ∀ F ∈ fmR.data, F ∈ fm.data ∨ F = .num (withValues f n v) := by
    intro F hF
    rw [hfmR] at hF
    exact List.mem_or_eq_of_mem_set hF
  have hnew : FeatOk (.num (withValues f n v)) (List.range n) := by
    refine ⟨fun c hcc => ?_, fun c hcc => ?_, fun c hcc => ?_⟩
    · have := List.mem_range.1 hcc
      exact ⟨by simpa [withValues] using this, by simpa [withValues] using this⟩
    · simp only [Feature.isMissing, withValues, List.getElem?_replicate] at hcc
      split at hcc <;> cases hcc
    · exact hfin c (List.mem_of_mem_filter hcc)
  have hfeatR : ∀ F ∈ fmR.data, FeatOk F (List.range n) := by
    intro F hF
    rcases hmem F hF with h | rfl
    · exact hfeat F h
    · exact hnew
  have hMR : MatrixOk fmR (List.range n) := by
    refine ⟨fun F hF => (hfeatR F hF).valid, fun F hF => (hfeatR F hF).sound, ?_, ?_⟩
    · intro F hF
      rcases hmem F hF with h | rfl
      · exact hM.catwf F h
      · trivial
    · intro i F hF
      rw [hfmR] at hF ⊢
      simp only [List.getElem?_set] at hF
      split at hF
      · next e =>
        subst e
        split at hF
        · cases hF
          exact hM.named b.ti (.num f) hti
        · cases hF
      · exact hM.named i F hF
  have hS : SplitSetting (gradLaws (withValues f n v) (List.range n) hfin) fmR (b.C (withValues f n v)) (fun _ => True) b.o
      st.cans st.oob :=
    ⟨hfeatR, fun h => by (rw [hoob] at h; cases h), fun h => by (rw [hvet] at h; cases h), trivial, hleaf,
      fun i hi => by rw [hfmR]; simpa using hexist i hi, hmTry, fun c hcc => List.mem_range.2 (hst c hcc)⟩
  have hbagc : ∀ c ∈ bag, c ∈ List.range n := fun c hcc => hbag.mem_iff.1 hcc
  obtain ⟨fp, hfp⟩ : ∃ fp : List Nat → String, fp = fun S => ((withValues f n v).findPredicted nt S).getD "" := ⟨_, rfl⟩
  obtain ⟨root, st', hgrow, -, -⟩ := c09_grow hMR hbagc hS trivial fp b.maxDepth b.splitmissing
  have hg := hgrow (bag.length + 1) (Nat.lt_succ_self _)
  have h8 := (c08_grow hMR hbagc hS trivial fp b.maxDepth b.splitmissing hg).1
  have hP : StateOk (gradLaws (withValues f n v) (List.range n) hfin) fmR st.cans st.oob st :=
    ⟨trivial, List.Perm.refl _, List.Perm.refl _⟩
  obtain ⟨h1, -, -⟩ := treeGrower_searchOk (fp := fp) (md := b.maxDepth) (sm := b.splitmissing) hS
  obtain ⟨hP', hgr⟩ := grow_grown (hMR.mono hbagc) (h1.mono hbagc) (bag.length + 1) 0 "" st bag 0 0 root st' hP
    (Nat.zero_le _) (fun _ h => h) hg
  have hgr := hgr false
  have havR : root.Avoids fmR b.ti := hgr.avoids hMR.named havoid
  have hav : root.Avoids fm b.ti := avoids_set fm b.ti _ root (by rw [hfmR] at havR; exact havR)
  have huR : Usable fmR (List.range n) root := by
    obtain ⟨h1', -, -⟩ := treeGrower_searchOk (fp := fp) (md := b.maxDepth) (sm := b.splitmissing) hS
    have := (grow_grown hMR h1' (bag.length + 1) 0 "" st bag 0 0 root st' hP (Nat.zero_le _) hbagc hg).2 false
    exact (this.usable hMR).resolve_left this.not_nil
  have hu : Usable fm (List.range n) root := usable_avoids fm b.ti _ _ root hav (by rw [hfmR] at huR; exact huR)
  have hland : ∀ c, landing fmR root c = landing fm root c := fun c => by rw [hfmR]; exact landing_avoids fm b.ti _ root hav c
  -- what leaves predict
  have hpred : ∀ i < n, ∀ path pred, landing fm root i = some (path, pred) → nt.parse pred.toList = some (.fin
      ((((List.range n).filter fun j => (landing fm root j).map (·.1) == some path).map v).sum /
        ((List.range n).filter fun j => (landing fm root j).map (·.1) == some path).length)) := by
    intro i hi path pred hl
    have hib : i ∈ bag := hbag.mem_iff.2 (List.mem_range.2 hi)
    simp only [hland] at h8
    rcases h8 (path, pred) (landing_mem root i _ hl) with ⟨S, hS1, hS2⟩ | ⟨-, -, -, h⟩
    · have hperm : S.Perm ((List.range n).filter fun j => (landing fm root j).map (·.1) == some path) :=
        hS1.trans (hbag.filter _)
      have hSn : ∀ c ∈ S, c < n := fun c hcc => List.mem_range.1 (List.mem_of_mem_filter (hperm.mem_iff.1 hcc))
      have hiS : i ∈ S := hperm.mem_iff.2 (List.mem_filter.2 ⟨List.mem_range.2 hi, by rw [hl]; simp⟩)
      have hknown : knownOf (withValues f n v).missing S = S := by
        unfold knownOf
        rw [List.filter_eq_self]
        intro c hcc
        simp [withValues, hSn c hcc]
      have hmean := mean_eq (withValues f n v) S (fun c hcc => by simpa [withValues] using hSn c hcc)
        (by simp [withValues]) (by rw [hknown]; exact fun c hcc => hfin c (List.mem_range.2 (hSn c hcc)))
        (by rw [hknown]; exact List.ne_nil_of_mem hiS)
      rw [hknown] at hmean
      have hval : ∀ c < n, (withValues f n v).value c = v c := fun c hcc => by
        unfold NumFeature.value
        rw [show (withValues f n v).numData[c]? = some (.fin (v c)) from finList_get v hcc]
      have hmean2 : (withValues f n v).meanOf S =
          ((((List.range n).filter fun j => (landing fm root j).map (·.1) == some path).map v).sum /
            ((List.range n).filter fun j => (landing fm root j).map (·.1) == some path).length) := by
        unfold NumFeature.meanOf
        rw [List.map_congr_left fun c hcc => hval c (hSn c hcc), hperm.length_eq, (hperm.map v).sum_eq]
      have hfpS : fp S = String.ofList (nt.fmt (.fin ((withValues f n v).meanOf S))) := by
        rw [hfp]
        simp only [NumFeature.findPredicted, hmean]
        rfl
      simp only at hS2
      rw [hS2, hfpS, String.toList_ofList, hnt, hmean2]
    · exact absurd (show (landing fm root i).map (·.1) = some path by rw [hl]; rfl) (h i hib)
  have hfor : (Tree.mk root b.target (.fin (-1))).FiniteFor (fun p => nt.parse p.toList) fm n := by
    intro i hi x hx y hy
    obtain ⟨path, pred⟩ := x
    have := hpred i hi path pred hx
    exact ⟨_, Option.some.inj (hy.symm.trans this)⟩
  refine ⟨root, st', ?_, hu, hav, hfor, ?_, hP'.cans_, hP'.oob_⟩
  · rw [← hfp, ← hfmR, hg]
  · apply group_means n v _ (fun i => (landing fm root i).map (·.1))
    · intro i _ h
      simp only [Option.map_eq_none_iff] at h
      simp [treeValue, h]
    · intro i hi path h
      obtain ⟨⟨path', pred⟩, hl, hp⟩ := Option.map_eq_some_iff.1 h
      cases hp
      have := hpred i hi _ pred hl
      unfold treeValue
      simp only
      rw [hl]
      simp only [predVal]
      rw [this]
      have hfil : ((List.range n).filter fun j => (landing fm root j).map (·.1) == some path') =
          (List.range n).filter fun j => decide ((landing fm root j).map (·.1) = some path') :=
        List.filter_congr fun j _ => by rw [Bool.eq_iff_iff]; simp
      rw [hfil]

/-- A round of boosting from all cases. -/
theorem boost_tree {b : BoostSetup K τ} {nt : NumText K} (hnt : ∀ x, nt.parse (nt.fmt x) = some x) {fm : FeatureMatrix K}
    {n : Nat} {f : NumFeature K} (hti : fm.data[b.ti]? = some (.num f)) (hf : (Feature.num f).length = n)
    (hc : fm.allCases = some (List.range n)) (hM : MatrixOk fm (List.range n))
    (hfeat : ∀ F ∈ fm.data, FeatOk F (List.range n)) (hvet : b.o.vet = false) (hoob : b.o.evaloob = false)
    (hleaf : 1 ≤ b.o.leafSize) {st : SplitState K} (hexist : ∀ i ∈ st.cans, i < fm.data.length) (havoid : b.ti ∉ st.cans)
    (hmTry : b.o.mTry ≤ st.cans.length) (hst : ∀ c ∈ st.oob, c < n) (lr : K) (mean : XF K) (v : Nat → K) {bag : List Nat}
    (hbag : bag.Perm (List.range n)) :
    ∃ t st', b.tree nt .fresh ⟨{ fm with data := fm.data.set b.ti (.num (withValues f n v)) },
          ⟨withValues f n v, .fin lr, mean⟩, st⟩ bag =
        some ({ t with weight := .fin lr }, ⟨{ fm with data := fm.data.set b.ti (.num (withValues f n fun i => v i - lr *
          treeValue (fun p => nt.parse p.toList) fm t i)) },
          ⟨withValues f n fun i => v i - lr * treeValue (fun p => nt.parse p.toList) fm t i, .fin lr, mean⟩, st'⟩) ∧
      Usable fm (List.range n) t.root ∧ t.FiniteFor (fun p => nt.parse p.toList) fm n ∧
      ((List.range n).map fun i => v i * treeValue (fun p => nt.parse p.toList) fm t i).sum =
        ((List.range n).map fun i => treeValue (fun p => nt.parse p.toList) fm t i ^ 2).sum ∧
      st'.cans.Perm st.cans ∧ st'.oob.Perm st.oob := by
  obtain ⟨root, st', hg, hu, hav, hfor, hsum, h1, h2⟩ := grow_boost hnt hti hf hc hM hfeat hvet hoob hleaf hexist havoid hmTry hst v hbag
  refine ⟨⟨root, b.target, .fin (-1)⟩, st', ?_, hu, hfor, hsum, h1, h2⟩
  unfold BoostSetup.tree
  simp only
  rw [hg]
  simp only [Option.bind_eq_bind, Option.bind_some]
  rw [round_withValues (fun p => nt.parse p.toList) fm b.ti n f lr mean v ⟨root, b.target, .fin (-1)⟩ hti hc hf hu hav hfor]
  rfl

end CloudForest
