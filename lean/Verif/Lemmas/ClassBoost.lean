import Verif.Spec.ClassBoost
import Verif.Model.ClassBoost
import Verif.Props.Boost
import Verif.Lemmas.Impurity
import Verif.Lemmas.Regression
import Mathlib.Tactic.FieldSimp
import Mathlib.Tactic.Linarith

/-!
# Lemmas for gradient boosting of two classes
-/

set_option linter.unusedSectionVars false

namespace CloudForest
variable {K : Type} [Field K] [LinearOrder K] [IsStrictOrderedRing K]

/-- `Expit` on finite numbers. -/
def expitOf (T : K → K) (x : K) : K := 1 / 2 * (T (1 / 2 * x) + 1)

theorem expit_fin {tanh : XF K → XF K} {T : K → K} (hT : ∀ x, tanh (.fin x) = .fin (T x)) (x : K) :
    expit tanh (.fin x) = .fin (expitOf T x) := by
  unfold expit
  have h1 : (XF.fin (1 / 2) * XF.fin x : XF K) = .fin (1 / 2 * x) := rfl
  rw [h1, hT]
  rfl

/-- The state between rounds: each residual is the label less the probability. -/
def classState (T : K → K) (fr fa fp : NumFeature K) (n : Nat) (y v : Nat → K) (lr : K) (prior : XF K) (pos : String) :
    ClassBoost K :=
  ⟨withValues fr n fun i => y i - expitOf T (v i), withValues fa n y, withValues fp n v, .fin lr, prior, pos⟩

theorem classUpdate_eq {tanh : XF K → XF K} {T : K → K} (hT : ∀ x, tanh (.fin x) = .fin (T x))
    (fr fa fp : NumFeature K) {n : Nat} (y : Nat → K) (lr p : K) (prior : XF K) (pos : String) (cases : List Nat)
    (h : ∀ c ∈ cases, c < n) (v : Nat → K) :
    (classState T fr fa fp n y v lr prior pos).update tanh cases (.fin p) =
      some (classState T fr fa fp n y (fun i => v i + lr * (cases.count i * p)) lr prior pos) := by
  unfold ClassBoost.update
  induction cases generalizing v with
  | nil => simp
  | cons c cs ih =>
    have hc := h c (by simp)
    have hstep : (do
        let p' ← (classState T fr fa fp n y v lr prior pos).pred.numData[c]?
        let p' := p' + (classState T fr fa fp n y v lr prior pos).learnRate * .fin p
        let pred ← (classState T fr fa fp n y v lr prior pos).pred.put c p'
        let a ← (classState T fr fa fp n y v lr prior pos).actual.numData[c]?
        let res ← (classState T fr fa fp n y v lr prior pos).res.put c (a - expit tanh p')
        some { classState T fr fa fp n y v lr prior pos with pred := pred, res := res }) =
        some (classState T fr fa fp n y (Function.update v c (v c + lr * p)) lr prior pos) := by
      have h1 : (withValues fp n v).numData[c]? = some (.fin (v c)) := finList_get v hc
      have h2 : (withValues fa n y).numData[c]? = some (.fin (y c)) := finList_get y hc
      have h3 : (XF.fin (v c) + XF.fin lr * XF.fin p : XF K) = .fin (v c + lr * p) := rfl
      unfold classState
      simp only [h1, h2, Option.bind_eq_bind, Option.bind_some, h3, put_withValues fp v hc, expit_fin hT, XF.fin_sub,
        put_withValues fr _ hc]
      congr 3
      funext i
      by_cases hic : i = c
      · subst hic
        simp
      · rw [Function.update_of_ne hic, Function.update_of_ne hic]
    rw [List.foldlM_cons]
    refine (congrArg (· >>= _) hstep).trans ?_
    refine (ih (fun x hx => h x (by simp [hx])) _).trans ?_
    congr 2
    funext i
    rw [List.count_cons]
    by_cases hic : i = c
    · subst hic
      simp
      ring
    · rw [Function.update_of_ne hic]
      have : (c == i) = false := by simpa using Ne.symm hic
      simp [this]

theorem classBoost_eq {tanh : XF K → XF K} {T : K → K} (hT : ∀ x, tanh (.fin x) = .fin (T x))
    (parse : String → Option (XF K)) (fr fa fp : NumFeature K) {n : Nat} (y : Nat → K) (lr : K) (prior : XF K)
    (pos : String) (groups : List (List Nat)) (preds : List String) (w : XF K) (hl : groups.length = preds.length)
    (hg : ∀ g ∈ groups.zip preds, (∀ c ∈ g.1, c < n) ∧ (g.1 ≠ [] → ∀ y, parse g.2 = some y → ∃ z, y = .fin z)) (v : Nat → K) :
    (classState T fr fa fp n y v lr prior pos).boost tanh parse groups preds =
      some (classState T fr fa fp n y (fun i => v i + lr * votedSum parse
        ((groups.zip preds).flatMap fun g => g.1.map fun c => ⟨c, g.2, w⟩) i) lr prior pos, .fin lr) := by
  unfold ClassBoost.boost
  rw [foldlM_zipIdx (fun (g : ClassBoost K) cp => g.update tanh cp.1 ((parse cp.2).getD (.fin 0))) groups preds hl]
  have key : ∀ (gs : List (List Nat × String)) (v : Nat → K),
      (∀ g ∈ gs, (∀ c ∈ g.1, c < n) ∧ (g.1 ≠ [] → ∀ y, parse g.2 = some y → ∃ z, y = .fin z)) →
      gs.foldlM (fun (g : ClassBoost K) cp => g.update tanh cp.1 ((parse cp.2).getD (.fin 0)))
        (classState T fr fa fp n y v lr prior pos) =
      some (classState T fr fa fp n y (fun i => v i + lr * votedSum parse
        (gs.flatMap fun g => g.1.map fun c => ⟨c, g.2, w⟩) i) lr prior pos) := by
    intro gs
    induction gs with
    | nil => intro v _; simp [votedSum]
    | cons g gs ih =>
      intro v h
      obtain ⟨h1, h2⟩ := h g (by simp)
      by_cases hnil : g.1 = []
      · rw [List.foldlM_cons, List.flatMap_cons, hnil, List.map_nil, List.nil_append]
        exact ih v fun x hx => h x (by simp [hx])
      rw [List.foldlM_cons, parse_getD (h2 hnil), classUpdate_eq hT fr fa fp y lr _ prior pos g.1 h1]
      refine (ih _ fun x hx => h x (by simp [hx])).trans ?_
      congr 2
      funext i
      rw [List.flatMap_cons, votedSum_append, votedSum_group]
      ring
  rw [key _ v hg]
  rfl

theorem classRounds_eq {tanh : XF K → XF K} {T : K → K} (hT : ∀ x, tanh (.fin x) = .fin (T x))
    (parse : String → Option (XF K)) (fm : FeatureMatrix K) (fr fa fp : NumFeature K) {n : Nat} (y : Nat → K) (lr : K)
    (prior : XF K) (pos : String) (hc : fm.allCases = some (List.range n)) (trees : List (Tree K))
    (ht : ∀ t ∈ trees, Usable fm (List.range n) t.root ∧ t.FinitePreds parse) (v : Nat → K) :
    ClassBoost.rounds tanh parse fm (classState T fr fa fp n y v lr prior pos) trees =
      some (classState T fr fa fp n y (fun i => v i + lr * (trees.map fun t => treeValue parse fm t i).sum) lr prior
        pos, trees.map fun t => { t with weight := .fin lr }) := by
  induction trees generalizing v with
  | nil => simp [ClassBoost.rounds]
  | cons t ts ih =>
    obtain ⟨hu, hp⟩ := ht t (by simp)
    obtain ⟨groups, preds, votes, h1, -, h3, h4, h5, h6⟩ := tree_votes parse fm n t hc hu (hp.for fm n)
    rw [ClassBoost.rounds, h1]
    simp only [Option.bind_eq_bind, Option.bind_some]
    rw [classBoost_eq hT parse fr fa fp y lr prior pos groups preds t.voteWeight h4 h5 v, ← h3]
    simp only [Option.bind_some]
    rw [ih fun x hx => ht x (by simp [hx])]
    simp only [Option.bind_some, List.map_cons]
    congr 2
    unfold classState withValues
    have : ∀ i < n, v i + lr * votedSum parse votes i + lr * (ts.map fun t => treeValue parse fm t i).sum =
        v i + lr * (treeValue parse fm t i :: ts.map fun t => treeValue parse fm t i).sum := by
      intro i hi
      rw [h6 i hi, List.sum_cons]
      ring
    congr 2
    · apply finList_congr
      intro i hi
      exact congrArg (fun z => y i - expitOf T z) (this i hi)
    · exact finList_congr this

/-- The labels do not change while the missing marks are cleared. -/
theorem markPositive_eq (pos : String) {n : Nat} (f : CatFeature) (hm : f.missing.length = n) (lab : Nat → String)
    (hf : f.Labels n lab) (a : NumFeature K) (x : Nat → K) (ha : a.numData = finList n x) (hma : a.missing = f.missing) :
    markPositive pos n f a = some ({ f with missing := List.replicate n false }, withValues a n (hot pos lab)) := by
  have hrep : f.missing = List.replicate n false := by
    apply List.ext_getElem?
    intro j
    by_cases hj : j < n
    · rw [(hf j hj).1, List.getElem?_replicate, if_pos hj]
    · rw [List.getElem?_eq_none (by omega), List.getElem?_eq_none (by simp; omega)]
  have haw : a = withValues a n x := by
    unfold withValues
    obtain ⟨d, m, nm, b⟩ := a
    simp only at ha hma
    rw [ha, hma, hrep]
  have hff : f = { f with missing := List.replicate n false } := by
    obtain ⟨d, m, nm, b, e⟩ := f
    simp only at hrep
    rw [hrep]
  have key : ∀ k ≤ n, (List.range k).foldlM (fun (st : CatFeature × NumFeature K) i => do
      let s ← st.1.getStr i
      let actual ← st.2.put i (if s = pos then .fin 1 else .fin 0)
      some ({ st.1 with missing := actual.missing }, actual)) (f, a) =
      some (f, withValues a n fun i => if i < k then hot pos lab i else x i) := by
    intro k
    induction k with
    | zero =>
      intro _
      simp only [List.range_zero, List.foldlM_nil, not_lt_zero', if_false]
      congr 2
    | succ k ih =>
      intro hk
      rw [List.range_succ, List.foldlM_append, ih (by omega)]
      obtain ⟨h1, j, h2, h3⟩ := hf k (by omega)
      have hs : f.getStr k = some (lab k) := by
        unfold CatFeature.getStr
        rw [h1, h2]
        simp [h3]
      simp only [Option.bind_eq_bind, Option.bind_some, List.foldlM_cons, List.foldlM_nil, hs]
      have hx : (if lab k = pos then (.fin 1 : XF K) else .fin 0) = .fin (hot pos lab k) := by
        unfold hot
        split <;> rfl
      rw [hx, put_withValues _ _ (by omega)]
      simp only [Option.bind_some]
      congr 2
      · rw [show (withValues a n (Function.update (fun i => if i < k then hot pos lab i else x i) k
            (hot pos lab k))).missing = List.replicate n false from rfl, ← hff]
      · unfold withValues
        congr 1
        apply finList_congr
        intro i _
        by_cases hik : i = k
        · subst hik; simp
        · rw [Function.update_of_ne hik]
          by_cases hlt : i < k
          · rw [if_pos hlt, if_pos (by omega)]
          · rw [if_neg hlt, if_neg (by omega)]
  unfold markPositive
  rw [key n le_rfl, ← hff]
  congr 2
  unfold withValues
  congr 1
  apply finList_congr
  intro i hi
  rw [if_pos hi]

theorem hot_sum (pos : String) (lab : Nat → String) (l : List Nat) :
    (l.map (hot pos lab : Nat → K)).sum = ((l.countP fun i => lab i = pos : Nat) : K) := by
  induction l with
  | nil => simp
  | cons c cs ih =>
    rw [List.map_cons, List.sum_cons, ih, List.countP_cons]
    unfold hot
    by_cases h : lab c = pos
    · simp [h]; ring
    · simp [h]

theorem encodeFirst_values (f : CatFeature) {n : Nat} (hd : f.catData.length = n) :
    ∃ x : Nat → K, (f.encodeFirst : NumFeature K).numData = finList n x ∧
      (f.encodeFirst : NumFeature K).missing = f.missing := by
  unfold CatFeature.encodeFirst
  split
  · refine ⟨fun i => ((f.catData[i]?).getD 0 : Nat), finList_eq (by simpa using hd) fun i hi => ?_, rfl⟩
    simp only [List.getElem?_map, List.getElem?_eq_getElem (by omega : i < f.catData.length), Option.map_some,
      Option.getD_some]
    rfl
  · refine ⟨fun i => if (f.catData[i]?).getD 0 = 0 then 1 else 0, finList_eq (by simpa using hd) fun i hi => ?_, rfl⟩
    simp only [List.getElem?_map, List.getElem?_eq_getElem (by omega : i < f.catData.length), Option.map_some,
      Option.getD_some]
    split <;> rfl

theorem newClassBoost_eq {tanh log : XF K → XF K} {T L : K → K} (hT : ∀ x, tanh (.fin x) = .fin (T x))
    (hL : ∀ x, 0 < x → log (.fin x) = .fin (L x)) (f : CatFeature) (lr : K) (pos : String) {n : Nat}
    (hm : f.missing.length = n) (hd : f.catData.length = n) (lab : Nat → String) (hf : f.Labels n lab)
    (h0 : 0 < hotCount pos lab n) (h1 : hotCount pos lab n < n) :
    ∃ fr fa fp : NumFeature K, newClassBoost tanh log f (.fin lr) pos =
      some (classState T fr fa fp n (hot pos lab)
        (fun _ => L ((hotCount pos lab n : K) / ((n : K) - hotCount pos lab n))) lr
        (.fin (L ((hotCount pos lab n : K) / ((n : K) - hotCount pos lab n)))) pos,
        { f with missing := List.replicate n false }) := by
  obtain ⟨x, hx, hmx⟩ := encodeFirst_values (K := K) f hd
  have hrep : f.missing = List.replicate n false := by
    apply List.ext_getElem?
    intro j
    by_cases hj : j < n
    · rw [(hf j hj).1, List.getElem?_replicate, if_pos hj]
    · rw [List.getElem?_eq_none (by omega), List.getElem?_eq_none (by simp; omega)]
  have hp0 : (0 : K) < (hotCount pos lab n : K) := Nat.cast_pos.2 h0
  have hp1 : (0 : K) < (n : K) - (hotCount pos lab n : K) := sub_pos.2 (Nat.cast_lt.2 h1)
  refine ⟨{ withValues (f.encodeFirst : NumFeature K) n (hot pos lab) with hasMissing := false }, f.encodeFirst,
    { (f.encodeFirst : NumFeature K) with hasMissing := false }, ?_⟩
  unfold newClassBoost
  simp only [hm]
  rw [markPositive_eq pos f hm lab hf f.encodeFirst x hx hmx]
  simp only [Option.bind_eq_bind, Option.bind_some]
  have hsum : ∀ (cs : List Nat) (s : K), (∀ c ∈ cs, c < n) → cs.foldlM (fun (s : XF K) i =>
      ((withValues (f.encodeFirst : NumFeature K) n (hot pos lab)).numData[i]?).bind fun x => some (s + x)) (.fin s) =
      some (.fin (s + (cs.map (hot pos lab : Nat → K)).sum)) := by
    intro cs
    induction cs with
    | nil => intro s _; simp
    | cons c cs ih =>
      intro s h
      rw [List.foldlM_cons]
      have : (withValues (f.encodeFirst : NumFeature K) n (hot pos lab)).numData[c]? = some (.fin (hot pos lab c)) :=
        finList_get _ (h c (by simp))
      rw [this]
      refine (ih (s + hot pos lab c) fun x hx => h x (by simp [hx])).trans ?_
      rw [List.map_cons, List.sum_cons, add_assoc]
  have hall : ∀ c ∈ List.range n, c < n := fun c => List.mem_range.1
  rw [hsum _ _ hall]
  simp only [Option.bind_some, zero_add]
  rw [hot_sum (K := K)]
  have hprior : log ((XF.fin (((List.range n).countP fun i => lab i = pos : Nat) : K) : XF K) /
      (XF.ofNat n - XF.fin (((List.range n).countP fun i => lab i = pos : Nat) : K))) =
      .fin (L ((hotCount pos lab n : K) / ((n : K) - hotCount pos lab n))) := by
    unfold XF.ofNat
    rw [XF.fin_sub]
    have e : ((List.range n).countP fun i => lab i = pos) = hotCount pos lab n := rfl
    rw [e, XF.fin_div _ hp1.ne', hL _ (div_pos hp0 hp1)]
  rw [hprior]
  generalize L ((hotCount pos lab n : K) / ((n : K) - hotCount pos lab n)) = q
  have hput : ∀ (p0 r0 : NumFeature K) (u v : Nat → K) (k : Nat), k ≤ n →
      (List.range k).foldlM (fun (pr : NumFeature K × NumFeature K) i => (pr.1.put i (.fin q)).bind fun p =>
        ((withValues (f.encodeFirst : NumFeature K) n (hot pos lab)).numData[i]?).bind fun a =>
          (pr.2.put i (a - expit tanh (.fin q))).bind fun r => some (p, r)) (withValues p0 n u, withValues r0 n v) =
      some (withValues p0 n (fun i => if i < k then q else u i),
        withValues r0 n fun i => if i < k then hot pos lab i - expitOf T q else v i) := by
    intro p0 r0 u v k
    induction k with
    | zero => intro _; simp
    | succ k ih =>
      intro hk
      rw [List.range_succ, List.foldlM_append, ih (by omega)]
      have : (withValues (f.encodeFirst : NumFeature K) n (hot pos lab)).numData[k]? = some (.fin (hot pos lab k)) :=
        finList_get _ (by omega)
      simp only [Option.bind_eq_bind, Option.bind_some, List.foldlM_cons, List.foldlM_nil, this, expit_fin hT,
        XF.fin_sub, put_withValues p0 _ (by omega : k < n), put_withValues r0 _ (by omega : k < n)]
      have up : ∀ (g h : Nat → K), Function.update (fun i => if i < k then g i else h i) k (g k) =
          fun i => if i < k + 1 then g i else h i := by
        intro g h
        funext i
        by_cases hik : i = k
        · subst hik; simp
        · rw [Function.update_of_ne hik]
          by_cases hlt : i < k
          · rw [if_pos hlt, if_pos (by omega)]
          · rw [if_neg hlt, if_neg (by omega)]
      have e1 := up (fun _ => q) u
      have e2 := up (fun i => hot pos lab i - expitOf T q) v
      rw [e1, e2]
      rfl
  have hpw : ({ (f.encodeFirst : NumFeature K) with hasMissing := false } : NumFeature K) =
      withValues { (f.encodeFirst : NumFeature K) with hasMissing := false } n x := by
    unfold withValues
    rw [← hrep, ← hx, ← hmx]
  have hrw : ({ withValues (f.encodeFirst : NumFeature K) n (hot pos lab) with hasMissing := false } : NumFeature K) =
      withValues { withValues (f.encodeFirst : NumFeature K) n (hot pos lab) with hasMissing := false } n (hot pos lab) :=
    rfl
  have := hput { (f.encodeFirst : NumFeature K) with hasMissing := false }
    { withValues (f.encodeFirst : NumFeature K) n (hot pos lab) with hasMissing := false } x (hot pos lab) n le_rfl
  rw [← hpw, ← hrw] at this
  rw [this]
  simp only [Option.bind_some]
  congr 2
  unfold classState
  congr 1
  · unfold withValues
    congr 1
    exact finList_congr fun i hi => if_pos hi
  · unfold withValues
    congr 1
    exact finList_congr fun i hi => if_pos hi

/-! ## The real functions -/

theorem expitOf_tanh (x : ℝ) : expitOf Real.tanh x = logistic x := by
  unfold expitOf logistic
  rw [Real.tanh_eq_sinh_div_cosh, Real.sinh_eq, Real.cosh_eq]
  have h1 : Real.exp (-x) = Real.exp (-(1 / 2 * x)) * Real.exp (-(1 / 2 * x)) := by
    rw [← Real.exp_add]; congr 1; ring
  have h2 : Real.exp (1 / 2 * x) * Real.exp (-(1 / 2 * x)) = 1 := by
    rw [← Real.exp_add]; simp
  have p1 := Real.exp_pos (1 / 2 * x)
  have p2 := Real.exp_pos (-(1 / 2 * x))
  rw [h1]
  generalize Real.exp (1 / 2 * x) = a at *
  generalize Real.exp (-(1 / 2 * x)) = b at *
  have : 0 < a + b := by linarith
  have h3 : (1 : ℝ) + b * b = (a + b) * b := by rw [add_mul, h2]
  rw [h3]
  field_simp
  linear_combination 2 * h2

theorem logistic_pos (x : ℝ) : 0 < logistic x := by
  unfold logistic
  have := Real.exp_pos (-x)
  positivity

theorem logistic_lt_one (x : ℝ) : logistic x < 1 := by
  unfold logistic
  have := Real.exp_pos (-x)
  rw [div_lt_one (by linarith)]
  linarith

theorem logistic_log {a b : ℝ} (ha : 0 < a) (hb : 0 < b) : logistic (Real.log (a / b)) = a / (a + b) := by
  unfold logistic
  rw [← Real.log_inv, Real.exp_log (inv_pos.2 (div_pos ha hb)), inv_div]
  field_simp

theorem hasDerivAt_logistic (x : ℝ) : HasDerivAt logistic (logistic x * (1 - logistic x)) x := by
  have h1 : HasDerivAt (fun x : ℝ => Real.exp (-x)) (Real.exp (-x) * -1) x := (hasDerivAt_neg x).exp
  have h2 : HasDerivAt (fun x : ℝ => 1 + Real.exp (-x)) (Real.exp (-x) * -1) x := h1.const_add 1
  have p := Real.exp_pos (-x)
  have h3 := h2.inv (by positivity : (1 : ℝ) + Real.exp (-x) ≠ 0)
  have e : logistic = fun x : ℝ => (1 + Real.exp (-x))⁻¹ := by
    funext y
    unfold logistic
    rw [one_div]
  rw [e]
  refine HasDerivAt.congr_deriv h3 ?_
  have : (1 : ℝ) + Real.exp (-x) ≠ 0 := by positivity
  show _ = (1 + Real.exp (-x))⁻¹ * (1 - (1 + Real.exp (-x))⁻¹)
  clear h1 h2 h3
  generalize Real.exp (-x) = b at *
  field_simp
  ring

end CloudForest
