import Verif.Spec.BoostCores
import Verif.Props.BoostRun

/-!
# C159: gradient boosting with several workers
-/

set_option linter.unusedSectionVars false

namespace CloudForest
variable {K : Type} [Field K] [LinearOrder K] [IsStrictOrderedRing K] {τ : Type}

/-- What boosting relies on in a tree. -/
def RootFit (b : BoostSetup K τ) (nt : NumText K) (fm : FeatureMatrix K) (n : Nat) (root : Node K) : Prop :=
  Usable fm (List.range n) root ∧ root.Avoids fm b.ti ∧
    (Tree.mk root b.target (.fin (-1))).FiniteFor (fun p => nt.parse p.toList) fm n

/-- What a tree with this root predicts. -/
def rootValue (b : BoostSetup K τ) (nt : NumText K) (fm : FeatureMatrix K) (root : Node K) (i : Nat) : K :=
  treeValue (fun p => nt.parse p.toList) fm ⟨root, b.target, .fin (-1)⟩ i

/-- The recorded trees. -/
def recorded (b : BoostSetup K τ) (lr : K) (roots : List (Node K)) : List (Tree K) :=
  roots.map fun r => ⟨r, b.target, .fin lr⟩

/-- The pool after trees with `roots` have been recorded; `r0` are the first residuals. -/
structure PoolAt (b : BoostSetup K τ) (nt : NumText K) (fm : FeatureMatrix K) (n : Nat) (f : NumFeature K) (lr : K)
    (mean : XF K) (r0 : Nat → K) (roots : List (Node K)) (held : List (Option (Node K))) (p : BoostPool K) : Prop where
  fm_ : p.fm = { fm with data := fm.data.set b.ti (.num (withValues f n fun i =>
    r0 i - lr * (roots.map fun r => rootValue b nt fm r i).sum)) }
  g_ : p.g = ⟨withValues f n fun i => r0 i - lr * (roots.map fun r => rootValue b nt fm r i).sum, .fin lr, mean⟩
  sts : ∀ st ∈ p.sts, WorkerFit b fm n st
  len : p.sts.length = held.length
  held_ : p.held = held
  fit : ∀ r, some r ∈ held → RootFit b nt fm n r
  out : p.out = recorded b lr roots
  outFit : ∀ r ∈ roots, RootFit b nt fm n r

/-- A worker grows a tree. -/
theorem pool_grow {b : BoostSetup K τ} {nt : NumText K} {fm : FeatureMatrix K} {n : Nat} {f : NumFeature K} {lr : K}
    {mean : XF K} {r0 : Nat → K} {roots : List (Node K)} {held : List (Option (Node K))} {p : BoostPool K}
    (hD : PoolData b nt fm n f) (hp : PoolAt b nt fm n f lr mean r0 roots held p) {w : Nat} (hw : held[w]? = some none)
    {bag : List Nat} (hbag : bag.Perm (List.range n)) :
    ∃ root p', b.poolStep nt p (.grow w bag) = some p' ∧
      PoolAt b nt fm n f lr mean r0 roots (held.set w (some root)) p' ∧
      ((List.range n).map fun i => (r0 i - lr * (roots.map fun r => rootValue b nt fm r i).sum) * rootValue b nt fm root i).sum =
        ((List.range n).map fun i => rootValue b nt fm root i ^ 2).sum := by
  obtain ⟨hwl, -⟩ := List.getElem?_eq_some_iff.1 hw
  have hws : w < p.sts.length := by rw [hp.len]; exact hwl
  have hfit := hp.sts _ (List.getElem_mem hws)
  obtain ⟨root, st', hg, hu, hav, hfor, hsum, h1, h2⟩ := grow_boost hD.text hD.target hD.length hD.cases hD.matrix hD.feats hD.vet
    hD.evaloob hD.leaf hfit.exist hfit.avoid hfit.enough hfit.oob
    (fun i => r0 i - lr * (roots.map fun r => rootValue b nt fm r i).sum) hbag
  refine ⟨root, { p with sts := p.sts.set w st', held := p.held.set w (some root) }, ?_, ?_, hsum⟩
  · unfold BoostSetup.poolStep
    simp only [List.getElem?_eq_getElem hws, Option.bind_eq_bind, Option.bind_some, hp.held_, hw, hp.g_, hp.fm_]
    rw [hg]
    rfl
  · refine ⟨hp.fm_, hp.g_, ?_, by simp [hp.len], by simp [hp.held_], ?_, hp.out, hp.outFit⟩
    · intro st hst
      rcases List.mem_or_eq_of_mem_set hst with h | rfl
      · exact hp.sts st h
      · exact ⟨fun i hi => hfit.exist i (h1.mem_iff.1 hi), fun h => hfit.avoid (h1.mem_iff.1 h),
          by rw [h1.length_eq]; exact hfit.enough, fun c hc => hfit.oob c (h2.mem_iff.1 hc)⟩
    · intro r hr
      rcases List.mem_or_eq_of_mem_set hr with h | h
      · exact hp.fit r h
      · cases h
        exact ⟨hu, hav, hfor⟩

/-- A worker boosts. -/
theorem pool_boost {b : BoostSetup K τ} {nt : NumText K} {fm : FeatureMatrix K} {n : Nat} {f : NumFeature K} {lr : K}
    {mean : XF K} {r0 : Nat → K} {roots : List (Node K)} {held : List (Option (Node K))} {p : BoostPool K}
    (hD : PoolData b nt fm n f) (hp : PoolAt b nt fm n f lr mean r0 roots held p) {w : Nat} {root : Node K}
    (hw : held[w]? = some (some root)) :
    ∃ p', b.poolStep nt p (.boost w) = some p' ∧ PoolAt b nt fm n f lr mean r0 (roots ++ [root]) (held.set w none) p' := by
  obtain ⟨hu, hav, hfor⟩ := hp.fit root (List.mem_of_getElem? hw)
  have hr := round_withValues (fun x => nt.parse x.toList) fm b.ti n f lr mean
    (fun i => r0 i - lr * (roots.map fun r => rootValue b nt fm r i).sum) ⟨root, b.target, .fin (-1)⟩ hD.target hD.cases hD.length
    hu hav hfor
  have e : (fun i => r0 i - lr * (roots.map fun r => rootValue b nt fm r i).sum - lr *
      treeValue (fun x => nt.parse x.toList) fm ⟨root, b.target, .fin (-1)⟩ i) =
      fun i => r0 i - lr * ((roots ++ [root]).map fun r => rootValue b nt fm r i).sum := by
    funext i
    rw [List.map_append, List.sum_append]
    simp only [List.map_cons, List.map_nil, List.sum_cons, List.sum_nil, add_zero, rootValue]
    ring
  rw [e] at hr
  refine ⟨{ p with
    fm := { fm with data := fm.data.set b.ti (.num (withValues f n fun i =>
      r0 i - lr * ((roots ++ [root]).map fun r => rootValue b nt fm r i).sum)) }
    g := ⟨withValues f n fun i => r0 i - lr * ((roots ++ [root]).map fun r => rootValue b nt fm r i).sum, .fin lr, mean⟩
    held := p.held.set w none
    out := p.out ++ [⟨root, b.target, .fin lr⟩] }, ?_, ?_⟩
  · unfold BoostSetup.poolStep
    simp only [hp.held_, hw, hp.g_, hp.fm_]
    rw [hr]
    rfl
  · refine ⟨rfl, rfl, hp.sts, by simp [hp.len], by simp [hp.held_], ?_, ?_, ?_⟩
    · intro r h
      rcases List.mem_or_eq_of_mem_set h with h | h
      · exact hp.fit r h
      · cases h
    · simp [hp.out, recorded]
    · intro r h
      rcases List.mem_append.1 h with h | h
      · exact hp.outFit r h
      · rw [List.mem_singleton.1 h]
        exact ⟨hu, hav, hfor⟩

/-- The start. -/
theorem pool_start {b : BoostSetup K τ} {nt : NumText K} {fm : FeatureMatrix K} {n : Nat} {f : NumFeature K} {y : Nat → K}
    (hD : PoolData b nt fm n f) (hn : n ≠ 0) (hl : f.numData.length = n) (hy : ∀ i < n, f.numData[i]? = some (.fin (y i)))
    (lr : K) {sts : List (SplitState K)} (hsts : ∀ st ∈ sts, WorkerFit b fm n st) (steps : List PoolStep) :
    ∃ prior p, b.poolRun nt fm (.fin lr) sts steps = steps.foldlM (b.poolStep nt) p ∧
      PoolAt b nt fm n f lr (.fin prior) (fun i => y i - prior) [] (sts.map fun _ => none) p := by
  have e0 := newGradBoost_values f (.fin lr) n y hD.length (finList_eq hl hy) hn
  refine ⟨((List.range n).map y).sum / (n : K), ⟨{ fm with data := fm.data.set b.ti (.num (withValues f n fun i =>
      y i - ((List.range n).map y).sum / (n : K))) }, ⟨withValues f n fun i => y i - ((List.range n).map y).sum / (n : K),
      .fin lr, .fin (((List.range n).map y).sum / (n : K))⟩, sts, sts.map fun _ => none, []⟩, ?_, ?_⟩
  · unfold BoostSetup.poolRun
    rw [hD.target]
    simp only [Option.bind_eq_bind, Option.bind_some]
    rw [e0]
    simp only [Option.bind_some]
  · refine ⟨?_, ?_, hsts, by simp, rfl, ?_, rfl, nofun⟩
    · simp
    · simp
    · intro r hr
      simp at hr

/-- Any order of steps. -/
theorem pool_steps {b : BoostSetup K τ} {nt : NumText K} {fm : FeatureMatrix K} {n : Nat} {f : NumFeature K} {lr : K}
    {mean : XF K} {r0 : Nat → K} (hD : PoolData b nt fm n f) (steps : List PoolStep)
    (hbags : ∀ w bag, PoolStep.grow w bag ∈ steps → bag.Perm (List.range n)) :
    ∀ (roots : List (Node K)) (held : List (Option (Node K))) (p : BoostPool K),
      PoolAt b nt fm n f lr mean r0 roots held p → Possible (held.map Option.isSome) steps →
      ∃ (more : List (Node K)) (held' : List (Option (Node K))) (p' : BoostPool K), steps.foldlM (b.poolStep nt) p = some p' ∧ more.length = boosts steps ∧
        PoolAt b nt fm n f lr mean r0 (roots ++ more) held' p' := by
  induction steps with
  | nil => intro roots held p hp _; exact ⟨[], held, p, rfl, rfl, by simpa using hp⟩
  | cons s steps ih =>
    intro roots held p hp hs
    have ih := ih fun w bag h => hbags w bag (by simp [h])
    cases s with
    | grow w bag =>
      obtain ⟨h1, h2⟩ := hs
      have hw : held[w]? = some none := by
        rw [List.getElem?_map] at h1
        cases h : held[w]? with
        | none => rw [h] at h1; cases h1
        | some x =>
          rw [h] at h1
          cases x with
          | none => rfl
          | some x => cases h1
      obtain ⟨root, p', e, hp', -⟩ := pool_grow hD hp hw (hbags w bag (by simp))
      obtain ⟨more, held', q, e', hl, hq⟩ := ih roots _ p' hp' (by rw [List.map_set]; exact h2)
      exact ⟨more, held', q, by rw [List.foldlM_cons, e]; exact e', hl, hq⟩
    | boost w =>
      obtain ⟨h1, h2⟩ := hs
      obtain ⟨root, hw⟩ : ∃ root, held[w]? = some (some root) := by
        rw [List.getElem?_map] at h1
        cases h : held[w]? with
        | none => rw [h] at h1; cases h1
        | some x =>
          rw [h] at h1
          cases x with
          | none => cases h1
          | some x => exact ⟨x, rfl⟩
      obtain ⟨p', e, hp'⟩ := pool_boost hD hp hw
      obtain ⟨more, held', q, e', hl, hq⟩ := ih _ _ p' hp' (by rw [List.map_set]; exact h2)
      refine ⟨root :: more, held', q, by rw [List.foldlM_cons, e]; exact e', by simp [hl, boosts], ?_⟩
      rw [List.append_assoc] at hq
      exact hq

/-- What the recorded trees predict. -/
theorem pool_predicts {b : BoostSetup K τ} {nt : NumText K} {fm : FeatureMatrix K} {n : Nat} {f : NumFeature K} {lr : K}
    (hD : PoolData b nt fm n f) (hlr : 0 ≤ lr) (prior : K) {roots : List (Node K)}
    (h : ∀ r ∈ roots, RootFit b nt fm n r) :
    applySum (fun x => nt.parse x.toList) (.fin prior) (recorded b lr roots) fm =
      some ((List.range n).map fun i => .fin (prior + lr * (roots.map fun r => rootValue b nt fm r i).sum)) := by
  have := applySum_eq (fun x => nt.parse x.toList) fm n lr prior (roots.map fun r => ⟨r, b.target, .fin (-1)⟩) hD.cases hlr (by
    intro t ht
    obtain ⟨r, hr, rfl⟩ := List.mem_map.1 ht
    exact ⟨(h r hr).1, (h r hr).2.2⟩)
  rw [List.map_map] at this
  simp only [List.map_map] at this
  exact this

/-- **C159, the account.** Whatever the order in which the workers take their steps, boosting runs, it records a tree for every
step that boosts, and for every case the original value is what the recorded trees predict (`applyforest -sum`) plus the
residual that is left. -/
theorem c159_account {b : BoostSetup K τ} {nt : NumText K} {fm : FeatureMatrix K} {n : Nat} {f : NumFeature K} {y : Nat → K}
    (hD : PoolData b nt fm n f) (hn : n ≠ 0) (hl : f.numData.length = n) (hy : ∀ i < n, f.numData[i]? = some (.fin (y i)))
    {lr : K} (hlr : 0 ≤ lr) {sts : List (SplitState K)} (hsts : ∀ st ∈ sts, WorkerFit b fm n st) {steps : List PoolStep}
    (hs : Possible (sts.map fun _ => false) steps)
    (hbags : ∀ w bag, PoolStep.grow w bag ∈ steps → bag.Perm (List.range n)) :
    ∃ (p : BoostPool K) (S R : Nat → K), b.poolRun nt fm (.fin lr) sts steps = some p ∧ p.out.length = boosts steps ∧
      applySum (fun x => nt.parse x.toList) p.g.mean p.out fm = some ((List.range n).map fun i => .fin (S i)) ∧
      ∀ i < n, p.g.f.numData[i]? = some (.fin (R i)) ∧ S i + R i = y i := by
  obtain ⟨prior, p0, e0, h0⟩ := pool_start hD hn hl hy lr hsts steps
  obtain ⟨roots, held, p, e, hlen, hp⟩ := pool_steps hD steps hbags [] _ p0 h0 (by
    rw [List.map_map]
    exact hs)
  rw [List.nil_append] at hp
  refine ⟨p, fun i => prior + lr * (roots.map fun r => rootValue b nt fm r i).sum,
    fun i => y i - prior - lr * (roots.map fun r => rootValue b nt fm r i).sum, e0.trans e, ?_, ?_, ?_⟩
  · rw [hp.out, recorded, List.length_map, hlen]
  · rw [hp.g_, hp.out]
    exact pool_predicts hD hlr prior hp.outFit
  · intro i hi
    rw [hp.g_]
    exact ⟨finList_get _ hi, by ring⟩

/-- Everyone grows a tree. -/
theorem pool_grows {b : BoostSetup K τ} {nt : NumText K} {fm : FeatureMatrix K} {n : Nat} {f : NumFeature K} {lr : K}
    {mean : XF K} {r0 : Nat → K} {roots : List (Node K)} (hD : PoolData b nt fm n f) (bags : List (List Nat))
    (hbags : ∀ bag ∈ bags, bag.Perm (List.range n)) :
    ∀ (us : List (Node K)) (p : BoostPool K),
      PoolAt b nt fm n f lr mean r0 roots (us.map some ++ List.replicate bags.length none) p →
      (∀ u ∈ us, ((List.range n).map fun i => (r0 i - lr * (roots.map fun r => rootValue b nt fm r i).sum) *
          rootValue b nt fm u i).sum = ((List.range n).map fun i => rootValue b nt fm u i ^ 2).sum) →
      ∃ (us' : List (Node K)) (p' : BoostPool K), ((bags.zipIdx us.length).map fun x => PoolStep.grow x.2 x.1).foldlM (b.poolStep nt) p = some p' ∧
        us'.length = us.length + bags.length ∧ PoolAt b nt fm n f lr mean r0 roots (us'.map some) p' ∧
        ∀ u ∈ us', ((List.range n).map fun i => (r0 i - lr * (roots.map fun r => rootValue b nt fm r i).sum) *
          rootValue b nt fm u i).sum = ((List.range n).map fun i => rootValue b nt fm u i ^ 2).sum := by
  induction bags with
  | nil => intro us p hp hu; exact ⟨us, p, rfl, rfl, by simpa using hp, hu⟩
  | cons bag bags ih =>
    intro us p hp hu
    have hw : (us.map some ++ List.replicate (bag :: bags).length none)[us.length]? = some none := by
      rw [List.getElem?_append_right (by simp)]
      simp
    obtain ⟨root, p', e, hp', ho⟩ := pool_grow hD hp hw (hbags bag (by simp))
    have hset : (us.map some ++ List.replicate (bag :: bags).length none).set us.length (some root) =
        (us ++ [root]).map some ++ List.replicate bags.length none := by
      rw [List.set_append_right _ _ (by simp)]
      simp [List.replicate_succ]
    rw [hset] at hp'
    obtain ⟨us', q, e', hl, hq, hu'⟩ := ih (fun x hx => hbags x (by simp [hx])) (us ++ [root]) p' hp' (by
      intro u hm
      rcases List.mem_append.1 hm with h | h
      · exact hu u h
      · rw [List.mem_singleton.1 h]; exact ho)
    refine ⟨us', q, ?_, by simp at hl ⊢; omega, hq, hu'⟩
    rw [List.zipIdx_cons, List.map_cons, List.foldlM_cons, e]
    simpa using e'

/-- They boost. -/
theorem pool_boosts {b : BoostSetup K τ} {nt : NumText K} {fm : FeatureMatrix K} {n : Nat} {f : NumFeature K} {lr : K}
    {mean : XF K} {r0 : Nat → K} (hD : PoolData b nt fm n f) (us : Nat → Node K) (order : List Nat) (hnd : order.Nodup) :
    ∀ (roots : List (Node K)) (held : List (Option (Node K))) (p : BoostPool K),
      PoolAt b nt fm n f lr mean r0 roots held p → (∀ w ∈ order, held[w]? = some (some (us w))) →
      ∃ (held' : List (Option (Node K))) (p' : BoostPool K), (order.map PoolStep.boost).foldlM (b.poolStep nt) p = some p' ∧
        PoolAt b nt fm n f lr mean r0 (roots ++ order.map us) held' p' ∧ held'.length = held.length ∧
        ∀ w, held'[w]? = if w ∈ order then some none else held[w]? := by
  induction order with
  | nil => intro roots held p hp _; exact ⟨held, p, rfl, by simpa using hp, rfl, by simp⟩
  | cons w order ih =>
    intro roots held p hp hw
    obtain ⟨hni, hnd⟩ := List.nodup_cons.1 hnd
    obtain ⟨p', e, hp'⟩ := pool_boost hD hp (hw w (by simp))
    obtain ⟨held', q, e', hq, hl, hget⟩ := ih hnd _ _ p' hp' (by
      intro x hx
      rw [List.getElem?_set_ne (by rintro rfl; exact hni hx)]
      exact hw x (by simp [hx]))
    refine ⟨held', q, ?_, ?_, by simpa using hl, ?_⟩
    · rw [List.map_cons, List.foldlM_cons, e]
      exact e'
    · rw [List.append_assoc] at hq
      exact hq
    · intro x
      rw [hget x]
      by_cases hx : x ∈ order
      · rw [if_pos hx, if_pos (by simp [hx])]
      · rw [if_neg hx]
        by_cases hxw : x = w
        · subst hxw
          rw [if_pos (by simp), List.getElem?_set_self (by
            obtain ⟨h, -⟩ := List.getElem?_eq_some_iff.1 (hw x (by simp))
            exact h)]
        · rw [if_neg (by simp [hx, hxw]), List.getElem?_set_ne (fun h => hxw h.symm)]

/-- A round of workers in step. -/
theorem pool_inStep {b : BoostSetup K τ} {nt : NumText K} {fm : FeatureMatrix K} {n : Nat} {f : NumFeature K} {lr : K}
    {mean : XF K} {r0 : Nat → K} (hD : PoolData b nt fm n f) {W : Nat} {bags : List (List Nat)} {order : List Nat}
    (hW : bags.length = W) (ho : order.Perm (List.range W)) (hbags : ∀ bag ∈ bags, bag.Perm (List.range n))
    {roots : List (Node K)} {p : BoostPool K} (hp : PoolAt b nt fm n f lr mean r0 roots (List.replicate W none) p) :
    ∃ (us : List (Node K)) (p' : BoostPool K), (inStep bags order).foldlM (b.poolStep nt) p = some p' ∧ us.length = W ∧
      PoolAt b nt fm n f lr mean r0 (roots ++ us) (List.replicate W none) p' ∧
      ∀ u ∈ us, ((List.range n).map fun i => (r0 i - lr * (roots.map fun r => rootValue b nt fm r i).sum) *
        rootValue b nt fm u i).sum = ((List.range n).map fun i => rootValue b nt fm u i ^ 2).sum := by
  obtain ⟨us, p', e, hl, hp', hu⟩ := pool_grows hD bags hbags [] p (by simpa [hW] using hp) nofun
  have hl : us.length = W := by simpa [hW] using hl
  have hin : ∀ w ∈ order, w < us.length := fun w hw => by rw [hl]; exact List.mem_range.1 (ho.mem_iff.1 hw)
  obtain ⟨held, q, e', hq, hlen, hget⟩ := pool_boosts hD (fun w => us[w]?.getD .nil) order (ho.nodup_iff.2 List.nodup_range) roots _ p' hp'
    (by
      intro w hw
      rw [List.getElem?_map, List.getElem?_eq_getElem (hin w hw)]
      rfl)
  have hh : held = List.replicate W none := by
    apply List.ext_getElem?
    intro w
    rw [hget w, List.getElem?_replicate]
    by_cases hw : w < W
    · rw [if_pos (ho.mem_iff.2 (List.mem_range.2 hw)), if_pos hw]
    · rw [if_neg (fun h => hw (List.mem_range.1 (ho.mem_iff.1 h))), if_neg hw]
      exact List.getElem?_eq_none (by simp [hl]; omega)
  rw [hh] at hq
  refine ⟨order.map fun w => us[w]?.getD .nil, q, ?_, by rw [List.length_map, ho.length_eq, List.length_range], hq, ?_⟩
  · unfold inStep
    rw [List.foldlM_append]
    have e : (bags.zipIdx.map fun x => PoolStep.grow x.2 x.1).foldlM (b.poolStep nt) p = some p' := e
    rw [e]
    exact e'
  · intro u hm
    obtain ⟨w, hw, rfl⟩ := List.mem_map.1 hm
    apply hu
    simp only [List.getElem?_eq_getElem (hin w hw), Option.getD_some]
    exact List.getElem_mem _

/-- The square of a sum. -/
theorem sq_sum_le (l : List K) : l.sum ^ 2 ≤ l.length * (l.map fun x => x ^ 2).sum := by
  induction l with
  | nil => simp
  | cons a l ih =>
    simp only [List.map_cons, List.sum_cons, List.length_cons, Nat.cast_add, Nat.cast_one]
    have hQ : 0 ≤ (l.map fun x => x ^ 2).sum := List.sum_nonneg fun x hx => by
      obtain ⟨y, -, rfl⟩ := List.mem_map.1 hx
      positivity
    rcases Nat.eq_zero_or_pos l.length with h | h
    · have : l = [] := List.eq_nil_of_length_eq_zero h
      subst this
      simp
    · have hk : (0 : K) < l.length := by exact_mod_cast h
      have : 0 ≤ (l.length : K) * (l.length * a ^ 2 + (l.map fun x => x ^ 2).sum - 2 * a * l.sum) := by
        nlinarith [sq_nonneg (l.length * a - l.sum)]
      have := nonneg_of_mul_nonneg_right this hk
      nlinarith

/-- Residuals from which several projections are taken at once. -/
theorem project_many (n : Nat) (r : Nat → K) {lr : K} (us : List (Nat → K)) (hlr : 0 ≤ lr) (hlr2 : lr * us.length ≤ 2)
    (ho : ∀ u ∈ us, ((List.range n).map fun i => r i * u i).sum = ((List.range n).map fun i => u i ^ 2).sum) :
    ((List.range n).map fun i => (r i - lr * (us.map fun u => u i).sum) ^ 2).sum ≤ ((List.range n).map fun i => r i ^ 2).sum := by
  have hexp : ∀ (l : List Nat) (S : Nat → K), (l.map fun i => (r i - lr * S i) ^ 2).sum = (l.map fun i => r i ^ 2).sum -
      2 * lr * (l.map fun i => r i * S i).sum + lr ^ 2 * (l.map fun i => S i ^ 2).sum := by
    intro l S
    induction l with
    | nil => simp
    | cons a l ih =>
      simp only [List.map_cons, List.sum_cons, ih]
      ring
  have hswap : ∀ (l : List Nat) (F : (Nat → K) → Nat → K), (l.map fun i => (us.map fun u => F u i).sum).sum =
      (us.map fun u => (l.map fun i => F u i).sum).sum := by
    intro l F
    induction l with
    | nil => simp
    | cons a l ih =>
      simp only [List.map_cons, List.sum_cons, ih]
      rw [List.sum_map_add]
  obtain ⟨Q, hQ⟩ : ∃ Q, Q = (us.map fun u => ((List.range n).map fun i => u i ^ 2).sum).sum := ⟨_, rfl⟩
  have h1 : ((List.range n).map fun i => r i * (us.map fun u => u i).sum).sum = Q := by
    have : ∀ i, r i * (us.map fun u => u i).sum = (us.map fun u => r i * u i).sum := fun i => by rw [List.sum_map_mul_left]
    simp only [this]
    rw [hswap (List.range n) fun u i => r i * u i, hQ]
    exact congrArg List.sum (List.map_congr_left ho)
  have h2 : ((List.range n).map fun i => (us.map fun u => u i).sum ^ 2).sum ≤ us.length * Q := by
    rw [hQ, ← hswap (List.range n) fun u i => u i ^ 2, ← List.sum_map_mul_left]
    apply List.sum_le_sum
    intro i _
    simpa [List.map_map, Function.comp_def] using sq_sum_le (us.map fun u => u i)
  have hQ0 : 0 ≤ Q := by
    rw [hQ]
    refine List.sum_nonneg fun x hx => ?_
    obtain ⟨u, -, rfl⟩ := List.mem_map.1 hx
    refine List.sum_nonneg fun x hx => ?_
    obtain ⟨i, -, rfl⟩ := List.mem_map.1 hx
    positivity
  rw [hexp (List.range n) fun i => (us.map fun u => u i).sum, h1]
  have h3 := mul_le_mul_of_nonneg_left h2 (sq_nonneg lr)
  have h4 := mul_nonneg (mul_nonneg hlr (sub_nonneg.2 hlr2)) hQ0
  nlinarith

/-- The first groups of a list of groups of one size. -/
theorem take_groups {α : Type} {W : Nat} (gs : List (List α)) (h : ∀ g ∈ gs, g.length = W) :
    ∀ k, gs.flatten.take (W * k) = (gs.take k).flatten := by
  induction gs with
  | nil => intro k; simp
  | cons g gs ih =>
    intro k
    cases k with
    | zero => simp
    | succ k =>
      have hg := h g (by simp)
      rw [List.flatten_cons, List.take_succ_cons, List.flatten_cons, ← ih (fun x hx => h x (by simp [hx])) k,
        List.take_append, Nat.mul_succ, hg, List.take_of_length_le (by omega)]
      congr 2
      omega

/-- Rounds of workers in step. -/
theorem pool_rounds {b : BoostSetup K τ} {nt : NumText K} {fm : FeatureMatrix K} {n : Nat} {f : NumFeature K} {lr : K}
    {mean : XF K} {r0 : Nat → K} (hD : PoolData b nt fm n f) {W : Nat} (rounds : List (List (List Nat) × List Nat))
    (hr : ∀ x ∈ rounds, x.1.length = W ∧ x.2.Perm (List.range W) ∧ ∀ bag ∈ x.1, bag.Perm (List.range n)) :
    ∀ (roots : List (Node K)) (p : BoostPool K), PoolAt b nt fm n f lr mean r0 roots (List.replicate W none) p →
      ∃ (gs : List (List (Node K))) (p' : BoostPool K), (rounds.flatMap fun x => inStep x.1 x.2).foldlM (b.poolStep nt) p = some p' ∧ gs.length = rounds.length ∧
        (∀ us ∈ gs, us.length = W) ∧ PoolAt b nt fm n f lr mean r0 (roots ++ gs.flatten) (List.replicate W none) p' ∧
        ∀ k (hk : k < gs.length), ∀ u ∈ gs[k], ((List.range n).map fun i =>
          (r0 i - lr * ((roots ++ (gs.take k).flatten).map fun r => rootValue b nt fm r i).sum) * rootValue b nt fm u i).sum =
          ((List.range n).map fun i => rootValue b nt fm u i ^ 2).sum := by
  induction rounds with
  | nil => intro roots p hp; exact ⟨[], p, rfl, rfl, nofun, by simpa using hp, fun k hk => absurd hk (Nat.not_lt_zero _)⟩
  | cons x rounds ih =>
    intro roots p hp
    obtain ⟨h1, h2, h3⟩ := hr x (by simp)
    obtain ⟨us, p', e, hl, hp', hu⟩ := pool_inStep hD h1 h2 h3 hp
    obtain ⟨gs, q, e', hlen, hall, hq, hk⟩ := ih (fun x hx => hr x (by simp [hx])) _ p' hp'
    refine ⟨us :: gs, q, ?_, by simp [hlen], ?_, ?_, ?_⟩
    · rw [List.flatMap_cons, List.foldlM_append, e]
      exact e'
    · intro g hg
      rcases List.mem_cons.1 hg with rfl | hg
      · exact hl
      · exact hall g hg
    · rw [List.append_assoc] at hq
      exact hq
    · intro k hk' u hm
      cases k with
      | zero => simpa using hu u hm
      | succ k =>
        have := hk k (by simpa using hk') u hm
        rw [List.append_assoc] at this
        exact this

/-- **C159.** `W` workers go in step: in every round each grows a tree from all cases, and then they boost with them, in any
order. If the learning rate times the number of workers is at most two, no round increases the squared error on the training
cases: `P k i` is what the trees of the first `k` rounds predict for case `i` (`applyforest -sum`). What is missing from C159: a
greater learning rate or more workers, for which it is false; workers that do not go in step; and bags. -/
theorem c159_error_partial {b : BoostSetup K τ} {nt : NumText K} {fm : FeatureMatrix K} {n : Nat} {f : NumFeature K}
    {y : Nat → K} (hD : PoolData b nt fm n f) (hn : n ≠ 0) (hl : f.numData.length = n)
    (hy : ∀ i < n, f.numData[i]? = some (.fin (y i))) {lr : K} (hlr : 0 ≤ lr) {sts : List (SplitState K)}
    (hlr2 : lr * sts.length ≤ 2) (hsts : ∀ st ∈ sts, WorkerFit b fm n st) {rounds : List (List (List Nat) × List Nat)}
    (hr : ∀ x ∈ rounds, x.1.length = sts.length ∧ x.2.Perm (List.range sts.length) ∧
      ∀ bag ∈ x.1, bag.Perm (List.range n)) :
    ∃ p, b.poolRun nt fm (.fin lr) sts (rounds.flatMap fun x => inStep x.1 x.2) = some p ∧
      p.out.length = sts.length * rounds.length ∧
      ∃ P : Nat → Nat → K,
        (∀ k, applySum (fun x => nt.parse x.toList) p.g.mean (p.out.take (sts.length * k)) fm =
          some ((List.range n).map fun i => .fin (P k i))) ∧
        ∀ k < rounds.length, squaredError n y (P (k + 1)) ≤ squaredError n y (P k) := by
  obtain ⟨prior, p0, e0, h0⟩ := pool_start hD hn hl hy lr hsts (rounds.flatMap fun x => inStep x.1 x.2)
  rw [List.map_const'] at h0
  obtain ⟨gs, p, e, hlen, hall, hp, hk⟩ := pool_rounds hD rounds hr [] p0 h0
  simp only [List.nil_append] at hp hk
  refine ⟨p, e0.trans e, ?_, fun k i => prior + lr * (((gs.take k).flatten).map fun r => rootValue b nt fm r i).sum, ?_, ?_⟩
  · rw [hp.out, recorded, List.length_map, List.length_flatten, List.map_congr_left hall, List.map_const', List.sum_replicate,
      hlen, smul_eq_mul, Nat.mul_comm]
  · intro k
    rw [hp.g_, hp.out, recorded, ← List.map_take, take_groups gs hall k]
    apply pool_predicts hD hlr prior
    intro r h
    obtain ⟨g, hg, hrg⟩ := List.mem_flatten.1 h
    exact hp.outFit r (List.mem_flatten.2 ⟨g, List.mem_of_mem_take hg, hrg⟩)
  · intro k hkb
    have hkg : k < gs.length := by omega
    have := project_many n (fun i => y i - prior - lr * (((gs.take k).flatten).map fun r => rootValue b nt fm r i).sum) (lr := lr)
      (gs[k].map fun r i => rootValue b nt fm r i) hlr (by
        rw [List.length_map, hall _ (List.getElem_mem hkg)]; exact hlr2) (by
        intro u hu
        obtain ⟨r, hrm, rfl⟩ := List.mem_map.1 hu
        exact hk k hkg r hrm)
    unfold squaredError
    have hA : ∀ i, y i - prior - lr * (((gs.take k).flatten).map fun r => rootValue b nt fm r i).sum -
        lr * ((gs[k].map fun r i => rootValue b nt fm r i).map fun u => u i).sum =
        y i - (prior + lr * (((gs.take (k + 1)).flatten).map fun r => rootValue b nt fm r i).sum) := by
      intro i
      rw [List.take_succ_eq_append_getElem hkg, List.flatten_append, List.map_append, List.sum_append]
      simp only [List.flatten_cons, List.flatten_nil, List.append_nil, List.map_map, Function.comp_def]
      ring
    have hB : ∀ i, y i - prior - lr * (((gs.take k).flatten).map fun r => rootValue b nt fm r i).sum =
        y i - (prior + lr * (((gs.take k).flatten).map fun r => rootValue b nt fm r i).sum) := fun i => by ring
    simp only [hA] at this
    simp only [hB] at this
    exact this

/-! ## Where it is false, and an example -/

/-- Boost, write the trees to a file, read the file, and take the error of its first `k` trees, for every `k`. -/
def exPoolErrors (W : Nat) (lr : ℚ) (y a b : List ℚ) (steps : List PoolStep) : Option (List ℚ) := do
  let fm := exBoostRunFM y a b
  let p ← (exBoostSetup 2 1).poolRun exFrac fm (.fin lr) (List.replicate W ⟨exWork.allocs, fun k => k, [1, 2], []⟩) steps
  let text ← growforestFile exFrac (fun s => s.left) false "N:y" (some p.g.mean) p.out
  let r ← readForest exFrac text
  let f ← r.forest
  (List.range (p.out.length + 1)).mapM fun k => do
    let q ← applySum (fun p => exFrac.parse p.toList) f.intercept (f.trees.take k) fm
    some (squaredError y.length (fun i => y[i]?.getD 0) fun i => match q[i]? with | some (.fin x) => x | _ => 0)

/-- **C159 is false of the code**: with three workers in step and a learning rate of one, every tree takes away the residuals that
the two others also take away. Every round of three trees makes the error four times what it was; the same number of workers
taking turns leaves none after the first tree. -/
theorem c159_diverges :
    exPoolErrors 3 1 [0, 0, 0, 8, 8] [0, 1, 2, 3, 4] [1, 1, 1, 1, 1] (inStep (List.replicate 3 [0, 1, 2, 3, 4]) [0, 1, 2] ++
        inStep (List.replicate 3 [0, 1, 2, 3, 4]) [2, 0, 1]) =
      some [384 / 5, 0, 384 / 5, 4 * (384 / 5), 0, 4 * (384 / 5), 4 * (4 * (384 / 5))] ∧
    exPoolErrors 3 1 [0, 0, 0, 8, 8] [0, 1, 2, 3, 4] [1, 1, 1, 1, 1] [.grow 0 [0, 1, 2, 3, 4], .boost 0,
        .grow 1 [0, 1, 2, 3, 4], .boost 1, .grow 2 [0, 1, 2, 3, 4], .boost 2] = some [384 / 5, 0, 0, 0] := by
  decide +kernel

/-- A target of five cases and two features. -/
theorem exPool_data : PoolData (exBoostSetup 1 1) exExact (exBoostRunFM [0, 0, 0, 8, 8] [0, 1, 2, 3, 4] [1, 3, 0, 2, 2]) 5
    ⟨[0, 0, 0, 8, 8].map XF.fin, List.replicate 5 false, "N:y", false⟩ := by
  have hfeat : ∀ F ∈ (exBoostRunFM [0, 0, 0, 8, 8] [0, 1, 2, 3, 4] [1, 3, 0, 2, 2]).data, FeatOk F (List.range 5) := by
    intro F hF
    simp only [exBoostRunFM, List.mem_cons, List.not_mem_nil, or_false] at hF
    rcases hF with rfl | rfl | rfl
    all_goals
      refine ⟨fun c hc => ?_, fun c hc => ?_, fun c hc => ?_⟩
      · fin_cases hc <;> exact ⟨by decide, by decide⟩
      · exfalso
        match c, hc with
        | 0, hc | 1, hc | 2, hc | 3, hc | 4, hc => cases hc
        | c + 5, hc => cases hc
      · have hc := List.mem_of_mem_filter hc
        fin_cases hc <;> exact ⟨_, rfl⟩
  exact ⟨fun x => (exExact_faithful x).2, rfl, rfl, rfl,
    ⟨fun f hf => (hfeat f hf).valid, fun f hf => (hfeat f hf).sound, by
      intro f hf
      simp only [exBoostRunFM, List.mem_cons, List.not_mem_nil, or_false] at hf
      rcases hf with rfl | rfl | rfl <;> trivial, by
      intro i f hf
      match i, hf with
      | 0, hf | 1, hf | 2, hf => cases hf; rfl
      | n + 3, hf => cases hf⟩, hfeat, rfl, rfl, by decide⟩

theorem exPool_fit : WorkerFit (exBoostSetup 1 1) (exBoostRunFM [0, 0, 0, 8, 8] [0, 1, 2, 3, 4] [1, 3, 0, 2, 2]) 5
    ⟨exWork.allocs, fun k => k, [1, 2], []⟩ := ⟨by decide, by decide, by decide, nofun⟩

/-- The hypotheses of `c159_account` are met: two workers, of which the second boosts with a tree that is two trees behind. -/
example : ∃ p, (exBoostSetup 1 1).poolRun exExact (exBoostRunFM [0, 0, 0, 8, 8] [0, 1, 2, 3, 4] [1, 3, 0, 2, 2]) (.fin 3)
      (List.replicate 2 ⟨exWork.allocs, fun k => k, [1, 2], []⟩)
      [.grow 1 [0, 1, 2, 3, 4], .grow 0 [4, 2, 0, 1, 3], .boost 0, .grow 0 [0, 1, 2, 3, 4], .boost 0, .boost 1] = some p ∧
    p.out.length = 3 := by
  obtain ⟨p, S, R, h, hl, -⟩ := c159_account exPool_data (by decide) rfl (y := fun i => if i < 3 then 0 else 8)
    (by intro i hi; interval_cases i <;> rfl) (lr := 3) (by norm_num)
    (sts := List.replicate 2 ⟨exWork.allocs, fun k => k, [1, 2], []⟩)
    (fun st hst => by rw [List.eq_of_mem_replicate hst]; exact exPool_fit)
    (steps := [.grow 1 [0, 1, 2, 3, 4], .grow 0 [4, 2, 0, 1, 3], .boost 0, .grow 0 [0, 1, 2, 3, 4], .boost 0, .boost 1])
    (by simp [Possible]) (by
      intro w bag h
      simp only [List.mem_cons, List.not_mem_nil, or_false, PoolStep.grow.injEq, reduceCtorEq, false_or] at h
      rcases h with ⟨-, rfl⟩ | ⟨-, rfl⟩ | ⟨-, rfl⟩ <;> decide)
  exact ⟨p, h, hl⟩

/-- The hypotheses of `c159_error_partial` are met: two workers, two rounds and a learning rate of one. -/
example : ∃ p, (exBoostSetup 1 1).poolRun exExact (exBoostRunFM [0, 0, 0, 8, 8] [0, 1, 2, 3, 4] [1, 3, 0, 2, 2]) (.fin 1)
      (List.replicate 2 ⟨exWork.allocs, fun k => k, [1, 2], []⟩)
      (inStep [[0, 1, 2, 3, 4], [4, 2, 0, 1, 3]] [1, 0] ++ inStep [[0, 1, 2, 3, 4], [4, 3, 2, 1, 0]] [0, 1]) = some p ∧
    p.out.length = 4 := by
  obtain ⟨p, h, hl, -⟩ := c159_error_partial exPool_data (by decide) rfl (y := fun i => if i < 3 then 0 else 8)
    (by intro i hi; interval_cases i <;> rfl) (lr := 1) (by norm_num)
    (sts := List.replicate 2 ⟨exWork.allocs, fun k => k, [1, 2], []⟩) (by simp)
    (fun st hst => by rw [List.eq_of_mem_replicate hst]; exact exPool_fit)
    (rounds := [([[0, 1, 2, 3, 4], [4, 2, 0, 1, 3]], [1, 0]), ([[0, 1, 2, 3, 4], [4, 3, 2, 1, 0]], [0, 1])]) (by decide)
  exact ⟨p, by simpa using h, hl⟩

end CloudForest
