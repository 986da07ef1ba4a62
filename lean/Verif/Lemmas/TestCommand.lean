import Verif.Model.TestCommand
import Verif.Lemmas.OobCommand
import Verif.Lemmas.Commands2
import Verif.Lemmas.ApplyWhole

/-!
# Lemmas on tests after growing
-/

set_option linter.unusedSectionVars false

namespace CloudForest
variable {K : Type} [Field K] [LinearOrder K] [IsStrictOrderedRing K] {τ : Type}

/-! ## Objects -/

theorem getLast_filter_eq {α β : Type} [BEq α] [LawfulBEq α] : ∀ (l : List (α × β)) {k : Nat} {x : α × β}, l[k]? = some x →
    (∀ m y, k < m → l[m]? = some y → y.1 ≠ x.1) → (l.filter fun y => y.1 == x.1).getLast? = some x := by
  intro l
  induction l with
  | nil => intro k x h; simp at h
  | cons z l ih =>
    intro k x h hlast
    cases k with
    | zero =>
      obtain rfl : z = x := by simpa using h
      have : l.filter (fun y => y.1 == z.1) = [] := by
        rw [List.filter_eq_nil_iff]
        intro y hy
        obtain ⟨m, hm⟩ := List.mem_iff_getElem?.1 hy
        simpa using hlast (m + 1) y (by omega) (by simpa using hm)
      simp [List.filter_cons, this]
    | succ k =>
      have h' := ih (k := k) (x := x) (by simpa using h) (fun m y hm hy => hlast (m + 1) y (by omega) (by simpa using hy))
      rw [List.filter_cons]
      split
      · rw [List.getLast?_cons, h']
        rfl
      · exact h'

theorem filterMap_places {α β : Type} (g : α → Option β) : ∀ (l : List α) (L : List β), l.length = L.length →
    (∀ (i : Nat) (x : α), l[i]? = some x → g x = L[i]?) → l.filterMap g = L := by
  intro l
  induction l with
  | nil =>
    intro L hl _
    cases L with
    | nil => rfl
    | cons _ _ => simp at hl
  | cons x l ih =>
    intro L hl h
    cases L with
    | nil => simp at hl
    | cons y L =>
      rw [List.filterMap_cons, h 0 x rfl]
      simp only [List.getElem?_cons_zero]
      rw [ih L (by simpa using hl) fun i z hz => by simpa using h (i + 1) z (by simpa using hz)]

/-- If the object of each tree is not used later, all trees are kept. -/
theorem kept_all {α : Type} {objects : List (Nat × Nat)} {trees : List α} (hlen : objects.length = trees.length) (hnd : objects.Nodup) :
    keptTrees objects trees = trees := by
  refine filterMap_places _ _ _ hlen fun i x hx => ?_
  have hl := (List.getElem?_eq_some_iff.1 hx).1
  have ht : trees[i]? = some (trees[i]'(by omega)) := List.getElem?_eq_getElem _
  have := getLast_filter_eq (objects.zip trees) (k := i) (x := (x, trees[i]'(by omega))) (by
      rw [List.getElem?_zip_eq_some]
      exact ⟨hx, ht⟩) (by
      rintro m ⟨y, t⟩ hm hy he
      rw [List.getElem?_zip_eq_some] at hy
      obtain rfl : y = x := he
      have hml := (List.getElem?_eq_some_iff.1 hy.1).1
      have := (List.Nodup.getElem_inj_iff hnd (hi := hl) (hj := hml)).1 (by
        rw [(List.getElem?_eq_some_iff.1 hx).2, (List.getElem?_eq_some_iff.1 hy.1).2])
      omega)
  simp only at this
  rw [this, ht]
  rfl

/-- If two places, `j` and a later one `k`, have the same object and all others have objects of their own, the tree at `k` is kept twice and
that at `j` is lost. -/
theorem kept_but_one {α : Type} {objects : List (Nat × Nat)} {trees : List α} (hlen : objects.length = trees.length) {j k : Nat} (hjk : j < k)
    {t : α} (hk : trees[k]? = some t) (hsame : objects[j]? = objects[k]?)
    (hnd : ∀ i m x, i < m → objects[i]? = some x → objects[m]? = some x → i = j ∧ m = k) : keptTrees objects trees = trees.set j t := by
  refine filterMap_places _ _ _ (by rw [List.length_set]; exact hlen) fun i x hx => ?_
  have hl := (List.getElem?_eq_some_iff.1 hx).1
  have hkl := (List.getElem?_eq_some_iff.1 hk).1
  by_cases hij : i = j
  · subst hij
    have := getLast_filter_eq (objects.zip trees) (k := k) (x := (x, t)) (by
        rw [List.getElem?_zip_eq_some]
        exact ⟨hsame ▸ hx, hk⟩) (by
        rintro m ⟨y, t'⟩ hm hy he
        rw [List.getElem?_zip_eq_some] at hy
        obtain rfl : y = x := he
        have := hnd k m y hm (hsame ▸ hx) hy.1
        omega)
    simp only at this
    rw [this, List.getElem?_set_self (by omega)]
    rfl
  · have ht : trees[i]? = some (trees[i]'(by omega)) := List.getElem?_eq_getElem _
    have := getLast_filter_eq (objects.zip trees) (k := i) (x := (x, trees[i]'(by omega))) (by
        rw [List.getElem?_zip_eq_some]
        exact ⟨hx, ht⟩) (by
        rintro m ⟨y, t'⟩ hm hy he
        rw [List.getElem?_zip_eq_some] at hy
        obtain rfl : y = x := he
        have := hnd i m y hm hx hy.1
        omega)
    simp only at this
    rw [this, List.getElem?_set_ne (Ne.symm hij), ht]
    rfl

/-- When no tree is started any more, each worker records one tree. -/
theorem objects_end (nTrees : Nat) : ∀ (left started : Nat) (pick : Nat → Nat) (ws : List (Nat × Nat)), nTrees ≤ started → ws.length ≤ left →
    (treeObjects nTrees left started pick ws).Perm ws := by
  intro left
  induction left with
  | zero =>
    intro started pick ws _ hl
    cases ws with
    | nil => exact .nil
    | cons w ws => simp at hl
  | succ left ih =>
    intro started pick ws hst hl
    cases ws with
    | nil => exact .nil
    | cons w ws =>
      rw [treeObjects, if_neg (show ¬ started < nTrees by omega)]
      have hi : pick 0 % (w :: ws).length < (w :: ws).length := Nat.mod_lt _ (by simp)
      rw [List.getD_eq_getElem _ _ hi]
      have h1 := ih started (fun k => pick (k + 1)) ((w :: ws).eraseIdx (pick 0 % (w :: ws).length)) hst (by
        rw [List.length_eraseIdx_of_lt hi]
        simp only [List.length_cons] at hl ⊢
        omega)
      exact (h1.cons _).trans (List.getElem_cons_eraseIdx_perm hi)

theorem set_firsts {ws : List (Nat × Nat)} {i : Nat} (hi : i < ws.length) (n : Nat) :
    (ws.set i (ws[i].1, n)).map Prod.fst = ws.map Prod.fst := by
  rw [List.map_set]
  have : ws[i].1 = (ws.map Prod.fst)[i]'(by simpa using hi) := by simp
  simp only [this]
  exact List.set_getElem_self _

/-- While trees are started, exactly one object is used twice. -/
theorem objects_twice (nTrees : Nat) : ∀ (left started : Nat) (pick : Nat → Nat) (ws : List (Nat × Nat)), started < nTrees → ws ≠ [] →
    (ws.map Prod.fst).Nodup → ws.length + (nTrees - started) ≤ left →
    (treeObjects nTrees left started pick ws).length = ws.length + (nTrees - started) ∧
    (∀ y ∈ treeObjects nTrees left started pick ws, ∃ w ∈ ws, w.1 = y.1 ∧ w.2 ≤ y.2) ∧
    ∃ j k : Nat, j < k ∧ k < ws.length + (nTrees - started) ∧
      (treeObjects nTrees left started pick ws)[j]? = (treeObjects nTrees left started pick ws)[k]? ∧
      ∀ (i m : Nat) (x : Nat × Nat), i < m → (treeObjects nTrees left started pick ws)[i]? = some x →
        (treeObjects nTrees left started pick ws)[m]? = some x → i = j ∧ m = k := by
  intro left
  induction left with
  | zero => intro started pick ws h1 h2 h3 h4; omega
  | succ left ih =>
    intro started pick ws hst hne hnd hl
    cases ws with
    | nil => exact absurd rfl hne
    | cons w ws =>
      rw [treeObjects, if_pos hst]
      generalize hws : w :: ws = l at *
      have hi : pick 0 % l.length < l.length := Nat.mod_lt _ (by rw [← hws]; simp)
      generalize hidx : pick 0 % l.length = i at *
      simp only [List.getD_eq_getElem _ _ hi]
      have hmem : l[i] ∈ l := List.getElem_mem _
      by_cases h1 : started + 1 < nTrees
      · rw [if_pos h1]
        have hfst := set_firsts hi (l[i].2 + 1)
        obtain ⟨e1, e2, j, k, e3, e4, e5, e6⟩ := ih (started + 1) (fun k => pick (k + 1)) (l.set i (l[i].1, l[i].2 + 1)) h1
          (by intro h; have := congrArg List.length h; rw [List.length_set, List.length_nil] at this; omega) (by rw [hfst]; exact hnd)
          (by rw [List.length_set]; omega)
        rw [List.length_set] at e1 e4
        have hnext : (l[i].1, l[i].2 + 1) ∈ l.set i (l[i].1, l[i].2 + 1) := List.mem_set hi _
        have hlater : ∀ v ∈ l.set i (l[i].1, l[i].2 + 1), v.1 = l[i].1 → v.2 = l[i].2 + 1 := by
          intro v hv hv1
          have : v = (l[i].1, l[i].2 + 1) := List.inj_on_of_nodup_map (by rw [hfst]; exact hnd) hv hnext hv1
          rw [this]
        have hnot : l[i] ∉ treeObjects nTrees left (started + 1) (fun k => pick (k + 1)) (l.set i (l[i].1, l[i].2 + 1)) := by
          intro h
          obtain ⟨v, hv, hv1, hv2⟩ := e2 _ h
          have := hlater v hv hv1
          omega
        refine ⟨by rw [List.length_cons, e1]; omega, ?_, j + 1, k + 1, by omega, by omega, by simpa using e5, ?_⟩
        · intro y hy
          rcases List.mem_cons.1 hy with rfl | hy
          · exact ⟨_, hmem, rfl, le_refl _⟩
          · obtain ⟨v, hv, hv1, hv2⟩ := e2 y hy
            rcases List.mem_or_eq_of_mem_set hv with hv | rfl
            · exact ⟨v, hv, hv1, hv2⟩
            · exact ⟨_, hmem, hv1, by simp only at hv2; omega⟩
        · intro i' m x him hx hy
          cases m with
          | zero => omega
          | succ m =>
            cases i' with
            | zero =>
              simp only [List.getElem?_cons_zero, Option.some.injEq] at hx
              subst hx
              exact absurd (List.mem_of_getElem? (by simpa using hy)) hnot
            | succ i' =>
              have := e6 i' m x (by omega) (by simpa using hx) (by simpa using hy)
              omega
      · rw [if_neg h1, List.set_getElem_self]
        have hp := objects_end nTrees left (started + 1) (fun k => pick (k + 1)) l (by omega) (by omega)
        generalize treeObjects nTrees left (started + 1) (fun k => pick (k + 1)) l = rest at *
        have hrnd : rest.Nodup := hp.nodup_iff.2 (List.Nodup.of_map _ hnd)
        obtain ⟨k, hk⟩ := List.mem_iff_getElem?.1 (hp.mem_iff.2 hmem)
        have hkl := (List.getElem?_eq_some_iff.1 hk).1
        have hinj : ∀ (i m : Nat) (x : Nat × Nat), rest[i]? = some x → rest[m]? = some x → i = m := by
          intro i m x h1 h2
          exact (List.Nodup.getElem_inj_iff hrnd (hi := (List.getElem?_eq_some_iff.1 h1).1) (hj := (List.getElem?_eq_some_iff.1 h2).1)).1 (by
            rw [(List.getElem?_eq_some_iff.1 h1).2, (List.getElem?_eq_some_iff.1 h2).2])
        have hlen := hp.length_eq
        refine ⟨by rw [List.length_cons, hlen]; omega, ?_, 0, k + 1, by omega, by omega, by simpa using hk.symm, ?_⟩
        · intro y hy
          rcases List.mem_cons.1 hy with rfl | hy
          · exact ⟨_, hmem, rfl, le_refl _⟩
          · exact ⟨y, hp.mem_iff.1 hy, rfl, le_refl _⟩
        · intro i' m x him hx hy
          cases m with
          | zero => omega
          | succ m =>
            cases i' with
            | zero =>
              simp only [List.getElem?_cons_zero, Option.some.injEq] at hx
              subst hx
              exact ⟨rfl, by rw [hinj m k _ (by simpa using hy) hk]⟩
            | succ i' =>
              have := hinj i' m x (by simpa using hx) (by simpa using hy)
              omega

/-- Where each worker grows one tree all trees are kept. -/
theorem kept_each {α : Type} {nTrees nCores : Nat} (h : nTrees ≤ nCores) (pick : Nat → Nat) {trees : List α} (hl : trees.length = max nCores nTrees) :
    keptTrees (treeObjects nTrees (max nCores nTrees) nCores pick ((List.range nCores).map fun w => (w, 0))) trees = trees := by
  have hp := objects_end nTrees (max nCores nTrees) nCores pick ((List.range nCores).map fun w => (w, 0)) h (by
    rw [List.length_map, List.length_range]; omega)
  refine kept_all ?_ ?_
  · rw [hp.length_eq, List.length_map, List.length_range, hl]
    omega
  · refine hp.nodup_iff.2 (List.Nodup.map (fun x y h => ?_) List.nodup_range)
    exact (Prod.mk.inj h).1

/-- Where there are more trees than workers, one of them is lost and a later one is kept twice. -/
theorem kept_twice {α : Type} {nTrees nCores : Nat} (hc : 1 ≤ nCores) (h : nCores < nTrees) (pick : Nat → Nat) {trees : List α}
    (hl : trees.length = max nCores nTrees) :
    ∃ (j k : Nat) (t : α), j < k ∧ trees[k]? = some t ∧
      keptTrees (treeObjects nTrees (max nCores nTrees) nCores pick ((List.range nCores).map fun w => (w, 0))) trees = trees.set j t := by
  have hlw : ((List.range nCores).map fun w => (w, 0)).length = nCores := by rw [List.length_map, List.length_range]
  obtain ⟨e1, -, j, k, e3, e4, e5, e6⟩ := objects_twice nTrees (max nCores nTrees) nCores pick ((List.range nCores).map fun w => (w, 0)) h
    (by intro h0; rw [h0] at hlw; simp at hlw; omega) (by
      rw [List.map_map]
      exact List.Nodup.map (fun x y h => h) List.nodup_range) (by omega)
  rw [hlw] at e1 e4
  have hk : k < trees.length := by omega
  exact ⟨j, k, trees[k], e3, List.getElem?_eq_getElem hk, kept_but_one (by omega) e3 (List.getElem?_eq_getElem hk) e5 e6⟩

/-! ## Votes -/

/-- The file of the trees of a run, read again. -/
theorem run_out_read {r : RunSetup K τ} {L : TargetLaws r.T r.all} {good : τ → Prop} {cans : List Nat}
    (hr : r.Ok L good cans) (hv : ¬ (r.o.vet = true ∧ r.o.evaloob = true)) (hsm : r.splitmissing = false) {nCores nCats : Nat}
    (hcores : 1 ≤ nCores) (hok : L.Ok (newAllocs nCats)) {own global : Nat → Rng} {pick : Nat → Nat} {nt : NumText K}
    (hnt : ∀ x, nt.Faithful x)
    (ht : ∀ f ∈ r.fm.data, f.Tidy) (hp : ∀ cs, Plain (r.findPredicted cs).toList) (htarget : Plain r.target.toList)
    (ord : Splitter K → List String) (hord : ∀ s : Splitter K, (ord s).Perm s.left) (progress : Bool) {out : List (Tree K × List Nat)}
    (hrun : r.runCores r.grower nCores (nKnown r.missing) nCats cans own global pick = some out) :
    out.length = max nCores r.nTrees ∧ ∃ file forest, growforestFile nt ord progress r.target none (out.map (·.1)) = some file ∧
      readForest nt file = some ⟨some forest, .ok, []⟩ ∧ forest.target = r.target ∧
      (∀ o, applyForest nt o forest r.fm = applyForest nt o (cleaned r.target out) r.fm) ∧
      ∀ fm2 o, applyForest nt o forest fm2 = applyForest nt o (cleaned r.target out).named fm2 := by
  obtain ⟨k1, k2, k3⟩ := runCores_ok hr (nCores := nCores) hok own global pick
  rw [nKnown_eq, k3 hv] at hrun
  obtain ⟨hl, hx⟩ := k2 out hrun
  rw [if_neg (by omega)] at hl
  obtain ⟨text, f', b1, b2, b3, b4, -, b6, b7⟩ := recorded_file hr hsm hnt ht hp htarget ord hord progress (out := out) (by
    rintro rfl
    simp at hl
    omega) hx
  exact ⟨hl, text, f', b1, b2, b3, b6, b7⟩

theorem cleaned_new (target : String) {out : List (Tree K × List Nat)} (h : ∀ x ∈ out, prune x.1.root = x.1.root) :
    (cleaned target out).trees = out.map (·.1) := by
  refine List.map_congr_left fun x hx => ?_
  rw [h x hx]

/-- The test by growforest and the votes in applyforest. -/
theorem test_applied {nt : NumText K} {o : ApplyOptions} {text file : Text} {fm : FeatureMatrix K} (hp : parseAFM nt text = some fm) {target : String}
    {test : Option Text} (htest : ∀ text2, test = some text2 → ∃ fm2 : FeatureMatrix K, parseAFM nt text2 = some fm2 ∧ (fm2.map target).isSome = true)
    {nCats : Nat} {out : List (Tree K × List Nat)} (hnew : ∀ x ∈ out, prune x.1.root = x.1.root) {forest : Forest K}
    (hread : readForest nt file = some ⟨some forest, .ok, []⟩)
    (h1 : ∀ o, applyForest nt o forest fm = applyForest nt o (cleaned target out) fm)
    (h2 : ∀ fm2 o, applyForest nt o forest fm2 = applyForest nt o (cleaned target out).named fm2)
    (hbox : ∀ n, chooseBox (K := K) o target n = oobBox nCats n) :
    testBox nt fm target test nCats (out.map (·.1)) = (applyCommand nt o file (test.getD text)).map (·.2) := by
  have key : ∀ (fm2 : FeatureMatrix K) (F : Forest K), F.target = target → applyForest nt o forest fm2 = applyForest nt o F fm2 →
      parseAFM nt (test.getD text) = some fm2 → (applyCommand nt o file (test.getD text)).map (·.2) =
      (fm2.data[0]?).bind fun first => testVotes nt fm2 (oobBox nCats first.length) F.trees := by
    intro fm2 F hF ha hp2
    simp only [applyCommand, hp2, hread, ha, Option.bind_eq_bind, Option.bind_some]
    unfold applyForest testVotes
    simp only [Option.bind_eq_bind, hF, hbox]
    cases fm2.data[0]? with
    | none => rfl
    | some f =>
      simp only [Option.bind_some]
      rw [Option.map_bind]
      exact Option.bind_fun_some _
  cases test with
  | none =>
    rw [key fm (cleaned target out) rfl (h1 o) hp, cleaned_new target hnew]
    rfl
  | some text2 =>
    obtain ⟨fm2, hp2, hi⟩ := htest text2 rfl
    obtain ⟨i, hi⟩ := Option.isSome_iff_exists.1 hi
    rw [key fm2 (cleaned target out).named rfl (h2 fm2 o) hp2]
    simp only [testBox, hp2, hi, Option.bind_eq_bind, Option.bind_some]
    rw [show (cleaned target out).named.trees = (cleaned target out).trees.map fun t => { t with root := t.root.stripCodes } from rfl,
      cleaned_new target hnew]

/-- The error that both print. -/
theorem test_error {nt : NumText K} {o : ApplyOptions} {file text2 : Text} {target : String} {forest : Forest K} {bb : Box K}
    (ha : applyCommand nt o file text2 = some (forest, bb)) (ht : forest.target = target) {fm2 : FeatureMatrix K} (hp2 : parseAFM nt text2 = some fm2)
    (hi : (fm2.map target).isSome = true) {counted shown : Nat → Option String} {err : Option (XF K)} {lines : List (String × String × String)}
    (hw : applyWhole nt o file text2 counted shown = some (err, lines)) :
    ∃ e, err = some e ∧ printedTestError nt target text2 bb counted = some e := by
  obtain ⟨i, hi⟩ := Option.isSome_iff_exists.1 hi
  unfold applyWhole at hw
  simp only [hp2, ha, ht, hi, Option.bind_eq_bind, Option.bind_some] at hw
  unfold printedTestError
  simp only [hp2, hi, Option.bind_eq_bind, Option.bind_some]
  cases hd : fm2.data[i]? with
  | none => rw [hd] at hw; cases hw
  | some f =>
    rw [hd] at hw
    simp only [Option.map_some, Option.bind_some] at hw ⊢
    cases he : bb.error counted f with
    | none => rw [he] at hw; cases hw
    | some e =>
      rw [he] at hw
      simp only [Option.map_some, Option.bind_some] at hw
      obtain ⟨ls, -, h⟩ := Option.bind_eq_some_iff.1 hw
      cases h
      exact ⟨e, rfl, rfl⟩

/-- There is an object for each recorded tree. -/
theorem turns_objects (r : RunSetup K τ) (g : Grower K (SplitState K)) : ∀ (left started : Nat) (pick : Nat → Nat)
    (running : List (WorkerState K)) (ws : List (Nat × Nat)) (out : List (Tree K × List Nat)), running.length = ws.length →
    r.turns g left started pick running = some out → out.length = (treeObjects r.nTrees left started pick ws).length := by
  intro left
  induction left with
  | zero =>
    intro started pick running ws out hl h
    cases running with
    | nil =>
      cases ws with
      | nil => rw [RunSetup.turns] at h; cases h; rfl
      | cons _ _ => simp at hl
    | cons w ws => rw [RunSetup.turns] at h; cases h
  | succ left ih =>
    intro started pick running ws out hl h
    cases running with
    | nil =>
      cases ws with
      | nil => rw [RunSetup.turns] at h; cases h; rfl
      | cons _ _ => simp at hl
    | cons w' running =>
      cases ws with
      | nil => simp at hl
      | cons w ws =>
        rw [RunSetup.turns] at h
        simp only [Option.bind_eq_bind] at h
        obtain ⟨s, h1, h⟩ := Option.bind_eq_some_iff.1 h
        obtain ⟨t, h2, h⟩ := Option.bind_eq_some_iff.1 h
        rw [treeObjects]
        by_cases hst : started < r.nTrees
        · rw [if_pos hst] at h
          obtain ⟨rest, h3, h⟩ := Option.bind_eq_some_iff.1 h
          cases h
          simp only [if_pos hst]
          rw [List.length_cons, List.length_cons]
          exact congrArg (· + 1) (ih _ _ _ _ _ (by rw [List.length_set, List.length_set, hl]) h3)
        · rw [if_neg hst] at h
          obtain ⟨rest, h3, h⟩ := Option.bind_eq_some_iff.1 h
          cases h
          simp only [if_neg hst]
          rw [List.length_cons, List.length_cons, ih _ _ _ ((w :: ws).eraseIdx (pick 0 % (w :: ws).length)) _
            (by rw [List.length_eraseIdx, List.length_eraseIdx, hl]) h3]

theorem mapM_opt_length {α β : Type} (g : α → Option β) : ∀ (l : List α) (l' : List β), l.mapM g = some l' → l'.length = l.length := by
  intro l
  induction l with
  | nil => intro l' h; cases h; rfl
  | cons x l ih =>
    intro l' h
    rw [List.mapM_cons] at h
    obtain ⟨y, -, h⟩ := Option.bind_eq_some_iff.1 h
    obtain ⟨ys, h2, h⟩ := Option.bind_eq_some_iff.1 h
    cases h
    rw [List.length_cons, List.length_cons, ih ys h2]

/-- With more trees than workers as many trees are recorded as asked for. -/
theorem runCores_length {r : RunSetup K τ} {g : Grower K (SplitState K)} {nCores nNonMissing nCats : Nat} {cans : List Nat}
    {own global : Nat → Rng} {pick : Nat → Nat} {out : List (Tree K × List Nat)} (hc : 1 ≤ nCores) (hn : nCores < r.nTrees)
    (h : r.runCores g nCores nNonMissing nCats cans own global pick = some out) : out.length = max nCores r.nTrees := by
  unfold RunSetup.runCores at h
  obtain ⟨ws, h1, h⟩ := Option.bind_eq_some_iff.1 h
  have hw := mapM_opt_length _ _ _ h1
  rw [List.length_range] at hw
  have hlw : ((List.range nCores).map fun w => (w, 0)).length = nCores := by rw [List.length_map, List.length_range]
  rw [turns_objects r g _ _ _ _ ((List.range nCores).map fun w => (w, 0)) out (by rw [hw, hlw]) h]
  rw [(objects_twice r.nTrees (max nCores r.nTrees) nCores pick ((List.range nCores).map fun w => (w, 0)) hn
    (by intro h0; rw [h0] at hlw; simp at hlw; omega) (by
      rw [List.map_map]
      exact List.Nodup.map (fun x y h => h) List.nodup_range) (by omega)).1]
  omega

end CloudForest
