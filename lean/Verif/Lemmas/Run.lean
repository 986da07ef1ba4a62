import Verif.Spec.Run
import Verif.Lemmas.Scratch
import Verif.Props.Sampling
import Verif.Props.Oob
import Verif.Props.Saved

/-!
# Runs of growforest: lemmas
-/

set_option linter.unusedSectionVars false

namespace CloudForest
variable {K : Type} [Field K] [LinearOrder K] [IsStrictOrderedRing K] {τ : Type}

theorem nodup_le_of_lt {l : List Nat} {n : Nat} (h : l.Nodup) (hl : ∀ c ∈ l, c < n) : l.length ≤ n := by
  have := (List.subperm_of_subset h (fun c hc => List.mem_range.2 (hl c hc))).length_le
  simpa using this

/-- What is drawn: not more cases than asked for, with bagging as many, all with known target, without bagging each once. -/
theorem drawBag_sound {how : Bagging} {missing : List Bool} (hf : how.Fit missing) {nSamples fuel : Nat}
    {cases : List Nat} (hc : how.CasesOk missing cases) {rng rng' : Rng} {bag : List Nat}
    (h : drawBag how missing nSamples fuel cases rng = some (bag, rng')) :
    (bag.length ≤ nSamples ∧ (how.isNobag = false → bag.length = nSamples)) ∧ (∀ c ∈ bag, missing[c]? = some false) ∧ (how.isNobag = true → bag.Nodup) := by
  cases how with
  | plain =>
    obtain ⟨h1, h2⟩ := bagLoop_sound missing nSamples fuel [] rng bag rng' (by simp) (by simp) h
    exact ⟨⟨h1.le, fun _ => h1⟩, h2, fun h => by cases h⟩
  | balanced b =>
    obtain ⟨f, hk, rfl, hs, h0, hne⟩ := hf
    obtain ⟨s, e, h1, -⟩ := c20_balanced f hk h0 hne
    rw [hs] at e
    cases e
    obtain ⟨xs, r, e, hl, hx⟩ := h1 nSamples rng
    have h : balancedSample b nSamples rng = some (bag, rng') := h
    rw [h] at e
    cases e
    refine ⟨⟨hl.le, fun _ => hl⟩, fun c hc => ?_, fun h => by cases h⟩
    obtain ⟨j, hj, e⟩ := List.getElem_of_mem hc
    obtain ⟨c', e', hm⟩ := hx j (by omega)
    rw [List.getElem?_eq_getElem hj, e] at e'
    cases e'
    simp only [CatFeature.classCases, List.mem_filter, decide_eq_true_eq] at hm
    exact hm.2.1
  | secondary s =>
    obtain ⟨f, g, hk, rfl, hg, hl, hs, h0, h1, hne⟩ := hf
    obtain ⟨s', e, h1⟩ := c50_secondary_partial f g hk hg hl h0 h1 hne
    rw [hs] at e
    cases e
    obtain ⟨xs, r, e, hl, hx⟩ := h1 nSamples rng
    have h : s.sample nSamples rng = some (bag, rng') := h
    rw [h] at e
    cases e
    refine ⟨⟨hl.le, fun _ => hl⟩, fun c hc => ?_, fun h => by cases h⟩
    obtain ⟨j, hj, e⟩ := List.getElem_of_mem hc
    obtain ⟨c', b, e', hm, -⟩ := hx j (by omega)
    rw [List.getElem?_eq_getElem hj, e] at e'
    cases e'
    simp only [bothCases, List.mem_filter, decide_eq_true_eq] at hm
    exact hm.2.1.1
  | nobag =>
    have h : nobagTree (missing[·]?) missing.length nSamples cases rng = some (bag, rng') := h
    by_cases hn : nSamples = missing.length
    · rw [nobagTree, if_neg (by simpa using hn)] at h
      cases h
      obtain ⟨h1, h2⟩ := hc rfl
      refine ⟨⟨?_, fun h => by cases h⟩, h2, fun _ => h1⟩
      rw [hn]
      exact nodup_le_of_lt h1 fun c hc => (List.getElem?_eq_some_iff.1 (h2 c hc)).1
    · obtain ⟨out, r, e, h1, h2, h3⟩ := c103_some_partial missing rng nSamples hn cases
      rw [h] at e
      cases e
      exact ⟨⟨by omega, fun h => by cases h⟩, h3, fun _ => h2⟩

/-- Drawing fails only if plain bagging runs out of draws. -/
theorem drawBag_total {how : Bagging} {missing : List Bool} (hf : how.Fit missing) {nSamples fuel : Nat}
    {cases : List Nat} {rng : Rng} (h : drawBag how missing nSamples fuel cases rng = none) :
    ∃ rng, how = .plain ∧ bagLoop (missing[·]?) missing.length nSamples fuel [] rng = none := by
  cases how with
  | plain => exact ⟨rng, rfl, h⟩
  | balanced b =>
    obtain ⟨f, hk, rfl, hs, h0, hne⟩ := hf
    obtain ⟨s, e, h1, -⟩ := c20_balanced f hk h0 hne
    rw [hs] at e
    cases e
    obtain ⟨xs, r, e, -⟩ := h1 nSamples rng
    have h : balancedSample b nSamples rng = none := h
    rw [h] at e
    cases e
  | secondary s =>
    obtain ⟨f, g, hk, rfl, hg, hl, hs, h0, h1, hne⟩ := hf
    obtain ⟨s', e, h1⟩ := c50_secondary_partial f g hk hg hl h0 h1 hne
    rw [hs] at e
    cases e
    obtain ⟨xs, r, e, -⟩ := h1 nSamples rng
    have h : s.sample nSamples rng = none := h
    rw [h] at e
    cases e
  | nobag =>
    have h : nobagTree (missing[·]?) missing.length nSamples cases rng = none := h
    by_cases hn : nSamples = missing.length
    · rw [nobagTree, if_neg (by simpa using hn)] at h
      cases h
    · obtain ⟨out, r, e, -⟩ := c103_some_partial missing rng nSamples hn cases
      rw [h] at e
      cases e

/-! ## Trees grown again -/

theorem grow_again (g : Grower K σ) (fm : FeatureMatrix K) :
    ∀ (fuel : Nat) (old : Node K) (st : σ) (cs : List Nat) (d nc : Nat) (n : Node K) (st' : σ),
      grow g fm fuel old st cs d nc = some (n, st') →
      n ≠ .nil ∧ (g.splitmissing = false → noMissing old → noMissing n) := by
  intro fuel
  induction fuel with
  | zero => intro old st cs d nc n st' h; simp [grow] at h
  | succ fuel ih =>
    intro old st cs d nc n st' h
    cases old with
    | nil => simp [grow] at h
    | mk coded fi0 l r m p s =>
      rw [grow] at h
      split at h
      · simp only [Option.bind_eq_bind, Option.bind_eq_some_iff] at h
        obtain ⟨⟨st1, res⟩, hb, h⟩ := h
        cases hres : res.split with
        | none =>
          rw [hres] at h
          cases h
          exact ⟨by simp, fun _ h => h⟩
        | some code =>
          simp only [hres, Option.bind_eq_some_iff] at h
          obtain ⟨f, hf, spl, hd, ⟨cs', li, ri⟩, hp, h⟩ := h
          have hch : g.splitmissing = false → noMissing (.mk coded fi0 l r m p s) →
              (growChildren g.splitmissing l r m).2.2 = .nil ∧ noMissing (growChildren g.splitmissing l r m).1 ∧
                noMissing (growChildren g.splitmissing l r m).2.1 := by
            rintro hsm ⟨rfl, hl, hr⟩
            unfold growChildren
            rw [hsm]
            split
            · exact ⟨rfl, ⟨rfl, trivial, trivial⟩, rfl, trivial, trivial⟩
            · exact ⟨rfl, hl, hr⟩
          revert hch h
          generalize growChildren g.splitmissing l r m = q
          obtain ⟨l', r', m'⟩ := q
          intro h hch
          simp only [Option.bind_eq_some_iff] at h
          obtain ⟨⟨nl, s1⟩, h1, ⟨nr, s2⟩, h2, h⟩ := h
          have a1 := (ih _ _ _ _ _ _ _ h1).2
          have a2 := (ih _ _ _ _ _ _ _ h2).2
          split at h
          · simp only [Option.bind_eq_some_iff] at h
            obtain ⟨⟨nm, s3⟩, h3, h⟩ := h
            cases h
            refine ⟨by simp, fun hsm ho => ?_⟩
            obtain ⟨rfl, -, -⟩ := hch hsm ho
            rename_i hc
            exact absurd hc.2 (by simp [Node.isNil])
          · cases h
            refine ⟨by simp, fun hsm ho => ?_⟩
            obtain ⟨rfl, b1, b2⟩ := hch hsm ho
            exact ⟨rfl, a1 hsm b1, a2 hsm b2⟩
      · cases h
        exact ⟨by simp, fun _ h => h⟩

theorem prune_isNil (n : Node K) : (prune n).isNil = n.isNil := by
  cases n with
  | nil => rfl
  | mk coded fi l r m p s =>
    unfold prune
    split <;> rfl

/-- What hangs below leaves is not written. -/
theorem writeNodes_prune (nt : NumText K) (ord : Splitter K → List String) (n : Node K) :
    ∀ path, writeNodes nt ord (prune n) path = writeNodes nt ord n path := by
  induction n with
  | nil => intro path; rfl
  | mk coded fi l r m p s ihl ihr ihm =>
    intro path
    unfold prune
    split
    · rw [writeNodes, writeNodes, prune_isNil, prune_isNil, prune_isNil, ihl, ihr, ihr]
    · rename_i h
      have hs : s = none := by
        cases s with
        | none => rfl
        | some s => simp [splits] at h
      subst hs
      rfl

end CloudForest
