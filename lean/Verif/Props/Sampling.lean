import Verif.Lemmas.Sampling
import Verif.Spec.Feature

/-!
# Properties C19 and C20: sampling
-/

set_option linter.unusedSectionVars false

namespace CloudForest

/-! ## C19 -/

/-- **C19.** `SampleFirstN` returns for every random stream. It only rearranges the deck, leaves
the last `nconstants` cards where they are, and the samples are a prefix of the deck: at most
`n`, drawn without repetition from the cards that are not known to be constant. Without
constants there are exactly `n` of them, or the whole deck. -/
theorem c19_sampleFirstN (deck : List Nat) (n nconstants : Nat) (hc : nconstants ≤ deck.length)
    (rng : Rng) :
    ∃ deck' samples rng', sampleFirstN deck n nconstants rng = some (deck', samples, rng') ∧
      deck'.Perm deck ∧
      deck'.drop (deck.length - nconstants) = deck.drop (deck.length - nconstants) ∧
      samples <+: deck' ∧ samples.length ≤ n ∧
      samples.Subperm (deck.take (deck.length - nconstants)) ∧
      (nconstants = 0 → samples.length = min n deck.length) := by
  obtain ⟨c, l, r, e, hp, hd, h1, h2, h3⟩ :=
    sampleLoop_ok deck n (deck.length - nconstants) (by omega) n 0 (by omega) deck 0 0 rng
      (List.Perm.refl _) rfl rfl (by omega) (by omega)
  have hl := hp.length_eq
  refine ⟨c, c.take l, r, by simp [sampleFirstN, e], hp, hd, List.take_prefix _ _, ?_, ?_, ?_⟩
  · rw [List.length_take]; omega
  · have hpt : (c.take (deck.length - nconstants)).Perm (deck.take (deck.length - nconstants)) := by
      rw [← List.perm_append_right_iff (c.drop (deck.length - nconstants)),
        List.take_append_drop, hd, List.take_append_drop]
      exact hp
    refine List.Subperm.trans ?_ hpt.subperm
    exact (List.take_sublist_take_left h2).subperm
  · intro h0
    subst h0
    rw [List.length_take, h3 (by omega) rfl]
    omega

/-- **C19, the draw is not biased towards anything:** without constants every selection of `n`
cards, in every order, is the result for some random stream. -/
theorem c19_any_sample (deck s : List Nat) (hs : s.Subperm deck) :
    ∃ (rng : Rng) (deck' : List Nat) (rng' : Rng),
      sampleFirstN deck s.length 0 rng = some (deck', s, rng') := by
  obtain ⟨rng, c, r, e, ht⟩ := sampleLoop_surj s.length s 0 (by omega) deck (by omega) (by simpa using hs)
  refine ⟨rng, c, r, ?_⟩
  simp only [sampleFirstN, Nat.sub_zero, e, Option.bind_eq_bind, Option.bind_some, ht]
  simp

/-- Three of five cards, the last one known constant; one round draws the constant. -/
example : (sampleFirstN [10, 11, 12, 13, 14] 3 1 (fun k => 4 * k + 3)).map (fun r => (r.1, r.2.1)) =
    some ([13, 10, 12, 11, 14], [13, 10]) ∧ 1 ≤ [10, 11, 12, 13, 14].length := by
  decide +kernel

/-! ## C20 -/

/-- **C20, plain sampling.** `SampleWithReplacment` returns `n` case numbers below the total, and
any such list can come out. -/
theorem c20_with_replacement (total n : Nat) (h : 0 < total) :
    (∀ rng, ∃ xs rng', sampleWithReplacement total n rng = some (xs, rng') ∧ xs.length = n ∧
      ∀ x ∈ xs, x < total) ∧
    (∀ xs : List Nat, xs.length = n → (∀ x ∈ xs, x < total) →
      ∃ rng rng', sampleWithReplacement total n rng = some (xs, rng')) := by
  constructor
  · induction n with
    | zero => intro rng; exact ⟨[], rng, rfl, rfl, by simp⟩
    | succ n ih =>
      intro rng
      obtain ⟨xs, rng', e, hl, hx⟩ := ih (fun k => rng (k + 1))
      refine ⟨rng 0 % total :: xs, rng', ?_, by simp [hl], ?_⟩
      · simp [sampleWithReplacement, Rng.intn, Nat.ne_of_gt h, e]
      · intro x hx'
        rcases List.mem_cons.1 hx' with rfl | hx'
        · exact Nat.mod_lt _ h
        · exact hx x hx'
  · induction n with
    | zero =>
      intro xs hl _
      rw [List.length_eq_zero_iff.1 hl]
      exact ⟨fun _ => 0, fun _ => 0, rfl⟩
    | succ n ih =>
      intro xs hl hx
      obtain ⟨y, ys, rfl⟩ : ∃ y ys, xs = y :: ys := by
        cases xs with
        | nil => simp at hl
        | cons y ys => exact ⟨y, ys, rfl⟩
      obtain ⟨rng, rng', e⟩ := ih ys (by simpa using hl) (fun x h => hx x (by simp [h]))
      refine ⟨fun k => if k = 0 then y else rng (k - 1), rng', ?_⟩
      simp [sampleWithReplacement, Rng.intn, Nat.ne_of_gt h, e, Nat.mod_eq_of_lt (hx y (by simp))]

example : (sampleWithReplacement 4 5 (fun k => 3 * k + 1)).map (·.1) = some [1, 0, 3, 2, 1] := by
  decide +kernel

/-- **C20, balanced sampling.** `NewBalancedSampler` and `Sample` return, for a target whose
every class has a case; `Sample` returns `n` cases with known target, the `j`-th of the class
drawn for it; and every list of cases with known target can come out. -/
theorem c20_balanced (f : CatFeature) (hf : f.Known) (h0 : 0 < f.cm.nCats)
    (hne : ∀ k < f.cm.nCats, f.classCases k ≠ []) :
    ∃ s, newBalancedSampler f = some s ∧
      (∀ (n : Nat) (rng : Rng), ∃ xs rng', balancedSample s n rng = some (xs, rng') ∧
        xs.length = n ∧
        ∀ j < n, ∃ c, xs[j]? = some c ∧ c ∈ f.classCases (rng (2 * j) % f.cm.nCats)) ∧
      (∀ xs : List Nat, (∀ c ∈ xs, ∃ k, c ∈ f.classCases k) →
        ∃ rng rng', balancedSample s xs.length rng = some (xs, rng')) := by
  refine ⟨_, newBalancedSampler_eq f hf, ?_, ?_⟩
  · intro n rng
    obtain ⟨xs, rng', e, hl, hx⟩ := balancedSample_ok ((List.range f.cm.nCats).map f.classCases)
      (by simpa using h0) (by
        intro b hb
        obtain ⟨k, hk, rfl⟩ := List.mem_map.1 hb
        exact hne k (List.mem_range.1 hk)) n rng
    refine ⟨xs, rng', e, hl, fun j hj => ?_⟩
    obtain ⟨b, hb, c, hc, hcb⟩ := hx j hj
    rw [List.length_map, List.length_range] at hb
    have hlt : rng (2 * j) % f.cm.nCats < f.cm.nCats := Nat.mod_lt _ h0
    rw [List.getElem?_map, List.getElem?_range hlt] at hb
    simp only [Option.map_some, Option.some.injEq] at hb
    exact ⟨c, hc, hb ▸ hcb⟩
  · intro xs hxs
    apply balancedSample_surj _ (by simpa using h0)
    intro c hc
    obtain ⟨k, hk⟩ := hxs c hc
    refine ⟨k, ?_, _, ?_, hk⟩
    · simp only [List.length_map, List.length_range]
      exact CatFeature.classCases_lt hf hk
    · rw [List.getElem?_map, List.getElem?_range (CatFeature.classCases_lt hf hk)]
      rfl

/-- Classes a, b, a, missing, b. -/
def exBag : CatFeature :=
  ⟨⟨fun s => if s = "a" then some 0 else if s = "b" then some 1 else none, ["a", "b"]⟩,
    [0, 1, 0, 0, 1], [false, false, false, true, false], "y", false, true⟩

theorem exBag_known : exBag.Known := by
  refine ⟨rfl, fun i k h => ?_⟩
  match i with
  | 0 | 1 | 2 | 3 | 4 =>
    simp only [exBag, List.getElem?_cons_zero, List.getElem?_cons_succ, Option.some.injEq] at h
    subst h; decide
  | n + 5 => simp [exBag] at h

example : exBag.Known ∧ 0 < exBag.cm.nCats ∧ (∀ k < exBag.cm.nCats, exBag.classCases k ≠ []) ∧
    newBalancedSampler exBag = some [[0, 2], [1, 4]] ∧
    (balancedSample [[0, 2], [1, 4]] 4 (fun k => k * k + 1)).map (·.1) = some [1, 1, 1, 1] :=
  ⟨exBag_known, by decide, by decide, by decide +kernel, by decide +kernel⟩

/-- **C20, out-of-bag cases** are exactly the cases not in the bag, each once, in order. -/
theorem c20_oob (nCases : Nat) (cases : List Nat) (h : ∀ c ∈ cases, c < nCases) :
    ∃ oob, oobCases nCases cases = some oob ∧ (∀ i, i ∈ oob ↔ i < nCases ∧ i ∉ cases) ∧
      oob.Pairwise (· < ·) := by
  obtain ⟨b, e, hl, hg⟩ := markCases_ok nCases cases h (List.replicate nCases false) (by simp)
  refine ⟨_, by simp only [oobCases, markCases, e, Option.bind_eq_bind, Option.bind_some]; rfl,
    fun i => ?_, ?_⟩
  · simp only [List.mem_filterMap, Prod.exists]
    constructor
    · rintro ⟨v, j, hm, hv⟩
      split at hv
      · cases hv
      · cases hv
        rename_i hv
        have hm := List.mem_zipIdx_iff_getElem?.1 hm
        rw [hg] at hm
        split at hm
        · simp_all
        · rename_i hn
          have := (List.getElem?_eq_some_iff.1 hm).1
          simp only [List.length_replicate] at this
          exact ⟨this, fun hc => hn ⟨hc, this⟩⟩
    · rintro ⟨hi, hn⟩
      refine ⟨false, i, List.mem_zipIdx_iff_getElem?.2 ?_, by simp⟩
      rw [hg, if_neg (fun h => hn h.1)]
      simp [hi]
  · have hp : b.zipIdx.Pairwise (fun x y => x.2 < y.2) := by
      rw [← List.pairwise_map (f := Prod.snd), List.zipIdx_map_snd]
      exact List.pairwise_lt_range'
    refine List.Pairwise.filterMap _ ?_ hp
    intro x y hxy a ha c hc
    split at ha <;> split at hc <;> simp_all

example : oobCases 6 [4, 1, 4, 0] = some [2, 3, 5] ∧ ∀ c ∈ [4, 1, 4, 0], c < 6 := by
  decide +kernel

/-- **C20, growforest's bagging** draws again when the target of a case is missing. Whatever it
returns has the requested size and only cases with known target, and it returns as soon as
enough of the draws hit such cases. -/
theorem c20_bagging (missing : List Bool) (nSamples : Nat) (rng : Rng) (fuel : Nat)
    (h0 : 0 < missing.length) :
    (∀ xs rng', bagLoop (missing[·]?) missing.length nSamples fuel [] rng = some (xs, rng') →
      xs.length = nSamples ∧ ∀ c ∈ xs, missing[c]? = some false) ∧
    (nSamples ≤ ((List.range fuel).filter fun k =>
        missing[rng k % missing.length]? = some false).length →
      (bagLoop (missing[·]?) missing.length nSamples fuel [] rng).isSome) := by
  constructor
  · intro xs rng' e
    have := bagLoop_sound missing nSamples fuel [] rng xs rng' (by simp) (by simp) e
    exact this
  · intro h
    exact bagLoop_total missing nSamples h0 fuel [] rng (by simpa using h)

example : (bagLoop ([false, true, false][·]?) 3 4 6 [] (fun k => k)).map (·.1) =
    some [0, 2, 0, 2] ∧ 0 < [false, true, false].length := by decide +kernel

/-- A second feature: x, y, x, x, x. -/
def exBy : CatFeature :=
  ⟨⟨fun s => if s = "x" then some 0 else if s = "y" then some 1 else none, ["x", "y"]⟩,
    [0, 1, 0, 0, 0], [false, false, false, false, false], "z", false, false⟩

/-! ## C50: balancing within the classes of a second feature -/

/-- **C50 is false of the code.** Both features have cases in each of their classes, but no case
combines "a" and "y": `Sample` panics when it draws that combination. -/
theorem c50_empty_combination_panics :
    (∀ t < exBag.cm.nCats, exBag.classCases t ≠ []) ∧ (∀ b < exBy.cm.nCats, exBy.classCases b ≠ []) ∧
    ((newSecondarySampler exBag exBy).bind fun s => s.sample 1 fun _ => 0).isSome = true ∧
    ((newSecondarySampler exBag exBy).bind fun s => s.sample 1 fun k => 3 * (1 - k)).isSome = false := by
  refine ⟨by decide, by decide, by decide +kernel, by decide +kernel⟩

/-- **C50, partial.** If every combination of the classes of both features has a case, `Sample`
returns `n` cases known in both features, for every random stream. The class of the second
feature is drawn in proportion to its number of cases (`b` is drawn for `byCount b` of the
possible numbers) and the class of the target uniformly. -/
theorem c50_secondary_partial (target by_ : CatFeature) (ht : target.Known) (hb : by_.Known)
    (hl : by_.catData.length = target.catData.length) (hb0 : 0 < by_.cm.nCats)
    (ht0 : 0 < target.cm.nCats)
    (hne : ∀ b < by_.cm.nCats, ∀ t < target.cm.nCats, bothCases target by_ b t ≠ []) :
    ∃ s, newSecondarySampler target by_ = some s ∧
      ∀ (n : Nat) (rng : Rng), ∃ xs rng', s.sample n rng = some (xs, rng') ∧ xs.length = n ∧
        ∀ j < n, ∃ c b, xs[j]? = some c ∧
          c ∈ bothCases target by_ b (rng (3 * j + 1) % target.cm.nCats) ∧
          ((List.range b).map (byCount target by_)).sum ≤
            rng (3 * j) % ((List.range by_.cm.nCats).map (byCount target by_)).sum ∧
          rng (3 * j) % ((List.range by_.cm.nCats).map (byCount target by_)).sum <
            ((List.range (b + 1)).map (byCount target by_)).sum := by
  have hnew := newSecondarySampler_eq target by_ ht hb hl
  refine ⟨_, hnew, fun n rng => ?_⟩
  have htot : 0 < ((List.range by_.cm.nCats).map (byCount target by_)).sum := by
    have h0 : 0 < byCount target by_ 0 := by
      obtain ⟨c, hc⟩ := List.exists_mem_of_ne_nil _ (hne 0 hb0 0 ht0)
      refine List.length_pos_of_mem (a := c) ?_
      simp only [bothCases, List.mem_filter, decide_eq_true_eq] at hc ⊢
      exact ⟨hc.1, hc.2.1, hc.2.2.1⟩
    have : byCount target by_ 0 ≤ ((List.range by_.cm.nCats).map (byCount target by_)).sum :=
      List.single_le_sum (by simp) _ (List.mem_map.2 ⟨0, List.mem_range.2 hb0, rfl⟩)
    omega
  refine secondary_sample_ok target by_ hb0 ht0 ?_ hne htot n rng
  refine (sum_filter_classes _ (by_.catData[·]?) fun i hi => ?_).symm
  obtain ⟨k, hk⟩ : ∃ k, by_.catData[i]? = some k := ⟨_, List.getElem?_eq_getElem (by omega)⟩
  exact ⟨k, hb.vals i k hk, hk⟩

/-- A second feature that combines all classes: x, y, y, x, x. -/
def exBy2 : CatFeature := { exBy with catData := [0, 1, 1, 0, 0] }

theorem exBy2_known : exBy2.Known := by
  refine ⟨rfl, fun i k h => ?_⟩
  match i with
  | 0 | 1 | 2 | 3 | 4 =>
    simp only [exBy2, List.getElem?_cons_zero, List.getElem?_cons_succ, Option.some.injEq] at h
    subst h; decide
  | n + 5 => simp [exBy2] at h

example : exBag.Known ∧ exBy2.Known ∧ exBy2.catData.length = exBag.catData.length ∧
    0 < exBy2.cm.nCats ∧ 0 < exBag.cm.nCats ∧
    (∀ b < exBy2.cm.nCats, ∀ t < exBag.cm.nCats, bothCases exBag exBy2 b t ≠ []) ∧
    ((newSecondarySampler exBag exBy2).bind fun s => s.sample 3 fun k => k * k).map (·.1) =
      some [4, 0, 4] :=
  ⟨exBag_known, exBy2_known, rfl, by decide, by decide, by decide, by decide +kernel⟩

end CloudForest
