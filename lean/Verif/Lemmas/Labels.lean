import Verif.Spec.Labels
import Verif.Lemmas.Units4
import Verif.Props.Units
import Verif.Model.Targets
import Mathlib.Logic.Equiv.Fintype
import Mathlib.Data.Fintype.EquivFin
import Mathlib.Data.List.FinRange
import Mathlib.Tactic.LinearCombination

/-! # Lemmas about targets that say the same of the cases -/

set_option linter.unusedSectionVars false

namespace CloudForest
variable {K : Type} [Field K] [LinearOrder K] [IsStrictOrderedRing K] {σ : Type}

theorem Node.blank_isNil (n : Node K) : n.blank.isNil = n.isNil := by cases n <;> rfl

theorem growChildren_blank (sm : Bool) (l r m : Node K) :
    growChildren sm l.blank r.blank m.blank =
      ((growChildren sm l r m).1.blank, (growChildren sm l r m).2.1.blank, (growChildren sm l r m).2.2.blank) := by
  unfold growChildren
  simp only [Node.blank_isNil]
  cases l.isNil || r.isNil <;> cases sm <;> rfl

/-- Growing without predictions is growing, with the predictions left out afterwards. -/
theorem grow_blank (g : Grower K σ) (fm : FeatureMatrix K) (fuel : Nat) :
    ∀ (n : Node K) (st : σ) (cs : List Nat) (d nc : Nat),
      grow { g with findPredicted := fun _ => "" } fm fuel n.blank st cs d nc =
        (grow g fm fuel n st cs d nc).map fun r => (r.1.blank, r.2) := by
  induction fuel with
  | zero => intro n st cs d nc; rfl
  | succ fuel ih =>
    intro n st cs d nc
    cases n with
    | nil => rfl
    | mk coded fi0 l r m pred spl =>
      rw [Node.blank, grow, grow]
      by_cases hc : ((d : Int) < g.maxDepth ∨ g.maxDepth ≤ 0) ∧ 2 * g.leafSize ≤ cs.length
      swap
      · rw [if_neg hc, if_neg hc]
        rfl
      rw [if_pos hc, if_pos hc]
      cases hb : g.best st cs nc with
      | none => rfl
      | some res =>
        obtain ⟨st1, res⟩ := res
        simp only [Option.bind_eq_bind, Option.bind_some]
        cases hs : res.split with
        | none => rfl
        | some code =>
          simp only []
          cases hf : fm.data[res.fi]? with
          | none => rfl
          | some f =>
            simp only [Option.bind_some]
            cases hd : f.decodeSplit code with
            | none => rfl
            | some sp =>
              simp only [Option.bind_some]
              cases hp : f.splitPoints code res.cases with
              | none => rfl
              | some pts =>
                obtain ⟨cs1, li, ri⟩ := pts
                simp only [Option.bind_some, growChildren_blank, ih]
                cases hl : grow g fm fuel (growChildren g.splitmissing l r m).1 st1 (cs1.take li) (d + 1) res.nconstants with
                | none => rfl
                | some nl =>
                  obtain ⟨nl, st2⟩ := nl
                  simp only [Option.map_some, Option.bind_some]
                  cases hr : grow g fm fuel (growChildren g.splitmissing l r m).2.1 st2 (cs1.drop ri) (d + 1) res.nconstants with
                  | none => rfl
                  | some nr =>
                    obtain ⟨nr, st3⟩ := nr
                    simp only [Option.map_some, Option.bind_some, Node.blank_isNil]
                    by_cases hm : li ≠ ri ∧ (growChildren g.splitmissing l r m).2.2.isNil = false
                    · rw [if_pos hm, if_pos hm]
                      cases hx : grow g fm fuel (growChildren g.splitmissing l r m).2.2 st3 ((cs1.drop li).take (ri - li)) (d + 1)
                          res.nconstants with
                      | none => rfl
                      | some nm => rfl
                    · rw [if_neg hm, if_neg hm]
                      rfl

/-! ## Classes -/

/-- If two ways of numbering classes below `n` tell the same cases apart, a permutation leads from one to the other. -/
theorem exists_relabel {n : Nat} {g g' : Nat → Nat} {cs : List Nat} (h : ∀ c ∈ cs, g c < n) (h' : ∀ c ∈ cs, g' c < n)
    (hs : ∀ c ∈ cs, ∀ d ∈ cs, (g c = g d ↔ g' c = g' d)) :
    ∃ s : Equiv.Perm (Fin n), ∀ c (hc : c ∈ cs), s ⟨g c, h c hc⟩ = ⟨g' c, h' c hc⟩ := by
  classical
  let p : Fin n → Prop := fun k => ∃ c, ∃ hc : c ∈ cs, ⟨g c, h c hc⟩ = k
  let q : Fin n → Prop := fun k => ∃ c, ∃ hc : c ∈ cs, ⟨g' c, h' c hc⟩ = k
  have hpq : ∀ k : {k // p k}, ∃ k' : {k // q k}, ∀ c (hc : c ∈ cs), (⟨g c, h c hc⟩ : Fin n) = k.1 → (⟨g' c, h' c hc⟩ : Fin n) = k'.1 := by
    rintro ⟨k, c, hc, rfl⟩
    refine ⟨⟨⟨g' c, h' c hc⟩, c, hc, rfl⟩, fun d hd e => ?_⟩
    simp only [Fin.mk.injEq] at e ⊢
    exact (hs d hd c hc).1 e
  choose φ hφ using hpq
  have hbij : Function.Bijective φ := by
    constructor
    · rintro ⟨k, c, hc, rfl⟩ ⟨k', d, hd, rfl⟩ e
      have h1 := hφ ⟨_, c, hc, rfl⟩ c hc rfl
      have h2 := hφ ⟨_, d, hd, rfl⟩ d hd rfl
      rw [e, ← h2] at h1
      simp only [Fin.mk.injEq] at h1
      simp only [Subtype.mk.injEq, Fin.mk.injEq]
      exact (hs c hc d hd).2 h1
    · rintro ⟨k, c, hc, rfl⟩
      exact ⟨⟨_, c, hc, rfl⟩, Subtype.ext (hφ ⟨_, c, hc, rfl⟩ c hc rfl).symm⟩
  refine ⟨Equiv.extendSubtype (Equiv.ofBijective φ hbij), fun c hc => ?_⟩
  rw [Equiv.extendSubtype_apply_of_mem _ _ ⟨c, hc, rfl⟩]
  exact (hφ ⟨_, c, hc, rfl⟩ c hc rfl).symm

/-- The numbers of cases in the classes are the same but for the order. -/
theorem counts_sameClasses {f f' : CatFeature} {n : Nat} {cs : List Nat} (h : f.InRange n cs) (h' : f'.InRange n cs)
    (hs : f.SameClasses f' cs) : (f'.counts n cs).Perm (f.counts n cs) := by
  have key : ∀ {f : CatFeature}, f.InRange n cs → ∀ c ∈ cs, f.catData[c]? = some ((f.catData[c]?).getD 0) ∧
      (f.catData[c]?).getD 0 < n := by
    intro f h c hc
    obtain ⟨k, hk, hlt⟩ := h c hc
    rw [hk]
    exact ⟨rfl, hlt⟩
  obtain ⟨s, hsig⟩ := exists_relabel (g := fun c => (f.catData[c]?).getD 0) (g' := fun c => (f'.catData[c]?).getD 0)
    (fun c hc => (key h c hc).2) (fun c hc => (key h' c hc).2) (by
      intro c hc d hd
      have := hs c hc d hd
      rw [(key h c hc).1, (key h d hd).1, (key h' c hc).1, (key h' d hd).1, Option.some.injEq, Option.some.injEq] at this
      exact this)
  have hcount : ∀ k : Fin n, f.catCount cs k = f'.catCount cs (s k) := by
    intro k
    unfold CatFeature.catCount
    refine List.countP_congr fun c hc => ?_
    rw [(key h c hc).1, (key h' c hc).1, beq_iff_eq, beq_iff_eq, Option.some.injEq, Option.some.injEq]
    constructor
    · intro e
      rw [show k = ⟨(f.catData[c]?).getD 0, (key h c hc).2⟩ from Fin.ext e.symm, hsig c hc]
    · intro e
      have := hsig c hc
      have h2 : s ⟨(f.catData[c]?).getD 0, (key h c hc).2⟩ = s k := this.trans (Fin.ext e)
      exact congrArg Fin.val (s.injective h2)
  have e : ∀ f : CatFeature, f.counts n cs = (List.finRange n).map fun k => (f.catCount cs k.1 : Int) := by
    intro f
    unfold CatFeature.counts
    rw [← List.map_coe_finRange_eq_range, List.map_map]
    rfl
  rw [e f, e f']
  have e2 : ((List.finRange n).map fun k => (f.catCount cs k.1 : Int)) =
      ((List.finRange n).map s).map fun k => (f'.catCount cs k.1 : Int) := by
    rw [List.map_map]
    exact List.map_congr_left fun k _ => by simp [hcount k]
  rw [e2]
  exact (s.map_finRange_perm.symm.map _)

theorem XF.sub_right_comm' (a b c : XF K) : a - b - c = a - c - b := by
  exact XF.add_right_comm' a (XF.neg b) (XF.neg c)

theorem giniFromCounts_perm (n : Nat) {l l' : List Int} (h : l'.Perm l) :
    giniFromCounts (K := K) n l' = giniFromCounts n l :=
  h.foldl_eq' (fun _ _ _ _ _ => XF.sub_right_comm' _ _ _) _

theorem entropyFromCounts_perm (log : XF K → XF K) (n : Nat) {l l' : List Int} (h : l'.Perm l) :
    entropyFromCounts log n l' = entropyFromCounts log n l := by
  refine h.foldl_eq' (fun x _ y _ z => ?_) _
  simp only
  split_ifs <;> first | rfl | exact XF.sub_right_comm' _ _ _

/-- Targets that use the numbers of cases in the classes but not their order agree. -/
theorem countLaws_agree {f f' : CatFeature} {n : Nat} {all : List Nat} (h : f.InRange n all) (h' : f'.InRange n all)
    (hs : f.SameClasses f' all) {imp : Nat → List Int → XF K} (hi : ∀ n l l', l'.Perm l → imp n l' = imp n l) :
    (countLaws f imp n all h).Agrees (countLaws f' imp n all h') := by
  have key : ∀ l, (∀ c ∈ l, c ∈ all) → imp l.length (f'.counts n l) = imp l.length (f.counts n l) := fun l hl =>
    hi _ _ _ (counts_sameClasses (fun c hc => h c (hl c hc)) (fun c hc => h' c (hl c hc))
      fun c hc d hd => hs c (hl c hc) d (hl d hd))
  refine ⟨fun l hl => key l hl, fun l r hl => ?_⟩
  show wavg _ _ _ _ = wavg _ _ _ _
  rw [key l fun c hc => hl c (List.mem_append_left _ hc), key r fun c hc => hl c (List.mem_append_right _ hc)]

/-! ## Numbers -/

theorem sum_shift (l : List Nat) (v v' : Nat → K) (s b : K) (h : ∀ c ∈ l, v' c = s * v c + b) :
    (l.map v').sum = s * (l.map v).sum + l.length * b := by
  induction l with
  | nil => simp
  | cons c l ih =>
    rw [List.map_cons, List.map_cons, List.sum_cons, List.sum_cons, ih fun d hd => h d (List.mem_cons_of_mem _ hd),
      h c List.mem_cons_self]
    push_cast [List.length_cons]
    ring

theorem Moved.affine {f f' : NumFeature K} {all : List Nat} (hm : f.Moved f' all) :
    ∃ s b : K, s * s = 1 ∧ ∀ c ∈ all, f'.value c = s * f.value c + b := by
  obtain ⟨b, h | h⟩ := hm
  · exact ⟨1, b, by ring, fun c hc => by rw [h c hc]; ring⟩
  · exact ⟨-1, b, by ring, fun c hc => by rw [h c hc]; ring⟩

theorem meanOf_affine {f f' : NumFeature K} {l : List Nat} {s b : K} (h : ∀ c ∈ l, f'.value c = s * f.value c + b)
    (hl : l ≠ []) : f'.meanOf l = s * f.meanOf l + b := by
  unfold NumFeature.meanOf
  have hN : (l.length : K) ≠ 0 := by
    have : l.length ≠ 0 := by simpa using hl
    exact_mod_cast this
  rw [sum_shift l f.value f'.value s b h]
  field_simp

theorem sseX_moved {f f' : NumFeature K} {all : List Nat} (hm : f.Moved f' all) {l : List Nat} (hl : ∀ c ∈ l, c ∈ all) :
    sseX f' l = sseX f l := by
  by_cases h0 : l = []
  · subst h0; rfl
  obtain ⟨s, b, hs, h⟩ := Moved.affine hm
  rw [sseX_eq _ _ h0, sseX_eq _ _ h0]
  unfold NumFeature.sse
  congr 2
  refine List.map_congr_left fun c hc => ?_
  rw [meanOf_affine (fun c hc => h c (hl c hc)) h0, h c (hl c hc)]
  linear_combination (f.value c - f.meanOf l) ^ 2 * hs

theorem sseLaws_agree {f f' : NumFeature K} {all : List Nat} (h : f.Finite all) (h' : f'.Finite all) (hm : f.Moved f' all) :
    (sseLaws f all h).Agrees (sseLaws f' all h') := by
  refine ⟨fun l hl => sseX_moved hm hl, fun l r hl => ?_⟩
  show wavg _ _ _ _ = wavg _ _ _ _
  rw [sseX_moved hm fun c hc => hl c (List.mem_append_left _ hc), sseX_moved hm fun c hc => hl c (List.mem_append_right _ hc)]

end CloudForest
