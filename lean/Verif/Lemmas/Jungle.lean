import Verif.Lemmas.Grow2
import Verif.Spec.Jungle
import Mathlib.Data.List.Perm.Basic

set_option linter.unusedSectionVars false

namespace CloudForest
variable {K : Type} [Field K] [LinearOrder K] [IsStrictOrderedRing K] {σ : Type}
  {P : σ → Prop} {Q : Nat → Prop}

/-! ## Parts of the slice -/

/-- The part of the slice from `a` to `b`. -/
def segOf (cs : List Nat) (a b : Nat) : List Nat := (cs.take b).drop a

theorem sliceOf_seg {cs : List Nat} {a b : Nat} (h : a ≤ b) (h' : b ≤ cs.length) :
    sliceOf cs a b = some (segOf cs a b) := by
  rw [sliceOf, if_pos ⟨h, h'⟩]; rfl

theorem segOf_length {cs : List Nat} {a b : Nat} (h' : b ≤ cs.length) :
    (segOf cs a b).length = b - a := by
  rw [segOf, List.length_drop, List.length_take]; omega

theorem segOf_mem {cs : List Nat} {a b c : Nat} (h : c ∈ segOf cs a b) : c ∈ cs :=
  List.mem_of_mem_take (List.mem_of_mem_drop h)

theorem segOf_eq (cs : List Nat) (a b : Nat) : segOf cs a b = (cs.drop a).take (b - a) := by
  rw [segOf, List.drop_take]

theorem segOf_append {cs : List Nat} {a b c : Nat} (h : a ≤ b) (h' : b ≤ c) :
    segOf cs a c = segOf cs a b ++ segOf cs b c := by
  rw [segOf_eq, segOf_eq, segOf_eq, show c - a = (b - a) + (c - b) by omega, List.take_add, List.drop_drop,
    show a + (b - a) = b by omega]

theorem writeBack_length {cs xs : List Nat} {a : Nat} (h : a + xs.length ≤ cs.length) :
    (writeBack cs a xs).length = cs.length := by
  simp only [writeBack, List.length_append, List.length_take, List.length_drop]; omega

theorem writeBack_before {cs xs : List Nat} {a a' b' : Nat} (h : a + xs.length ≤ cs.length) (hb : b' ≤ a) :
    segOf (writeBack cs a xs) a' b' = segOf cs a' b' := by
  have hl : (cs.take a).length = a := by rw [List.length_take]; omega
  rw [segOf, segOf, writeBack, List.append_assoc, List.take_append_of_le_length (by omega), List.take_take,
    Nat.min_eq_left hb]

theorem writeBack_after {cs xs : List Nat} {a a' b' : Nat} (h : a + xs.length ≤ cs.length)
    (ha : a + xs.length ≤ a') : segOf (writeBack cs a xs) a' b' = segOf cs a' b' := by
  have hl : (cs.take a ++ xs).length = a + xs.length := by
    rw [List.length_append, List.length_take]; omega
  rw [segOf_eq, segOf_eq, writeBack, List.drop_append, List.drop_eq_nil_of_le (by omega), hl, List.nil_append,
    List.drop_drop, show a + xs.length + (a' - (a + xs.length)) = a' by omega]

theorem writeBack_inside {cs xs : List Nat} {a p q : Nat} (h : a + xs.length ≤ cs.length) (hq : q ≤ xs.length) :
    segOf (writeBack cs a xs) (a + p) (a + q) = (xs.take q).drop p := by
  have hl : (cs.take a).length = a := by rw [List.length_take]; omega
  rw [segOf_eq, writeBack, List.append_assoc, ← List.drop_drop, List.drop_left' hl, List.drop_take,
    show a + q - (a + p) = q - p by omega]
  by_cases hp : p ≤ q
  · rw [List.drop_append_of_le_length (by omega), List.take_append_of_le_length (by rw [List.length_drop]; omega)]
  · rw [show q - p = 0 by omega]; simp

theorem writeBack_perm {cs xs : List Nat} {a b : Nat} (h : a ≤ b) (hb : b ≤ cs.length)
    (hx : xs.Perm (segOf cs a b)) : (writeBack cs a xs).Perm cs := by
  have hl := hx.length_eq
  rw [segOf_length hb] at hl
  have e : cs = cs.take a ++ segOf cs a b ++ cs.drop b := by
    conv_lhs => rw [← List.take_append_drop b cs, ← List.take_append_drop a (cs.take b)]
    rw [List.take_take, Nat.min_eq_left h]; rfl
  conv_rhs => rw [e]
  rw [writeBack, hl, show a + (b - a) = b by omega]
  exact ((List.Perm.refl _).append hx).append_right _

/-! ## Nodes in memory -/

theorem kids_set {A : List (JNode K)} {i : Nat} {n : JNode K} (m : JNode K) (h : A[i]? = some n)
    (hn : n.kids = []) : ((A.set i m).flatMap JNode.kids).Perm (A.flatMap JNode.kids ++ m.kids) := by
  induction A generalizing i with
  | nil => simp at h
  | cons a A ih =>
    cases i with
    | zero =>
      simp only [List.getElem?_cons_zero, Option.some.injEq] at h
      subst h
      simpa [hn] using List.perm_append_comm
    | succ i =>
      simp only [List.getElem?_cons_succ] at h
      simp only [List.set_cons_succ, List.flatMap_cons, List.append_assoc]
      exact (ih h).append_left _

/-- The part of a jungle below an address, with entries still to be extended (`pend`, at the addresses `pn`). -/
inductive JGrown (g : Grower K σ) (fm : FeatureMatrix K) (P : σ → Prop) (Q : Nat → Prop) (A : List (JNode K))
    (pn : Nat → Prop) (pend : Nat → Nat → List Nat → Prop) : Bool → Option Nat → List Nat → Nat → Prop
  | pending {b : Bool} {i : Nat} {cs : List Nat} {d : Nat} (h : pend i d cs) :
      JGrown g fm P Q A pn pend b (some i) cs d
  | absent {cs : List Nat} {d : Nat} (hsm : g.splitmissing = false) : JGrown g fm P Q A pn pend true none cs d
  | empty {i : Nat} {d : Nat} (hsm : g.splitmissing = true) (hn : ¬ pn i) (hi : A[i]? = some .fresh) :
      JGrown g fm P Q A pn pend true (some i) [] d
  | leaf {b : Bool} {i : Nat} {cs cs' : List Nat} {fi : Nat} {d : Nat} (hp : cs'.Perm cs) (hn : ¬ pn i)
      (hi : A[i]? = some ⟨none, fi, none, none, none, g.findPredicted cs', none⟩) :
      JGrown g fm P Q A pn pend b (some i) cs d
  | split {b : Bool} {cs : List Nat} {d nc : Nat} {st st' : σ} {res : BestResult K} {code : Coded K}
      {f : Feature K} {spl : Splitter K} {sp : Split3} {i l r : Nat} {m : Option Nat}
      (hd : (d : Int) < g.maxDepth ∨ g.maxDepth ≤ 0) (hlen : 2 * g.leafSize ≤ cs.length)
      (hP : P st) (hQ : Q nc) (hb : g.best st cs nc = some (st', res)) (hs : res.split = some code)
      (hf : fm.data[res.fi]? = some f) (hfit : f.CodeFits code)
      (hdec : f.decodeSplit code = some spl)
      (hsp : NodeSplitOk fm (some code) res.fi (some spl) cs sp) (hn : ¬ pn i)
      (hi : A[i]? = some ⟨some code, res.fi, some l, some r, m, "", some spl⟩)
      (hil : i < l) (hir : i < r) (him : ∀ j, m = some j → i < j)
      (hl : JGrown g fm P Q A pn pend false (some l) sp.left (d + 1))
      (hr : JGrown g fm P Q A pn pend false (some r) sp.right (d + 1))
      (hm : JGrown g fm P Q A pn pend true m sp.missing (d + 1)) :
      JGrown g fm P Q A pn pend b (some i) cs d

theorem JGrown.step {g : Grower K σ} {fm : FeatureMatrix K} {A A' : List (JNode K)}
    {pn pn' : Nat → Prop} {pend pend' : Nat → Nat → List Nat → Prop}
    (hA : ∀ i n, ¬ pn i → A[i]? = some n → A'[i]? = some n)
    (hpn : ∀ i n, ¬ pn i → A[i]? = some n → ¬ pn' i)
    (hpend : ∀ b i d cs, pend i d cs → JGrown g fm P Q A' pn' pend' b (some i) cs d)
    {b : Bool} {o : Option Nat} {cs : List Nat} {d : Nat} (h : JGrown g fm P Q A pn pend b o cs d) :
    JGrown g fm P Q A' pn' pend' b o cs d := by
  induction h with
  | pending h => exact hpend _ _ _ _ h
  | absent hsm => exact .absent hsm
  | empty hsm hn hi => exact .empty hsm (hpn _ _ hn hi) (hA _ _ hn hi)
  | leaf hp hn hi => exact .leaf hp (hpn _ _ hn hi) (hA _ _ hn hi)
  | split hd hlen hP hQ hb hs hf hfit hdec hsp hn hi hil hir him hl hr hm ihl ihr ihm =>
    exact .split hd hlen hP hQ hb hs hf hfit hdec hsp (hpn _ _ hn hi) (hA _ _ hn hi) hil hir him ihl ihr ihm

/-- With nothing left to extend the jungle unfolds to a grown tree. -/
theorem JGrown.grown {g : Grower K σ} {fm : FeatureMatrix K} {A : List (JNode K)}
    {pn : Nat → Prop} {pend : Nat → Nat → List Nat → Prop} (hpend : ∀ i d cs, ¬ pend i d cs)
    {b : Bool} {o : Option Nat} {cs : List Nat} {d : Nat} (h : JGrown g fm P Q A pn pend b o cs d) :
    ∀ fuel, (∀ i, o = some i → A.length ≤ fuel + i) →
      Grown g fm P Q b (o.elim .nil (unfoldNode fuel A)) cs d := by
  have pos : ∀ {fuel i : Nat} {n : JNode K}, A[i]? = some n → A.length ≤ fuel + i → ∃ k, fuel = k + 1 := by
    intro fuel i n hi hle
    have := (List.getElem?_eq_some_iff.1 hi).1
    exact ⟨fuel - 1, by omega⟩
  induction h with
  | pending h => exact absurd h (hpend _ _ _)
  | absent hsm => intro fuel _; exact .absent hsm
  | @empty i d hsm hn hi =>
    intro fuel hf
    obtain ⟨k, rfl⟩ := pos hi (hf _ rfl)
    simp only [Option.elim_some, unfoldNode, hi]
    exact .empty hsm
  | @leaf b i cs cs' fi d hp hn hi =>
    intro fuel hf
    obtain ⟨k, rfl⟩ := pos hi (hf _ rfl)
    simp only [Option.elim_some, unfoldNode, hi]
    exact .leaf hp
  | @split b cs d nc st st' res code f spl sp i l r m hd hlen hP hQ hb hs hf hfit hdec hsp hn hi hil hir him hl hr hm ihl ihr ihm =>
    intro fuel hfu
    have hle := hfu _ rfl
    obtain ⟨k, rfl⟩ := pos hi hle
    simp only [unfoldNode, hi, Option.elim_some]
    refine .split hd hlen hP hQ hb hs hf hfit hdec hsp (ihl k ?_) (ihr k ?_) (ihm k ?_)
    · rintro j ⟨⟩; omega
    · rintro j ⟨⟩; omega
    · intro j hj
      have := him j hj
      omega

end CloudForest
