import Verif.Model.Setup
import Verif.Lemmas.TreeFile
import Verif.Props.Shuffle
import Verif.Props.Values
import Verif.Props.Options

/-!
# C113–C116: numbers of trees in the file, inferred parameters, imputing, permuting and shuffling before growing
-/

set_option linter.unusedSectionVars false

namespace CloudForest
variable {K : Type} [Field K] [LinearOrder K] [IsStrictOrderedRing K]

/-! ## C113: the trees in the file are numbered -/

/-- The text of the trees, in order: tree `i` is written with number `num i`. -/
def NumberedBy (nt : NumText K) (ord : Splitter K → List String) (num : Nat → Nat) (trees : List (Tree K))
    (text : Text) : Prop :=
  ∃ parts : List Text, text = parts.flatten ∧ parts.length = trees.length ∧
    ∀ (i : Nat) (t : Tree K), trees[i]? = some t →
      ∃ s, parts[i]? = some ("TREE=".toList ++ fmtNat (num i) ++ ",TARGET=".toList ++ s) ∧
        writeTree nt ord t (num i) = parts[i]?

theorem recordTrees_numbered (nt : NumText K) (ord : Splitter K → List String) (progress : Bool) (num : Nat → Nat)
    (hnum : ∀ i, num (i + 1) = if progress then num i + 1 else num i) (trees : List (Tree K)) :
    ∀ (k : Nat) (text : Text), recordTrees nt ord progress (num k) trees = some text →
      NumberedBy nt ord (fun i => num (k + i)) trees text := by
  induction trees with
  | nil =>
    intro k text h
    cases h
    exact ⟨[], rfl, rfl, by simp⟩
  | cons t ts ih =>
    intro k text h
    rw [recordTrees] at h
    obtain ⟨a, ha, h⟩ := Option.bind_eq_some_iff.1 h
    obtain ⟨b, hb, h⟩ := Option.bind_eq_some_iff.1 h
    cases h
    rw [← hnum k] at hb
    obtain ⟨parts, h1, h2, h3⟩ := ih (k + 1) b hb
    refine ⟨a :: parts, by simp [h1], by simp [h2], fun i t' hi => ?_⟩
    cases i with
    | zero =>
      simp only [List.getElem?_cons_zero, Option.some.injEq] at hi
      subst hi
      have hs : ∃ s, a = "TREE=".toList ++ fmtNat (num k) ++ ",TARGET=".toList ++ s := by
        unfold writeTree at ha
        obtain ⟨ns, hns, ha⟩ := Option.bind_eq_some_iff.1 ha
        cases ha
        exact ⟨['"'] ++ t.target.toList ++ ['"'] ++
          (if .fin 0 ≤ t.weight then ",WEIGHT=".toList ++ nt.fmt t.weight else []) ++ ['\n'] ++ ns, by
          unfold writeTreeHeader
          simp only [List.append_assoc]
          rfl⟩
      obtain ⟨s, hs⟩ := hs
      exact ⟨s, by simp [hs], ha⟩
    | succ i =>
      obtain ⟨s, e1, e2⟩ := h3 i t' hi
      exact ⟨s, by simpa [Nat.add_assoc, Nat.add_comm 1 i] using e1, by
        simpa [Nat.add_assoc, Nat.add_comm 1 i] using e2⟩

/-- **C113**, the part that holds. With `-progress` the trees of a file without header are numbered from 0 in the order of
the file. -/
theorem c113_progress_partial (nt : NumText K) (ord : Splitter K → List String) (target : String)
    (trees : List (Tree K)) (text : Text) (h : growforestFile nt ord true target none trees = some text) :
    NumberedBy nt ord (fun i => i) trees text := by
  obtain ⟨b, hb, h⟩ := Option.bind_eq_some_iff.1 h
  cases h
  have := recordTrees_numbered nt ord true (fun i => i) (fun i => rfl) trees 0 b hb
  simpa using this

/-- **C113 is false of the code** without `-progress`: every tree has the number 0. -/
theorem c113_zero (nt : NumText K) (ord : Splitter K → List String) (target : String)
    (trees : List (Tree K)) (text : Text) (h : growforestFile nt ord false target none trees = some text) :
    NumberedBy nt ord (fun _ => 0) trees text := by
  obtain ⟨b, hb, h⟩ := Option.bind_eq_some_iff.1 h
  cases h
  have := recordTrees_numbered nt ord false (fun _ => 0) (fun i => rfl) trees 0 b hb
  simpa using this

/-- Two leaves as a forest. -/
def exTwoLeaves : List (Tree ℚ) :=
  [⟨.mk none 0 .nil .nil .nil "a" none, "y", .fin (-1)⟩, ⟨.mk none 0 .nil .nil .nil "b" none, "y", .fin (-1)⟩]

example : growforestFile exNums (fun s => s.left) true "y" none exTwoLeaves =
      some "TREE=0,TARGET=\"y\"\nNODE=*,PRED=a\nTREE=1,TARGET=\"y\"\nNODE=*,PRED=b\n".toList ∧
    growforestFile exNums (fun s => s.left) false "y" none exTwoLeaves =
      some "TREE=0,TARGET=\"y\"\nNODE=*,PRED=a\nTREE=0,TARGET=\"y\"\nNODE=*,PRED=b\n".toList :=
  ⟨by decide +kernel, by decide +kernel⟩

/-! ## C114: parameters that are left out -/

theorem ceilSqrt_spec (n : Nat) : n ≤ ceilSqrt n * ceilSqrt n ∧ ∀ k, n ≤ k * k → ceilSqrt n ≤ k := by
  unfold ceilSqrt
  have h1 := Nat.sqrt_le n
  have h2 := Nat.sqrt_lt_self (n := n)
  have h3 := Nat.lt_succ_sqrt n
  simp only [Nat.succ_eq_add_one] at h3
  split
  · rename_i h
    refine ⟨by omega, fun k hk => ?_⟩
    by_contra hlt
    have : k * k < n.sqrt * n.sqrt := Nat.mul_self_lt_mul_self (by omega)
    omega
  · rename_i h
    refine ⟨by omega, fun k hk => ?_⟩
    by_contra hlt
    have : k * k ≤ n.sqrt * n.sqrt := Nat.mul_self_le_mul_self (by omega)
    omega

section
variable [FloorRing K]

/-- **C114**, `mTry`: left out, it is the least number whose square is not below the number of features, from 1 to that
number if there is a feature. A positive number is taken as it is. -/
theorem c114_mTry (nt : NumText K) (nFeatures : Nat) :
    (∃ m : Nat, inferMTry nt [] nFeatures = some (m : Int) ∧ nFeatures ≤ m * m ∧ (∀ k, nFeatures ≤ k * k → m ≤ k) ∧
      (1 ≤ nFeatures → 1 ≤ m ∧ m ≤ nFeatures)) ∧
    (∀ s : Text, PlainDecimal s → Nat.ofDigitChars 10 s 0 < 2 ^ 63 → 1 ≤ Nat.ofDigitChars 10 s 0 →
      inferMTry nt s nFeatures = some (Nat.ofDigitChars 10 s 0 : Int)) ∧
    (∀ (s : Text) (x : K), '.' ∈ s → nt.parse s = some (.fin x) → 0 < x → x ≤ 1 → 1 ≤ nFeatures →
      ∃ m : Int, inferMTry nt s nFeatures = some m ∧ x * nFeatures ≤ (m : K) ∧ 1 ≤ m ∧ m ≤ nFeatures) := by
  refine ⟨⟨ceilSqrt nFeatures, rfl, (ceilSqrt_spec _).1, (ceilSqrt_spec _).2, fun h => ⟨?_, ?_⟩⟩, ?_, ?_⟩
  · by_contra h0
    have : ceilSqrt nFeatures = 0 := by omega
    have := (ceilSqrt_spec nFeatures).1
    simp_all
  · exact (ceilSqrt_spec _).2 _ (Nat.le_mul_self _)
  · intro s hs hb hpos
    unfold inferMTry
    rw [(c44_integer_partial nt s _ hs hb).1, Option.map_some, if_neg (by omega)]
  · intro s x hs hx h0 h1 hn
    obtain ⟨n, e, hle, -, hr⟩ := c44_fraction nt s (nFeatures : Int) x hs hx
    obtain ⟨r1, r2⟩ := hr h0.le h1 (by omega)
    have hpos : 0 < n := by
      have hx' : 0 < x * ((nFeatures : Int) : K) := mul_pos h0 (by exact_mod_cast hn)
      have : (0 : K) < (n : K) := lt_of_lt_of_le hx' hle
      exact_mod_cast this
    refine ⟨n, ?_, by simpa using hle, by omega, r2⟩
    unfold inferMTry
    rw [e, Option.map_some, if_neg (by omega)]

/-- **C114**, `leafSize` and `nSamples`, the part that holds. Whatever is given, a leaf has at least one case, unless there
is boosting and there are fewer than three known cases; and if there is a known case at least one is drawn, all of them by
default. -/
theorem c114_sizes_partial (nt : NumText K) (s : Text) (boost : Bool) (nCats nNonMissing : Nat) (l n : Int)
    (hl : inferLeafSize nt s boost nCats nNonMissing = some l) (hn : inferNSamples nt s nNonMissing = some n) :
    (boost = true → 3 ≤ nNonMissing) → 1 ≤ nNonMissing →
    1 ≤ l ∧ 1 ≤ n ∧ (s = [] → n = nNonMissing ∧
      (boost = false → l = if nCats = 0 then 4 else 1) ∧ (boost = true → l = (nNonMissing / 3 : Nat))) := by
  intro hb hk
  unfold inferLeafSize at hl
  unfold inferNSamples at hn
  obtain ⟨a, ha, hl⟩ := Option.map_eq_some_iff.1 hl
  rw [ha, Option.map_some, Option.some.injEq] at hn
  subst hl hn
  refine ⟨?_, by split <;> omega, ?_⟩
  · split
    · split
      · rename_i h
        have := hb h
        omega
      · split <;> omega
    · omega
  · rintro rfl
    have : a = 0 := by
      have : parseAsIntOrFraction nt [] (nNonMissing : Int) = some 0 := rfl
      rw [this] at ha
      exact (Option.some.inj ha).symm
    subst this
    refine ⟨by simp, ?_, ?_⟩
    · rintro rfl
      simp
    · rintro rfl
      simp

/-- **C114 is false of the code** with boosting (`-adaboost` or `-gbt`) and one or two known cases: the size of a leaf is inferred as 0. -/
theorem c114_zero (nt : NumText K) (nCats nNonMissing : Nat) (h : nNonMissing < 3) :
    inferLeafSize nt [] true nCats nNonMissing = some 0 := by
  have : nNonMissing / 3 = 0 := by omega
  unfold inferLeafSize
  have h0 : parseAsIntOrFraction nt [] (nNonMissing : Int) = some 0 := rfl
  rw [h0, Option.map_some, this]
  rfl

end

example : inferMTry exNums [] 10 = some 4 ∧ inferMTry exNums "0.5".toList 7 = some 4 ∧
    inferMTry exNums "12".toList 7 = some 12 ∧ inferLeafSize exNums [] true 2 10 = some 3 ∧
    inferLeafSize exNums [] false 0 10 = some 4 ∧ inferNSamples exNums "0.5".toList 7 = some 4 ∧
    inferNSamples exNums "-3".toList 7 = some 7 ∧ inferLeafSize exNums [] true 2 2 = some 0 := by
  decide +kernel

/-! ## C116: permuting and shuffling -/

/-- The missing marks of either kind. -/
def Feature.marks : Feature K → List Bool
  | .cat f => f.missing
  | .num f => f.missing

/-- `g` has the values of `f` in some order, each with its missing mark, and is otherwise the same. -/
def Rearranged : Feature K → Feature K → Prop
  | .cat f, .cat g => (g.missing.zip g.catData).Perm (f.missing.zip f.catData) ∧
      g = { f with missing := g.missing, catData := g.catData } ∧ g.catData.length = g.missing.length
  | .num f, .num g => (g.missing.zip g.numData).Perm (f.missing.zip f.numData) ∧
      g = { f with missing := g.missing, numData := g.numData } ∧ g.numData.length = g.missing.length
  | _, _ => False

theorem Rearranged.rfl {f : Feature K} (h : f.Even) : Rearranged f f := by
  cases f <;> exact ⟨List.Perm.refl _, Eq.refl _, h⟩

theorem shuffle_rearranged (f : Feature K) (h : f.Even) (rng : Rng) :
    ∃ g rng', f.shuffle rng = some (g, rng') ∧ Rearranged f g := by
  cases f with
  | cat f =>
    obtain ⟨m, d, r, π, e, h1, h2, -, -⟩ := shuffleLoop_ok (List.range f.missing.length)
      f.missing.length (by simp) _ 0 (Eq.refl _) f.missing f.catData rng (Eq.refl _) h
    have hp := shuffleLoop_perm _ _ 0 (Eq.refl _) _ _ _ _ (Eq.symm h) e
    rw [← shuffleAllLoop_eq _ _ 0 (Eq.refl _)] at e
    refine ⟨.cat { f with missing := m, catData := d }, r, ?_, hp, Eq.refl _, ?_⟩
    · unfold Feature.shuffle
      simp only [e]
      exact Eq.refl _
    · simp_all
  | num f =>
    obtain ⟨m, d, r, π, e, h1, h2, -, -⟩ := shuffleLoop_ok (List.range f.missing.length)
      f.missing.length (by simp) _ 0 (Eq.refl _) f.missing f.numData rng (Eq.refl _) h
    have hp := shuffleLoop_perm _ _ 0 (Eq.refl _) _ _ _ _ (Eq.symm h) e
    rw [← shuffleAllLoop_eq _ _ 0 (Eq.refl _)] at e
    refine ⟨.num { f with missing := m, numData := d }, r, ?_, hp, Eq.refl _, ?_⟩
    · unfold Feature.shuffle
      simp only [e]
      exact Eq.refl _
    · simp_all

theorem Rearranged.name {f g : Feature K} (h : Rearranged f g) : g.name = f.name := by
  cases f <;> cases g
  · obtain ⟨-, h, -⟩ := h
    rw [h]
    exact Eq.refl _
  · exact h.elim
  · exact h.elim
  · obtain ⟨-, h, -⟩ := h
    rw [h]
    exact Eq.refl _

theorem Rearranged.even {f g : Feature K} (h : Rearranged f g) : g.Even := by
  cases f <;> cases g
  · exact h.2.2
  · exact h.elim
  · exact h.elim
  · exact h.2.2

theorem Rearranged.trans {f g k : Feature K} (h1 : Rearranged f g) (h2 : Rearranged g k) : Rearranged f k := by
  cases f <;> cases g <;> cases k <;> first | exact h1.elim | exact h2.elim | skip
  · obtain ⟨a, b, -⟩ := h1
    obtain ⟨a', b', c'⟩ := h2
    refine ⟨a'.trans a, ?_, c'⟩
    rw [b', b]
  · obtain ⟨a, b, -⟩ := h1
    obtain ⟨a', b', c'⟩ := h2
    refine ⟨a'.trans a, ?_, c'⟩
    rw [b', b]

/-- `fm'` is `fm` but for the order of the values of the features with numbers `ok`. -/
def OnlyRearranged (ok : Nat → Prop) (fm fm' : FeatureMatrix K) : Prop :=
  fm'.map = fm.map ∧ fm'.caseLabels = fm.caseLabels ∧ fm'.data.length = fm.data.length ∧
  ∀ (i : Nat) (f : Feature K), fm.data[i]? = some f → ∃ g, fm'.data[i]? = some g ∧ Rearranged f g ∧ (¬ ok i → g = f)

theorem OnlyRearranged.even {ok : Nat → Prop} {fm fm' : FeatureMatrix K} (h : OnlyRearranged ok fm fm') :
    ∀ f ∈ fm'.data, f.Even := by
  intro f hf
  obtain ⟨i, hi, rfl⟩ := List.getElem_of_mem hf
  have hi' : i < fm.data.length := by
    have := h.2.2.1
    omega
  obtain ⟨g, e, hr, -⟩ := h.2.2.2 i fm.data[i] (List.getElem?_eq_getElem hi')
  rw [List.getElem?_eq_getElem hi] at e
  rw [Option.some.inj e]
  exact hr.even

theorem shuffleAt_ok (fm : FeatureMatrix K) (he : ∀ f ∈ fm.data, f.Even) (i : Nat) (hi : i < fm.data.length)
    (rng : Rng) : ∃ fm' rng', fm.shuffleAt i rng = some (fm', rng') ∧ OnlyRearranged (· = i) fm fm' := by
  obtain ⟨g, rng', e, hr⟩ := shuffle_rearranged fm.data[i] (he _ (List.getElem_mem hi)) rng
  refine ⟨{ fm with data := fm.data.set i g }, rng', ?_, Eq.refl _, Eq.refl _, by simp, fun j f hj => ?_⟩
  · unfold FeatureMatrix.shuffleAt
    rw [List.getElem?_eq_getElem hi]
    simp only [Option.bind_eq_bind, Option.bind_some, e]
  · by_cases hji : i = j
    · subst hji
      rw [List.getElem?_eq_getElem hi] at hj
      cases hj
      exact ⟨g, by simp [hi], hr, fun h => absurd (Eq.refl _) h⟩
    · exact ⟨f, by rw [List.getElem?_set_ne hji]; exact hj, Rearranged.rfl (he f (List.mem_of_getElem? hj)),
        fun _ => Eq.refl _⟩

theorem OnlyRearranged.trans {ok ok' : Nat → Prop} {a b c : FeatureMatrix K} (h1 : OnlyRearranged ok a b)
    (h2 : OnlyRearranged ok' b c) : OnlyRearranged (fun i => ok i ∨ ok' i) a c := by
  refine ⟨h2.1.trans h1.1, h2.2.1.trans h1.2.1, h2.2.2.1.trans h1.2.2.1, fun i f hi => ?_⟩
  obtain ⟨g, e, hr, hk⟩ := h1.2.2.2 i f hi
  obtain ⟨k, e', hr', hk'⟩ := h2.2.2.2 i g e
  exact ⟨k, e', hr.trans hr', fun h => (hk' fun x => h (.inr x)).trans (hk fun x => h (.inl x))⟩

theorem OnlyRearranged.weaken {ok ok' : Nat → Prop} {a b : FeatureMatrix K} (h : OnlyRearranged ok a b)
    (hw : ∀ i, ok i → ok' i) : OnlyRearranged ok' a b :=
  ⟨h.1, h.2.1, h.2.2.1, fun i f hi =>
    (h.2.2.2 i f hi).imp fun _ x => ⟨x.1, x.2.1, fun hn => x.2.2 fun hok => hn (hw i hok)⟩⟩

theorem shuffleWhere_ok (targeti : Nat) (p : String → Bool) (n : Nat) (fs : List (Feature K × Nat))
    (hfs : ∀ x ∈ fs, x.2 < n) :
    ∀ (fm : FeatureMatrix K), (∀ f ∈ fm.data, f.Even) → fm.data.length = n → ∀ rng, ∃ fm' rng',
      FeatureMatrix.shuffleWhere targeti p fs fm rng = some (fm', rng') ∧
      OnlyRearranged (fun i => i ≠ targeti ∧ ∃ x ∈ fs, x.2 = i ∧ p x.1.name = true) fm fm' := by
  induction fs with
  | nil =>
    intro fm he _ rng
    exact ⟨fm, rng, Eq.refl _, Eq.refl _, Eq.refl _, Eq.refl _, fun i f hi =>
      ⟨f, hi, Rearranged.rfl (he f (List.mem_of_getElem? hi)), fun _ => Eq.refl _⟩⟩
  | cons x fs ih =>
    intro fm he hn rng
    obtain ⟨f, i⟩ := x
    rw [FeatureMatrix.shuffleWhere]
    by_cases hc : targeti ≠ i ∧ p f.name = true
    · rw [if_pos hc]
      obtain ⟨fm1, rng1, e1, h1⟩ := shuffleAt_ok fm he i (by rw [hn]; exact hfs (f, i) (by simp)) rng
      obtain ⟨fm2, rng2, e2, h2⟩ := ih (fun x hx => hfs x (by simp [hx])) fm1 h1.even (h1.2.2.1.trans hn) rng1
      refine ⟨fm2, rng2, by rw [e1]; exact e2, (h1.trans h2).weaken fun j hj => ?_⟩
      rcases hj with rfl | ⟨hj, y, hy, hy'⟩
      · exact ⟨Ne.symm hc.1, (f, j), by simp, Eq.refl _, hc.2⟩
      · exact ⟨hj, y, by simp [hy], hy'⟩
    · rw [if_neg hc]
      obtain ⟨fm2, rng2, e2, h2⟩ := ih (fun x hx => hfs x (by simp [hx])) fm he hn rng
      refine ⟨fm2, rng2, e2, h2.weaken fun j hj => ?_⟩
      obtain ⟨hj, y, hy, hy'⟩ := hj
      exact ⟨hj, y, by simp [hy], hy'⟩

/-- **C116**: without `-impute`, whatever the random numbers, growing starts with the data of the file but for the order
of the values of the target if `-permute` is given, and of the other features with matching names if `-shuffleRE` is; each
value keeps its missing mark. -/
theorem c116_only (nt : NumText K) (fm : FeatureMatrix K) (he : ∀ f ∈ fm.data, f.Even) (targeti : Nat)
    (ht : targeti < fm.data.length) (permute : Bool) (re : Option (String → Bool)) (rng : Rng) :
    ∃ fm' rng', prepare nt fm targeti false permute re rng = some (fm', rng') ∧
      OnlyRearranged (fun i => i = targeti ∧ permute = true ∨
        i ≠ targeti ∧ ∃ p f, re = some p ∧ fm.data[i]? = some f ∧ p f.name = true) fm fm' := by
  have hself : OnlyRearranged (fun _ => False) fm fm :=
    ⟨Eq.refl _, Eq.refl _, Eq.refl _, fun i f hi =>
      ⟨f, hi, Rearranged.rfl (he f (List.mem_of_getElem? hi)), fun _ => Eq.refl _⟩⟩
  have h1 : ∃ fm1 rng1, (if permute then fm.shuffleAt targeti rng else some (fm, rng)) = some (fm1, rng1) ∧
      OnlyRearranged (fun i => i = targeti ∧ permute = true) fm fm1 := by
    cases permute with
    | false => exact ⟨fm, rng, Eq.refl _, hself.weaken fun _ h => h.elim⟩
    | true =>
      obtain ⟨fm1, rng1, e, h⟩ := shuffleAt_ok fm he targeti ht rng
      exact ⟨fm1, rng1, e, h.weaken fun i hi => ⟨hi, Eq.refl _⟩⟩
  obtain ⟨fm1, rng1, e1, h1⟩ := h1
  have hun : prepare nt fm targeti false permute re rng =
      match re with
      | none => some (fm1, rng1)
      | some p => FeatureMatrix.shuffleWhere targeti p fm1.data.zipIdx fm1 rng1 := by
    unfold prepare
    cases permute with
    | false =>
      simp only [Bool.false_eq_true, if_false, Option.some.injEq, Prod.mk.injEq] at e1
      rw [← e1.1, ← e1.2]
      exact Eq.refl _
    | true =>
      simp only [if_true] at e1
      simp only [Bool.false_eq_true, if_false, if_true, Option.bind_eq_bind, Option.bind_some, e1]
      cases re <;> exact Eq.refl _
  rw [hun]
  cases re with
  | none => exact ⟨fm1, rng1, Eq.refl _, h1.weaken fun i hi => .inl hi⟩
  | some p =>
    obtain ⟨fm2, rng2, e2, h2⟩ := shuffleWhere_ok targeti p fm1.data.length fm1.data.zipIdx (by
      intro x hx
      have := List.snd_lt_of_mem_zipIdx hx
      simpa using this) fm1 h1.even (Eq.refl _) rng1
    refine ⟨fm2, rng2, e2, (h1.trans h2).weaken fun i hi => ?_⟩
    rcases hi with hi | ⟨hi, x, hx, rfl, hp⟩
    · exact .inl hi
    · obtain ⟨g, k⟩ := x
      rw [List.mem_zipIdx_iff_getElem?] at hx
      simp only at hx hi hp ⊢
      have hlt : k < fm.data.length := by
        have := (List.getElem?_eq_some_iff.1 hx).1
        have := h1.2.2.1
        omega
      obtain ⟨g', hg', hr, -⟩ := h1.2.2.2 k fm.data[k] (List.getElem?_eq_getElem hlt)
      rw [hx] at hg'
      cases hg'
      exact .inr ⟨hi, p, fm.data[k], Eq.refl _, List.getElem?_eq_getElem hlt, by rw [← hr.name]; exact hp⟩

/-- **C116**, permuting the target: every order of its cases comes out for some random numbers. -/
theorem c116_any (nt : NumText K) (fm : FeatureMatrix K) (targeti : Nat) (f : CatFeature)
    (hf : fm.data[targeti]? = some (.cat f)) (hl : f.catData.length = f.missing.length) (π : Equiv.Perm Nat)
    (hπ : ∀ c, f.missing.length ≤ c → π c = c) :
    ∃ rng fm' rng' g, prepare nt fm targeti false true none rng = some (fm', rng') ∧
      fm'.data[targeti]? = some (.cat g) ∧
      ∀ c, g.missing[c]? = f.missing[π c]? ∧ g.catData[c]? = f.catData[π c]? := by
  obtain ⟨rng, g, rng', e, h⟩ := (c31_shuffle_cat (K := K) f hl).2 π hπ
  refine ⟨rng, { fm with data := fm.data.set targeti (.cat g) }, rng', g, ?_, ?_, h⟩
  · unfold prepare FeatureMatrix.shuffleAt
    simp only [hf, e, Bool.false_eq_true, if_false, if_true, Option.bind_eq_bind, Option.bind_some]
  · have := (List.getElem?_eq_some_iff.1 hf).1
    simp [this]

/-! ## C115: cases of unknown target -/

/-- **C115**, the part that holds: without `-impute` and `-permute` the target is as in the file, and with `-permute` as
many cases are of unknown target. -/
theorem c115_known_partial (nt : NumText K) (fm : FeatureMatrix K) (he : ∀ f ∈ fm.data, f.Even) (targeti : Nat)
    (f : Feature K) (hf : fm.data[targeti]? = some f) (permute : Bool) (re : Option (String → Bool)) (rng : Rng) :
    ∃ fm' rng' g, prepare nt fm targeti false permute re rng = some (fm', rng') ∧ fm'.data[targeti]? = some g ∧
      (permute = false → g = f) ∧ nKnown g.marks = nKnown f.marks := by
  obtain ⟨fm', rng', e, h⟩ := c116_only nt fm he targeti (List.getElem?_eq_some_iff.1 hf).1 permute re rng
  obtain ⟨g, hg, hr, hk⟩ := h.2.2.2 targeti f hf
  refine ⟨fm', rng', g, e, hg, fun hp => hk ?_, ?_⟩
  · rintro (⟨-, h⟩ | ⟨h, -⟩)
    · rw [hp] at h
      cases h
    · exact h (Eq.refl _)
  · have key : ∀ {α : Type} (m m' : List Bool) (d d' : List α), d.length = m.length → d'.length = m'.length →
        (m'.zip d').Perm (m.zip d) → nKnown m' = nKnown m := by
      intro α m m' d d' hl hl' hp
      have := hp.map Prod.fst
      rw [List.map_fst_zip (by omega), List.map_fst_zip (by omega)] at this
      exact this.countP_eq _
    have hev := he f (List.mem_of_getElem? hf)
    cases f <;> cases g
    · exact key _ _ _ _ hev hr.2.2 hr.1
    · exact hr.elim
    · exact hr.elim
    · exact key _ _ _ _ hev hr.2.2 hr.1

theorem mapM_get {α β : Type} {f : α → Option β} : ∀ {l : List α} {r : List β}, l.mapM f = some r →
    ∀ (i : Nat) (a : α), l[i]? = some a → ∃ b, f a = some b ∧ r[i]? = some b := by
  intro l
  induction l with
  | nil => intro r _ i a h; simp at h
  | cons x l ih =>
    intro r h i a hi
    rw [List.mapM_cons] at h
    obtain ⟨b, hb, h⟩ := Option.bind_eq_some_iff.1 h
    obtain ⟨bs, hbs, h⟩ := Option.bind_eq_some_iff.1 h
    cases h
    cases i with
    | zero =>
      simp only [List.getElem?_cons_zero, Option.some.injEq] at hi
      subst hi
      exact ⟨b, hb, by simp⟩
    | succ i => exact ih hbs i a (by simpa using hi) |>.imp fun b h => ⟨h.1, by simpa using h.2⟩

/-- **C115 is false of the code** with `-impute`: the target is imputed like any feature. Every case of unknown class gets
the most frequent class and is taken for known, so trees are grown from it. -/
theorem c115_impute (nt : NumText K) (fm fm' : FeatureMatrix K) (targeti : Nat) (f : CatFeature)
    (hf : fm.data[targeti]? = some (.cat f)) (hc : f.Consistent) (hk : false ∈ f.missing) (rng rng' : Rng)
    (h : prepare nt fm targeti true false none rng = some (fm', rng')) :
    ∃ g m, fm'.data[targeti]? = some (.cat g) ∧ f.MostFrequent (knownOf f.missing (List.range f.missing.length)) m ∧
      (∀ c : Nat, f.missing[c]? = some true → g.missing[c]? = some false ∧ g.getStr c = f.cm.back[m]?) ∧
      nKnown g.missing = f.missing.length := by
  unfold prepare FeatureMatrix.imputeMissing at h
  simp only [if_true, Option.bind_eq_bind] at h
  obtain ⟨fm1, h1, h⟩ := Option.bind_eq_some_iff.1 h
  obtain ⟨data, h2, h1⟩ := Option.bind_eq_some_iff.1 h1
  cases h1
  cases h
  obtain ⟨b, hb, hr⟩ := mapM_get h2 targeti _ hf
  obtain ⟨g, m, e, hm, -, -, -, h5, h6, -⟩ := c32_cat f hc hk
  have : b = .cat g := by
    have : Feature.apply nt (.cat (K := K) f) .impute = some (.cat g) := by
      simp [Feature.apply, e]
    rw [this] at hb
    exact (Option.some.inj hb).symm
  subst this
  refine ⟨g, m, hr, hm, fun c hcm => ⟨?_, (h5 c hcm).2⟩, ?_⟩
  · rw [h6]
    have := (List.getElem?_eq_some_iff.1 hcm).1
    simp [this]
  · rw [h6]
    unfold nKnown
    rw [List.countP_replicate]
    rfl

/-! ## Example -/

/-- A matrix with a target of which one case is unknown. -/
def exSetup : FeatureMatrix ℚ where
  data := [.num ⟨[.fin 1, .fin 2, .fin 3, .fin 4], [false, false, false, false], "N:x", false⟩,
    .cat ⟨⟨fun s => if s = "a" then some 0 else if s = "b" then some 1 else none, ["a", "b"]⟩, [0, 1, 0, 0],
      [false, false, true, false], "C:y", false, true⟩]
  map := fun s => if s = "N:x" then some 0 else if s = "C:y" then some 1 else none
  caseLabels := ["0", "1", "2", "3"]

/-- The values of a feature, categories by number. -/
def exValuesOf : Feature ℚ → List ℚ
  | .num f => f.numData.map fun x => match x with
    | .fin q => q
    | _ => -1
  | .cat f => f.catData.map fun k => (k : ℚ)

example : (prepare exNums exSetup 1 false true (some fun s => s.toList.head? == some 'N') (fun k => k + 1)).map
    (fun r => (r.1.data.map Feature.marks, r.1.data.map exValuesOf)) =
    some ([[false, false, false, false], [false, false, false, true]], [[2, 1, 4, 3], [1, 0, 0, 0]]) := by
  decide +kernel

example : (prepare exNums exSetup 1 true false none (fun k => k)).map
    (fun r => (r.1.data.map Feature.marks, r.1.data.map exValuesOf)) =
    some ([[false, false, false, false], [false, false, false, false]], [[1, 2, 3, 4], [0, 1, 0, 0]]) := by
  decide +kernel

end CloudForest
