import Verif.Lemmas.Splitter
import Verif.Spec.Splitter
import Verif.Lemmas.Search
import Verif.Lemmas.Coded
import Verif.Lemmas.Grow2

/-! # Lemmas about evaluating one candidate feature, and `BestSplitter` -/

set_option linter.unusedSectionVars false

namespace CloudForest
variable {K : Type} [Field K] [LinearOrder K] [IsStrictOrderedRing K] {τ : Type}

theorem countLaws_total3 (f : CatFeature) (imp : Nat → List Int → XF K) (n : Nat) (cases : List Nat)
    (h : f.InRange n cases) : (countLaws f imp n cases h).Total3 := by
  rintro a l r m ⟨h1, h2, h3⟩ hcs
  show ∃ x a', countSplitImpurity f imp a l r (some m) = some (x, a') ∧ countOk n a'
  unfold countSplitImpurity
  rw [countPerCat_eq f l a.lcounter (by rw [h2]; exact fun c hc => h c (hcs c (by simp [hc]))),
    countPerCat_eq f r a.rcounter (by rw [h3]; exact fun c hc => h c (hcs c (by simp [hc])))]
  simp only [Option.bind_eq_bind, Option.bind_some, missBlock]
  by_cases hm : 0 < m.length
  · simp only [hm, ↓reduceIte]
    rw [countPerCat_eq f m a.counter (by rw [h1]; exact fun c hc => h c (hcs c (by simp [hc])))]
    refine ⟨_, _, rfl, ?_, ?_, ?_⟩ <;> simp [counts_length, h1, h2, h3]
  · simp only [hm, ↓reduceIte]
    refine ⟨_, _, rfl, h1, ?_, ?_⟩ <;> simp [counts_length, h2, h3]

theorem sseLaws_total3 (f : NumFeature K) (cases : List Nat) (h : f.Finite cases) :
    (sseLaws f cases h).Total3 := by
  rintro a l r m - hcs
  show ∃ x a', f.splitImpurity a l r (some m) = some (x, a') ∧ True
  unfold NumFeature.splitImpurity
  rw [sums_eq f l (fun c hc => h c (hcs c (by simp [hc]))),
    sums_eq f r (fun c hc => h c (hcs c (by simp [hc])))]
  simp only [Option.bind_eq_bind, Option.bind_some, missBlock]
  by_cases hm : 0 < m.length
  · simp only [hm, ↓reduceIte]
    rw [sums_eq f m (fun c hc => h c (hcs c (by simp [hc])))]
    exact ⟨_, _, rfl, trivial⟩
  · simp only [hm, ↓reduceIte]
    exact ⟨_, _, rfl, trivial⟩

theorem FeatOk.isMissing {F : Feature K} {cases : List Nat} (h : FeatOk F cases) {c : Nat}
    (hc : c ∈ cases) : F.isMissing c ≠ none := by
  have := h.valid c hc
  cases F <;> simp_all [Feature.isMissing, Feature.ValidCase]

theorem FeatOk.searchable {F : Feature K} {cases cs : List Nat} (h : FeatOk F cases)
    (hcs : ∀ c ∈ cs, c ∈ cases) : F.Searchable (F.knowns cs) := by
  have hk : ∀ c ∈ F.knowns cs, c ∈ F.knowns cases := by
    intro c hc
    unfold Feature.knowns at hc ⊢
    rw [List.mem_filter] at hc ⊢
    exact ⟨hcs c hc.1, hc.2⟩
  have := h.vals
  cases F with
  | num f => exact fun c hc => this c (hk c hc)
  | cat f => exact fun c hc => this c (hk c hc)

theorem FeatOk.split {F : Feature K} {cases cs : List Nat} (h : FeatOk F cases)
    (hcs : ∀ c ∈ cs, c ∈ cases) {code : Coded K} (hfit : F.CodeFits code) :
    ∃ sp, F.split code cs = some sp ∧ sp.cases.Perm cs ∧
      (sp.left ++ sp.missing ++ sp.right).Perm cs := by
  unfold Feature.split
  obtain ⟨r, hr⟩ := splitLoop_some F.missTest (F.codedLeft code) cs 0 0 cs.length (le_refl _)
    (Nat.zero_le _) (le_refl _) (fun c hc => missTest_ne_none (h.valid c (hcs c hc))) (by
      intro c hc _
      have := h.valid c (hcs c hc)
      cases F <;> cases code <;>
        first | exact absurd hfit id | simp_all [Feature.codedLeft, Feature.ValidCase])
  rw [hr]
  have ht := splitLoop_threeWay _ _ _ _ hr
  exact ⟨_, rfl, ht.perm, ht.order ▸ ht.perm⟩

/-- What the state of a search keeps. -/
structure EvalState {T : Target K} {cases : List Nat} (L : TargetLaws T cases) (good : τ → Prop)
    (cs oob : List Nat) (s : Searching K τ) : Prop where
  cases_ : s.work.cases.Perm cs
  allocs : L.Ok s.work.allocs
  oob_ : s.oob.Perm oob
  contrast : good s.contrast

/-- What is known about an evaluated feature. -/
structure EvalGood (fm : FeatureMatrix K) (leafSize : Nat) (cs : List Nat) (i : Nat) (r : Found K) :
    Prop where
  feat : ∃ f, fm.data[i]? = some f ∧ (∀ code, r.code = some code → f.CodeFits code) ∧
    (minImp < r.imp → ∃ code, r.code = some code ∧ AdmCode f leafSize (f.knowns cs) code)

theorem admCode_knowns_perm {F : Feature K} {leafSize : Nat} {cs cs' : List Nat} (h : cs.Perm cs')
    {code : Coded K} (ha : AdmCode F leafSize (F.knowns cs) code) :
    AdmCode F leafSize (F.knowns cs') code :=
  (admCode_perm leafSize (h.filter _) code).1 ha

section
variable {fm : FeatureMatrix K} {T : Target K} {cases : List Nat} {L : TargetLaws T cases}
  {C : Contrast K τ} {good : τ → Prop} {o : SplitOpts} {cs oob : List Nat}

theorem bestSplit_eval {T : Target K} {L : TargetLaws T cases} {F : Feature K} (hF : FeatOk F cases) (hls : 1 ≤ o.leafSize)
    (parentImp : XF K) (w : Work K) (hcs : ∀ c ∈ w.cases, c ∈ cases) (hok : L.Ok w.allocs) :
    ∃ r w', F.bestSplit T parentImp o.leafSize o.extraRandom w = some (r, w') ∧
      w'.cases.Perm w.cases ∧ L.Ok w'.allocs ∧
      (∀ code, r.code = some code → F.CodeFits code) ∧
      (minImp < r.imp → ∃ code, r.code = some code ∧
        AdmCode F o.leafSize (F.knowns w.cases) code) := by
  obtain ⟨r, w', e, h1, h2, h3⟩ := bestSplit_ok L parentImp o.leafSize F hls o.extraRandom w hcs
    (hF.searchable hcs) (fun c hc => hF.isMissing (hcs c hc)) hF.sound hok
  refine ⟨r, w', e, h1, h2, ?_, ?_⟩
  · rcases h3 with ⟨-, -, rfl⟩ | ⟨r0, w0, w1, -, -, -, hs, hc, -, -⟩
    · intro code h; cases h
    · rw [hc]; exact hs.fits
  · rcases h3 with ⟨-, -, rfl⟩ | ⟨r0, w0, w1, -, -, -, hs, hc, -, hi⟩
    · intro h
      have : (1 / 10000000 : K) < 0 := h
      have h0 : (0 : K) < 1 / 10000000 := by positivity
      exact absurd this (not_lt.2 h0.le)
    · intro hlt
      rw [hc]
      apply hs.adm
      rw [hi] at hlt
      split at hlt
      · rename_i hh; exact hh.2
      · exact hlt

theorem oobStep_ok {F : Feature K} (hF : FeatOk F cases) (h3 : o.evaloob = true → L.Total3) {best : XF K}
    (hbest : best = minImp ∨ minImp < best) {r : Found K} {s : Searching K τ}
    (hs : EvalState L good cs oob s) (hoob : ∀ c ∈ oob, c ∈ cases)
    (hfit : ∀ code, r.code = some code → F.CodeFits code)
    (hadm : minImp < r.imp → ∃ code, r.code = some code ∧ AdmCode F o.leafSize (F.knowns cs) code) :
    ∃ x s', oobStep F T o best r s = some (x, s') ∧ EvalState L good cs oob s' ∧
      (minImp < x → minImp < r.imp) := by
  unfold oobStep
  by_cases hlt' : o.evaloob = true ∧ best < r.imp
  · rw [if_pos hlt']
    obtain ⟨he, hlt⟩ := hlt'
    have hlt' : minImp < r.imp := by
      rcases hbest with h | h
      · rwa [h] at hlt
      · exact XF.lt_trans' h hlt
    obtain ⟨code, hc, -⟩ := hadm hlt'
    have ho : ∀ c ∈ s.oob, c ∈ cases := fun c hc => hoob c (hs.oob_.subset hc)
    obtain ⟨sp, e1, hp1, hp2⟩ := hF.split ho (hfit code hc)
    obtain ⟨a1, e2, hok1⟩ := L.impurity s.work.allocs sp.cases hs.allocs
      (fun c hc => ho c (hp1.subset hc))
    obtain ⟨x, a2, e3, hok2⟩ := h3 he a1 sp.left sp.right sp.missing hok1 (by
      intro c hc
      apply ho c (hp2.subset _)
      simp only [List.mem_append] at hc ⊢
      tauto)
    rw [hc]
    simp only [Option.bind_eq_bind, Option.bind_some, e1, e2, e3]
    exact ⟨_, _, rfl, ⟨hs.cases_, hok2, hp1.trans hs.oob_, hs.contrast⟩, fun _ => hlt'⟩
  · rw [if_neg hlt']
    exact ⟨_, _, rfl, hs, id⟩

theorem vetStep_ok {F : Feature K} (hF : FeatOk F cases) (hC : o.vet = true → ContrastOk L C good)
    (hls : 1 ≤ o.leafSize) {best imp parentImp : XF K}
    (hbest : best = minImp ∨ minImp < best) {s : Searching K τ}
    (hs : EvalState L good cs oob s) (hcs : ∀ c ∈ cs, c ∈ cases) (hoob : ∀ c ∈ oob, c ∈ cases) :
    ∃ x s', vetStep F C o parentImp best imp s = some (x, s') ∧ EvalState L good cs oob s' ∧
      (minImp < x → minImp < imp) := by
  unfold vetStep
  by_cases hlt' : o.vet = true ∧ best < imp
  · rw [if_pos hlt']
    obtain ⟨he, hlt⟩ := hlt'
    have hlt' : minImp < imp := by
      rcases hbest with h | h
      · rwa [h] at hlt
      · exact XF.lt_trans' h hlt
    have ho : ∀ c ∈ (if o.evaloob then s.oob else s.work.cases), c ∈ cases := by
      split
      · exact fun c hc => hoob c (hs.oob_.subset hc)
      · exact fun c hc => hcs c (hs.cases_.subset hc)
    obtain ⟨c', rng', e1, hg⟩ := (hC he).shuffle s.contrast _ s.work.rng hs.contrast ho
    obtain ⟨L', hL'⟩ := (hC he).laws c' hg
    obtain ⟨v, w', e2, hp, hok, -⟩ := bestSplit_eval (L := L') hF hls parentImp
      ⟨if o.evaloob then s.oob else s.work.cases, s.work.allocs, rng'⟩ ho (by rw [hL']; exact hs.allocs)
    simp only [Option.bind_eq_bind, e1, Option.bind_some]
    rw [e2, Option.bind_some]
    rw [hL'] at hok
    refine ⟨_, _, rfl, ?_, fun _ => hlt'⟩
    simp only at hp
    split
    · rename_i he
      rw [if_pos he] at hp
      exact ⟨hs.cases_, hok, hp.trans hs.oob_, hg⟩
    · rename_i he
      rw [if_neg he] at hp
      exact ⟨hp.trans hs.cases_, hok, hs.oob_, hg⟩
  · rw [if_neg hlt']
    exact ⟨_, _, rfl, hs, id⟩

theorem evalFeature_ok (hM : ∀ f ∈ fm.data, FeatOk f cases) (h3 : o.evaloob = true → L.Total3)
    (hC : o.vet = true → ContrastOk L C good) (hls : 1 ≤ o.leafSize) (parentImp : XF K)
    (hcs : ∀ c ∈ cs, c ∈ cases) (hoob : ∀ c ∈ oob, c ∈ cases)
    {s : Searching K τ} (hs : EvalState L good cs oob s) {best : XF K}
    (hbest : best = minImp ∨ minImp < best) {i : Nat} (hi : i < fm.data.length) :
    ∃ r s', evalFeature fm T C o parentImp s best i = some (r, s') ∧
      EvalState L good cs oob s' ∧ EvalGood fm o.leafSize cs i r := by
  unfold evalFeature
  have hf : fm.data[i]? = some fm.data[i] := List.getElem?_eq_getElem hi
  have hF := hM fm.data[i] (List.getElem_mem hi)
  rw [hf]
  obtain ⟨r, w', e1, hp, hok, hfit, hadm⟩ := bestSplit_eval (L := L) hF hls parentImp s.work
    (fun c hc => hcs c (hs.cases_.subset hc)) hs.allocs
  simp only [Option.bind_eq_bind, Option.bind_some, e1]
  have hs1 : EvalState L good cs oob { s with work := w' } :=
    ⟨hp.trans hs.cases_, hok, hs.oob_, hs.contrast⟩
  have hadm1 : minImp < r.imp → ∃ code, r.code = some code ∧
      AdmCode fm.data[i] o.leafSize (fm.data[i].knowns cs) code := by
    intro h
    obtain ⟨code, hc, ha⟩ := hadm h
    exact ⟨code, hc, admCode_knowns_perm hs.cases_ ha⟩
  obtain ⟨x, s2, e2, hs2, hx⟩ := oobStep_ok (o := o) hF h3 hbest hs1 hoob hfit hadm1
  rw [e2]
  simp only [Option.bind_some]
  obtain ⟨y, s3, e3, hs3, hy⟩ := vetStep_ok (o := o) (imp := x) (parentImp := parentImp) hF hC hls
    hbest hs2 hcs hoob
  rw [e3]
  exact ⟨_, _, rfl, hs3, ⟨_, hf, hfit, fun h => hadm1 (hx (hy h))⟩⟩

theorem searching_intn (s : Searching K τ) (n : Nat) (hs : EvalState L good cs oob s) (hn : 0 < n) :
    ∃ x s', s.intn n = some (x, s') ∧ x < n ∧ EvalState L good cs oob s' := by
  unfold Searching.intn Rng.intn
  rw [if_neg (by omega)]
  exact ⟨_, _, rfl, Nat.mod_lt _ hn, ⟨hs.cases_, hs.allocs, hs.oob_, hs.contrast⟩⟩

end
end CloudForest
