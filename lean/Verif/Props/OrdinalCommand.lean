import Verif.Lemmas.OrdinalCommand
import Verif.Props.ApplyWhole

/-!
C168: ordinal targets from the data file to predictions.
-/

set_option linter.unusedSectionVars false

namespace CloudForest
variable {K : Type} [Field K] [LinearOrder K] [IsStrictOrderedRing K]

/-- **C168**, what holds. The text of a table is parsed, growforest -ordinal grows a forest for a target of whole numbers that are
not negative, applyforest reads the file and the table. Nothing on this way panics up to the counting of votes; growforest can only go on
drawing. A tree answers with a value that is the most frequent among its neighbours in the bag, always the same from the same neighbours.
With `-mode`, a value that most trees answer is predicted. Without it, the mean of the answers is.

Missing from the full property: the mean need not be a value of the target, `c168_between`, and with `-mode` applyforest panics after
the votes are counted if the table has the target, `c168_mode`. -/
theorem c168_ordinal_partial [FloorRing K] {nt : NumText K} (hnt : ∀ x, nt.Faithful x) {ord : Splitter K → List String}
    (hord : ∀ s : Splitter K, (ord s).Perm s.left) {order : List Nat → List Nat} (horder : ∀ bag, (order bag).Perm bag)
    {text : Text} {fm : FeatureMatrix K} (hp : parseAFM nt text = some fm) {a : GrowArgs} (hc : fm.Clean a.target)
    {f : NumFeature K} (hf : .num f ∈ fm.data) (hn : f.name = a.target) (hids : a.target ∉ a.blacklist) (hbal : a.balance = false)
    {m l s : Int}
    (hm : inferMTry nt a.mTry (allowedFeatures fm a.blacklist a.target a.block a.incl).length = some m)
    (hmle : m ≤ (allowedFeatures fm a.blacklist a.target a.block a.incl).length)
    (hl : inferLeafSize nt a.leafSize false 0 (nKnown f.missing) = some l)
    (hs : inferNSamples nt a.nSamples (nKnown f.missing) = some s) (hcores : 1 ≤ a.nCores)
    (hvet : ¬ (a.vet = true ∧ a.evaloob = true)) {trunc : XF K → Int} (htr : KeepsWhole trunc) (hw : f.KnownWhole) (draws : Nat)
    (own global : Nat → Rng) (pick : Nat → Nat) :
    ∃ value : List Nat → K, (∀ S, S ≠ [] → (∀ c ∈ S, f.missing[c]? = some false) → f.Commonest S (value S)) ∧
    (growOrdinalCommand trunc nt ord a draws order text own global pick = none →
      a.nobag = false ∧ ∃ rng, bagLoop (f.missing[·]?) f.missing.length s.toNat draws [] rng = none) ∧
    ∀ file, growOrdinalCommand trunc nt ord a draws order text own global pick = some file →
      ∃ voters : List (Tree K × List Nat), voters.length = max a.nCores a.nTrees ∧
        (∀ x ∈ voters, (∀ c ∈ x.2, f.missing[c]? = some false) ∧ x.2.length ≤ s ∧ (a.nobag = false → x.2.length = s ∧ x.2 ≠ []) ∧
          (x.2 ≠ [] → ∀ c < fm.caseLabels.length,
            AnswersBy fm (fun S p => S ≠ [] ∧ p = String.ofList (nt.fmt (.fin (value S)))) x c)) ∧
        (∀ (tanh : XF K → XF K) (o : ApplyOptions), o.sum = false → o.cat = false → (∀ x ∈ voters, x.2 ≠ []) →
          ∃ forest bb, applyCommand nt o file text = some (forest, bb) ∧ forest.target = a.target ∧
            ∀ c < fm.caseLabels.length, ∀ res, bb.Predicts nt tanh o forest.intercept c res ↔
              res = some (if answersFor fm value voters c = [] then "NA" else
                String.ofList (nt.fmt (.fin ((answersFor fm value voters c).sum / (answersFor fm value voters c).length))))) ∧
        ∀ (tanh : XF K → XF K) (o : ApplyOptions), o.sum = false → o.cat = true →
          ∃ forest bb, applyCommand nt o file text = some (forest, bb) ∧ forest.target = a.target ∧
            ∀ c < fm.caseLabels.length, (∃ res, bb.Predicts nt tanh o forest.intercept c res) ∧
              ∀ res, bb.Predicts nt tanh o forest.intercept c res → ∃ p, res = some p ∧
                ((p = "NA" ∧ ∀ q, votesFor fm voters c q = 0) ∨
                  (0 < votesFor fm voters c p ∧ ∀ q, votesFor fm voters c q ≤ votesFor fm voters c p)) := by
  obtain ⟨ti, b, hP⟩ := prepared hp hc hf hn hids
  have hl1 := inferLeafSize_pos hl
  obtain ⟨i, hi⟩ := hc.known _ hf hn
  have hs1 := inferNSamples_pos (nKnown_pos hi) hs
  have hcons : f.Consistent := (c139_afm nt text fm hp).1.consistent _ hf
  have hlen : f.missing.length = fm.caseLabels.length := hP.length
  obtain ⟨hfin, hwh, od, hod, L, good, hr, hok⟩ := ordinal_ready (m := m.toNat) (l := l.toNat) (s := s.toNat) hp hc hf hn hP (by omega) (by omega) horder draws htr hw
  have hcmd : growOrdinalCommand trunc nt ord a draws order text own global pick =
      ((a.ordinalRun trunc nt fm f od m.toNat l.toNat s.toNat draws order).runCores (a.ordinalRun trunc nt fm f od m.toNat l.toNat s.toNat draws order).grower
        a.nCores (nKnown f.missing) 0 (candidates fm ti b.marks) own global pick).bind fun out =>
      growforestFile nt ord a.progress a.target none (out.map (·.1)) := by
    simp only [growOrdinalCommand, hp, hP.chosen, hP.count, hm, hP.target, hl, hs, hbal, hod, Option.bind_eq_bind, Option.bind_some]
    rfl
  have htidy := hc.tidy _ hf
  obtain ⟨h1, h2⟩ := run_read hr hvet rfl hcores hok own global pick hnt
    (fun g hg => by have := hc.tidy g hg; cases g <;> exact this)
    (fun cs => by
      show Plain ((od.findPredicted trunc nt cs).getD "").toList
      cases hfp : od.findPredicted trunc nt cs with
      | none => exact plain_empty
      | some p =>
        unfold Ordinal.findPredicted at hfp
        obtain ⟨m, -, hb⟩ := Option.bind_eq_some_iff.1 hfp
        cases hb
        rw [Option.getD_some, String.toList_ofList]
        exact (hnt m).1) (by
      show Plain a.target.toList
      rw [← hn]
      exact htidy) ord hord a.progress
  rw [hcmd]
  refine ⟨modeOf trunc od, fun S hS hk => (modeOf_commonest htr hwh hod nt hk hS).2, fun h => ?_, fun file h => ?_⟩
  · obtain ⟨rng, hh, he⟩ := h1 h
    refine ⟨?_, rng, he⟩
    have hh : (if a.nobag then Bagging.nobag else .plain) = .plain := hh
    cases hnb : a.nobag with
    | false => rfl
    | true => rw [hnb] at hh; cases hh
  · obtain ⟨out, forest, c1, hrec, c4, c5, c6, c7, -⟩ := h2 file h
    obtain ⟨c2, c3⟩ := recorded_voters hr rfl hrec
    have hans : ∀ x ∈ out.map voterOf, x.2 ≠ [] → ∀ c < fm.caseLabels.length,
        (x.1.opinion fm c = none → ∃ g ∈ fm.data, g.isMissing c = some true) ∧
        ∀ p, x.1.opinion fm c = some p → neighbours fm x.1 x.2 c ≠ [] ∧
          p = String.ofList (nt.fmt (.fin (modeOf trunc od (neighbours fm x.1 x.2 c)))) := by
      intro x hx hne c hcl
      obtain ⟨-, -, d2, d3⟩ := c3 x hx
      obtain ⟨e1, e2⟩ := d3 c (List.mem_range.2 (by rw [← hlen] at hcl; exact hcl))
      refine ⟨e1, fun p ho => ?_⟩
      obtain ⟨S, g1, g2, g3⟩ := e2 p ho
      have hk : ∀ d ∈ S, f.missing[d]? = some false := fun d hd => d2 d (List.mem_filter.1 (g1.mem_iff.1 hd)).1
      refine ⟨fun h0 => g3 hne (by rw [show neighbours (a.ordinalRun trunc nt fm f od m.toNat l.toNat s.toNat draws order).fm x.1 x.2 c = [] from h0] at g1; exact List.perm_nil.1 g1), ?_⟩
      rw [g2]
      show (od.findPredicted trunc nt S).getD "" = _
      rw [(modeOf_commonest htr hwh hod nt hk (g3 hne)).1, modeOf_perm trunc od g1]
      rfl
    refine ⟨out.map voterOf, by rw [List.length_map]; exact c1, ?_, ?_, ?_⟩
    · intro x hx
      obtain ⟨-, d1, d2, d3⟩ := c3 x hx
      have d1a : x.2.length ≤ s.toNat := d1.1
      refine ⟨d2, by omega, fun hnb => ?_, fun hne c hcl => ?_⟩
      · have : x.2.length = s.toNat := d1.2 (by
          show (if a.nobag then Bagging.nobag else .plain).isNobag = false
          rw [hnb]
          rfl)
        exact ⟨by omega, List.ne_nil_of_length_pos (by omega)⟩
      · obtain ⟨e1, e2⟩ := hans x hx hne c hcl
        unfold AnswersBy
        cases ho : x.1.opinion fm c with
        | none => exact e1 ho
        | some p => exact e2 p ho
    · intro tanh o hsum hcat hne
      have hw : ∀ x ∈ out.map voterOf, x.1.weight = .fin (-1) := fun x hx => (c3 x hx).1
      have hN : a.target.toList.head? = some 'N' := by
        rw [← hn]
        exact parsed_num_name hp hf
      obtain ⟨bb, e1, e2⟩ := c97_mean_partial nt tanh o (cleaned a.target out) fm fm.caseLabels.length 0 hP.cases c2 rfl hsum hcat
        (.inr hN) (by
          rw [cleaned_voters]
          intro t ht
          obtain ⟨x, hx, rfl⟩ := List.mem_map.1 ht
          rw [say_one (hw x hx)]
          exact zero_lt_one) (by
          rw [cleaned_voters]
          intro t ht c hcl p y ho hy
          obtain ⟨x, hx, rfl⟩ := List.mem_map.1 ht
          have := ((hans x hx (hne x hx) c hcl).2 p ho).2
          rw [this, String.toList_ofList, (hnt _).2] at hy
          cases hy
          exact .inr ⟨_, rfl⟩)
      refine ⟨forest, bb, ?_, c5, ?_⟩
      · have := c7 o
        simp only [applyCommand, hp, c4, Option.bind_eq_bind, Option.bind_some]
        rw [show applyForest nt o forest fm = some bb from this.trans e1]
        rfl
      · rw [c6]
        intro c hcl res
        have := e2 c hcl res
        rw [cleaned_voters, numbersOf_answers hnt fm (modeOf trunc od) c _ hw fun x hx p ho => ((hans x hx (hne x hx) c hcl).2 p ho).2,
          means_average] at this
        simp only [if_pos, List.map_eq_nil_iff] at this
        exact this
    · intro tanh o hsum hcat
      obtain ⟨bb, e1, e2⟩ := c97_classes nt tanh o (cleaned a.target out) fm fm.caseLabels.length hP.cases c2 rfl hsum (.inl hcat)
      refine ⟨forest, bb, ?_, c5, ?_⟩
      · have := c7 o
        simp only [applyCommand, hp, c4, Option.bind_eq_bind, Option.bind_some]
        rw [show applyForest nt o forest fm = some bb from this.trans e1]
        rfl
      · rw [c6]
        intro c hcl
        obtain ⟨g1, g2⟩ := e2 c hcl
        refine ⟨g1, fun res hres => ?_⟩
        obtain ⟨p, hp', g3⟩ := g2 res hres
        have hw : ∀ q, weightOf fm (cleaned a.target out).trees c q = (votesFor fm (out.map voterOf) c q : K) := by
          intro q
          rw [cleaned_voters]
          exact weightOf_votes fm c q _ fun x hx => (c3 x hx).1
        refine ⟨p, hp', ?_⟩
        simp only [hw] at g3
        rcases g3 with ⟨g4, g5⟩ | ⟨g4, g5⟩
        · exact .inl ⟨g4, fun q => by have := g5 q; exact_mod_cast Nat.le_zero.1 (by exact_mod_cast this)⟩
        · exact .inr ⟨by exact_mod_cast g4, fun q => by exact_mod_cast g5 q⟩

/-! ## Examples -/

/-- The file of an ordinal forest. -/
def exOrdinalFile (a : GrowArgs) (shared : Rng) (text : Text) : Option Text :=
  growOrdinalCommand exTrunc exStrokes (fun s => s.left) a 20 id text (fun _ k => 5 * k + 1) (fun _ => shared) id

/-- What is printed and written for a table by an ordinal forest. -/
def exOrdinal (a : GrowArgs) (o : ApplyOptions) (shared : Rng) (text : Text) : Option (Option (XF ℚ) × List (String × String × String)) :=
  (exOrdinalFile a shared text).bind fun file =>
    (applyCommand exStrokes o file text).bind fun x => applyWhole exStrokes o file text (firstTally exStrokes x) (firstTally exStrokes x)

/-- A target on the scale 0, 1, 3, and a number to predict it from. -/
def exScale : Text := ".\tN:x\tN:k\na\t01\t0\nb\t0111\t01\nc\t0111\t011\nd\t01\t0111\ne\t0\t01111\n".toList

/-- A check for targets of whole numbers. -/
def knownWholeCheck (f : NumFeature ℚ) : Bool :=
  (List.range f.missing.length).all fun i => match f.numData[i]? with
    | some (.fin x) => decide (x = (x.num.toNat : ℚ))
    | _ => false

theorem knownWholeCheck_ok {f : NumFeature ℚ} (h : knownWholeCheck f = true) : f.KnownWhole := by
  intro i hi
  unfold knownWholeCheck at h
  have := List.all_eq_true.1 h i (List.mem_range.2 (List.getElem?_eq_some_iff.1 hi).1)
  split at this
  · rename_i x hx
    exact ⟨x.num.toNat, by rw [hx, ← of_decide_eq_true this]⟩
  · cases this

/-- The table meets the conditions. Votes of two trees, in the order of cases: with the same bag in both, the values 1, 3, 3, 0 and 0 are written. -/
example : (∃ fm f m l s, parseAFM exStrokes exScale = some fm ∧ fm.Clean exGrowNums.target ∧ .num f ∈ fm.data ∧
      f.name = exGrowNums.target ∧ exGrowNums.target ∉ exGrowNums.blacklist ∧
      inferMTry exStrokes exGrowNums.mTry (allowedFeatures fm exGrowNums.blacklist exGrowNums.target exGrowNums.block exGrowNums.incl).length =
        some m ∧ m ≤ (allowedFeatures fm exGrowNums.blacklist exGrowNums.target exGrowNums.block exGrowNums.incl).length ∧
      inferLeafSize exStrokes exGrowNums.leafSize false 0 (nKnown f.missing) = some l ∧
      inferNSamples exStrokes exGrowNums.nSamples (nKnown f.missing) = some s ∧ f.KnownWhole) ∧ KeepsWhole exTrunc ∧
    exOrdinal exGrowNums ⟨false, false, false, false⟩ (fun k => 3 * k + 1) exScale =
      some (some (.fin (5 / 36)), [("a", "01", "01"), ("b", "0111", "0111"), ("c", "0111", "0111"), ("d", "0", "01"), ("e", "0", "0")]) := by
  refine ⟨?_, exTrunc_whole, by decide +kernel⟩
  have h : (parseAFM exStrokes exScale).any (fun fm => cleanCheck fm "N:x" && (match fm.data with
      | [.num f, _] => decide (f.name = "N:x" ∧ nKnown f.missing = 5) && knownWholeCheck f
      | _ => false) && decide ((allowedFeatures fm [] "N:x" none none).length = 1)) = true := by
    decide +kernel
  obtain ⟨fm, h1, h2⟩ := (Option.any_eq_true _ _).1 h
  simp only [Bool.and_eq_true, decide_eq_true_eq] at h2
  obtain ⟨⟨c1, c2⟩, c3⟩ := h2
  split at c2
  · rename_i f k hd
    rw [Bool.and_eq_true, decide_eq_true_eq] at c2
    refine ⟨fm, f, 1, 1, 5, h1, cleanCheck_ok c1, by rw [hd]; exact List.mem_cons_self, c2.1.1, by decide, ?_, ?_, ?_, ?_, knownWholeCheck_ok c2.2⟩
    · show inferMTry exStrokes ['0'] (allowedFeatures fm [] "N:x" none none).length = some 1
      rw [c3]
      decide +kernel
    · show (1 : Int) ≤ (allowedFeatures fm [] "N:x" none none).length
      rw [c3]
      decide
    · rw [c2.1.2]
      decide +kernel
    · rw [c2.1.2]
      decide +kernel
  · cases c2

/-- **C168 is false of the code**: two trees answer with 3 and 0 for the last two cases, and applyforest writes 3/2, which is not on the scale of the
target. -/
theorem c168_between : exOrdinal exGrowNums ⟨false, false, false, false⟩ (fun k => k * k * k / 4) exScale =
    some (some (.fin (25 / 72)), [("a", "01", "01"), ("b", "0111", "0111"), ("c", "0111", "0111"), ("d", "0111d", "01"), ("e", "0111d", "0")]) := by
  decide +kernel

/-- **C168 is false of the code**: `-mode` does count the votes for values of the scale, but applyforest panics before it writes them, for it
cannot tell their error. -/
theorem c168_mode : ((exOrdinalFile exGrowNums (fun k => k * k * k / 4) exScale).bind fun file =>
      (applyCommand exStrokes ⟨false, false, false, true⟩ file exScale).map fun x => (List.range 5).map (firstTally exStrokes x)) =
      some [some "01", some "0111", some "0111", some "0111", some "0111"] ∧
    exOrdinal exGrowNums ⟨false, false, false, true⟩ (fun k => k * k * k / 4) exScale = none := by
  decide +kernel

/-- The numbers must not be negative: growforest panics. -/
theorem c168_negative : exOrdinalFile exGrowNums (fun k => 3 * k + 1) ".\tN:x\tN:k\na\tm01\t0\nb\t0\t01\n".toList = none ∧
    (exOrdinalFile exGrowNums (fun k => 3 * k + 1) ".\tN:x\tN:k\na\t01\t0\nb\t0\t01\n".toList).isSome = true := by
  decide +kernel

end CloudForest
