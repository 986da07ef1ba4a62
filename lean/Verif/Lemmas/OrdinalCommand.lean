import Verif.Model.OrdinalCommand
import Verif.Spec.OrdinalCommand
import Verif.Props.Commands
import Verif.Props.Regression
import Verif.Lemmas.Units4

/-!
Ordinal targets of parsed tables.
-/

set_option linter.unusedSectionVars false

namespace CloudForest
variable {K : Type} [Field K] [LinearOrder K] [IsStrictOrderedRing K]

theorem mode_perm (trunc : XF K → Int) (od : Ordinal K) {cs cs' : List Nat} (h : cs'.Perm cs) : od.mode trunc cs' = od.mode trunc cs := by
  unfold Ordinal.mode
  rw [foldlM_perm _ h]
  intro b x y
  cases hx : od.f.missing[x]? with
  | none =>
    cases hy : od.f.missing[y]? with
    | none => rfl
    | some my =>
      cases my
      · simp [hx, hy]
      · simp [hx, hy]
  | some mx =>
    cases hy : od.f.missing[y]? with
    | none => cases mx <;> simp [hx, hy]
    | some my =>
      cases mx <;> cases my <;> simp [hx, hy]
      cases hx2 : od.f.numData[x]? with
      | none =>
        cases hy2 : od.f.numData[y]? <;> simp [hx2, hy2]
      | some j =>
        cases hy2 : od.f.numData[y]? with
        | none => simp
        | some k =>
          simp only [Option.bind_some]
          by_cases h1 : trunc j < 0 <;> by_cases h2 : trunc k < 0 <;> simp [h1, h2]
          exact bump_comm b _ _

theorem error_perm (f : NumFeature K) (p : XF K) {cs cs' : List Nat} (h : cs'.Perm cs) : f.error cs' p = f.error cs p := by
  unfold NumFeature.error
  rw [foldlM_perm _ h]
  intro b x y
  cases hx : f.missing[x]? with
  | none =>
    cases hy : f.missing[y]? with
    | none => rfl
    | some my =>
      cases my
      · simp [hx, hy]
      · simp [hx, hy]
  | some mx =>
    cases hy : f.missing[y]? with
    | none => cases mx <;> simp [hx, hy]
    | some my =>
      cases mx <;> cases my <;> simp [hx, hy]
      cases hx2 : f.numData[x]? with
      | none =>
        cases hy2 : f.numData[y]? <;> simp [hx2, hy2]
      | some j =>
        cases hy2 : f.numData[y]? with
        | none => simp
        | some k => simp [XF.add_right_comm']

theorem ordinal_laws {trunc : XF K → Int} (ht : KeepsWhole trunc) {f : NumFeature K} (hw : f.Whole) (cases : List Nat)
    (hc : ∀ c ∈ cases, c < f.missing.length) :
    ∃ od, newOrdinal trunc f = some od ∧ ∃ L : TargetLaws (ordinalTarget trunc od) cases, L.Ok = (fun _ => True) ∧ L.Total3 := by
  obtain ⟨N, h1, -⟩ := newOrdinal_eq trunc ht f hw
  refine ⟨_, h1, anewLaws (Ordinal.impurity trunc ⟨f, (N : Int)⟩) cases (fun cs => (Ordinal.impurity trunc ⟨f, (N : Int)⟩ cs).getD .nan) ?_ ?_,
    rfl, anewLaws_total3 _ _ _ _ _⟩
  · intro cs hcs
    have hlt : ∀ c ∈ cs, c < f.missing.length := fun c h => hc c (hcs c h)
    obtain ⟨o, m, e1, -, e3, -⟩ := mode_eq trunc ht f hw cs hlt
    rw [h1] at e1
    obtain rfl := Option.some.inj e1
    have : ∃ x, Ordinal.impurity trunc ⟨f, (N : Int)⟩ cs = some x := by
      unfold Ordinal.impurity
      rw [e3]
      by_cases hne : knownOf f.missing cs = []
      · exact ⟨_, error_nan f cs hlt hne _⟩
      · refine ⟨_, error_eq f cs hlt (fun c hcm => ?_) hne _⟩
        obtain ⟨k, hk⟩ := hw c (hlt c (mem_knownOf.1 hcm).1)
        exact ⟨_, hk⟩
    obtain ⟨x, hx⟩ := this
    rw [hx]
    rfl
  · intro l l' hp
    have : Ordinal.impurity trunc ⟨f, (N : Int)⟩ l = Ordinal.impurity trunc ⟨f, (N : Int)⟩ l' := by
      unfold Ordinal.impurity
      rw [mode_perm trunc _ hp]
      simp only [error_perm f _ hp]
    rw [this]

/-- What is predicted from the cases, as a number. -/
def modeOf (trunc : XF K → Int) (od : Ordinal K) (cases : List Nat) : K :=
  match od.mode trunc cases with
  | some (.fin x) => x
  | _ => 0

theorem modeOf_perm (trunc : XF K → Int) (od : Ordinal K) {cs cs' : List Nat} (h : cs'.Perm cs) : modeOf trunc od cs' = modeOf trunc od cs := by
  unfold modeOf
  rw [mode_perm trunc od h]

theorem modeOf_commonest {trunc : XF K → Int} (ht : KeepsWhole trunc) {f : NumFeature K} (hw : f.Whole) {od : Ordinal K}
    (ho : newOrdinal trunc f = some od) (nt : NumText K) {cases : List Nat} (hk : ∀ c ∈ cases, f.missing[c]? = some false) (hne : cases ≠ []) :
    od.findPredicted trunc nt cases = some (String.ofList (nt.fmt (.fin (modeOf trunc od cases)))) ∧ f.Commonest cases (modeOf trunc od cases) := by
  have hlt : ∀ c ∈ cases, c < f.missing.length := fun c hc => (List.getElem?_eq_some_iff.1 (hk c hc)).1
  obtain ⟨o, m, e1, -, e3, e4⟩ := mode_eq trunc ht f hw cases hlt
  rw [ho] at e1
  obtain rfl := Option.some.inj e1
  rw [knownOf_all hk] at e4
  have hm : modeOf trunc od cases = (m : K) := by unfold modeOf; rw [e3]
  rw [hm]
  refine ⟨by unfold Ordinal.findPredicted; rw [e3]; rfl, ?_, e4⟩
  obtain ⟨c, hc⟩ := List.exists_mem_of_ne_nil _ hne
  have hpos : 0 < f.valueCount cases (f.value c) := List.countP_pos_iff.2 ⟨c, hc, by simp⟩
  obtain ⟨d, hd, he⟩ := List.countP_pos_iff.1 (lt_of_lt_of_le hpos (e4 (f.value c)))
  exact ⟨d, hd, by simpa using he⟩

theorem numbersOf_answers {nt : NumText K} (hnt : ∀ x, nt.Faithful x) (fm : FeatureMatrix K) (value : List Nat → K) (c : Nat) :
    ∀ (voters : List (Tree K × List Nat)), (∀ x ∈ voters, x.1.weight = .fin (-1)) →
      (∀ x ∈ voters, ∀ p, x.1.opinion fm c = some p → p = String.ofList (nt.fmt (.fin (value (neighbours fm x.1 x.2 c))))) →
      numbersOf nt fm (voters.map (·.1)) c = (answersFor fm value voters c).map fun y => (y, 1) := by
  intro voters
  induction voters with
  | nil => intro _ _; rfl
  | cons x voters ih =>
    intro hw ho
    have ih := ih (fun y hy => hw y (List.mem_cons_of_mem _ hy)) (fun y hy => ho y (List.mem_cons_of_mem _ hy))
    unfold numbersOf answersFor at ih ⊢
    rw [List.map_cons, List.filterMap_cons, List.filter_cons]
    cases hop : x.1.opinion fm c with
    | none => simpa using ih
    | some p =>
      have hpe := ho x List.mem_cons_self p hop
      have : nt.parse p.toList = some (.fin (value (neighbours fm x.1 x.2 c))) := by
        rw [hpe, String.toList_ofList]
        exact (hnt _).2
      simp only [Option.bind_some, this, Option.isSome_some, if_true, List.map_cons]
      rw [ih, say_one (hw x List.mem_cons_self)]

theorem ordinal_ready [FloorRing K] {nt : NumText K} {text : Text} {fm : FeatureMatrix K} (hp : parseAFM nt text = some fm) {a : GrowArgs}
    (hc : fm.Clean a.target) {f : NumFeature K} (hf : .num f ∈ fm.data) (hn : f.name = a.target) {ti : Nat} {b : Blacklist}
    (hP : Prepared fm a (.num f) ti b) {m l s : Nat} (hm : m ≤ (allowedFeatures fm a.blacklist a.target a.block a.incl).length)
    (hl : 1 ≤ l) {order : List Nat → List Nat} (horder : ∀ bag, (order bag).Perm bag) (draws : Nat)
    {trunc : XF K → Int} (htr : KeepsWhole trunc) (hw : f.KnownWhole) :
    f.Finite (List.range f.missing.length) ∧ f.Whole ∧ ∃ od, newOrdinal trunc f = some od ∧
    ∃ (L : TargetLaws (a.ordinalRun trunc nt fm f od m l s draws order).T (a.ordinalRun trunc nt fm f od m l s draws order).all) (good : NumFeature K → Prop),
      (a.ordinalRun trunc nt fm f od m l s draws order).Ok L good (candidates fm ti b.marks) ∧ L.Ok (newAllocs 0) := by
  obtain ⟨i, hi⟩ := hc.known _ hf hn
  have hi : f.missing[i]? = some false := hi
  have hcons : f.Consistent := (c139_afm nt text fm hp).1.consistent _ hf
  have hz := parsed_zeroFilled hp _ hf
  have hlen : f.missing.length = fm.caseLabels.length := hP.length
  have hil := (List.getElem?_eq_some_iff.1 hi).1
  have hfin : f.Finite (List.range f.missing.length) := by
    intro c hcm
    have hcl : c < f.missing.length := List.mem_range.1 hcm
    have hd : f.numData[c]? = some (f.numData[c]'(by rw [hcons.lengths]; exact hcl)) := List.getElem?_eq_getElem _
    cases hmc : f.missing[c]'hcl with
    | false =>
      obtain ⟨y, hy⟩ := hc.finite f hf c _ (by rw [List.getElem?_eq_getElem hcl, hmc]) hd
      exact ⟨y, by rw [hd, hy]⟩
    | true => exact ⟨0, hz.2 c (by rw [List.getElem?_eq_getElem hcl, hmc])⟩
  have hwh : f.Whole := by
    intro c hcl
    cases hmc : f.missing[c]'hcl with
    | false => exact hw c (by rw [List.getElem?_eq_getElem hcl, hmc])
    | true => exact ⟨0, by rw [hz.2 c (by rw [List.getElem?_eq_getElem hcl, hmc]), Nat.cast_zero]⟩
  obtain ⟨od, hod, L, hL, hT⟩ := ordinal_laws htr hwh (List.range f.missing.length) fun c hcm => List.mem_range.1 hcm
  have hC := numContrast_any f _ hfin hcons.lengths.symm L hL
  refine ⟨hfin, hwh, od, hod, L, fun g => g.Finite (List.range f.missing.length) ∧ g.missing.length = g.numData.length, ⟨?_, ?_, ?_, ?_, horder⟩, by rw [hL]; trivial⟩
  · show fm.allCases = some (List.range f.missing.length)
    rw [hlen]
    exact hP.cases
  · show MatrixOk fm (List.range f.missing.length)
    rw [hlen]
    exact hP.matrix
  · exact
    { feats := fun g hg => by
        show FeatOk g (List.range f.missing.length)
        rw [hlen]
        exact hP.feats g hg
      total3 := fun _ => hT
      contrast := fun _ => hC
      start := hC.start
      leafSize := hl
      exist := hP.exist
      mTry := by rw [hP.cans]; exact hm
      oobs := by simp }
  · show (if a.nobag then Bagging.nobag else .plain).Fit f.missing
    split
    · trivial
    · exact Nat.lt_of_le_of_lt (Nat.zero_le _) hil

end CloudForest
