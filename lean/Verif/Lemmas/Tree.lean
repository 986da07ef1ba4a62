import Verif.Props.Split
import Verif.Spec.Tree

set_option linter.unusedSectionVars false

namespace CloudForest
variable {K : Type} [Field K] [LinearOrder K] [IsStrictOrderedRing K]

theorem missTest_eq_isMissing {f : Feature K} {c : Nat} (hs : f.MissingSound)
    (hv : f.ValidCase c) : f.missTest c = f.isMissing c := by
  match hq : f.missTest c with
  | none => exact absurd hq (missTest_ne_none hv)
  | some false => rw [isMissing_of_missTest hs hv hq]
  | some true =>
    unfold Feature.missTest at hq
    split at hq
    · exact hq.symm
    · cases hq

/-- What a split does at a node, in terms of single cases. -/
structure NodeSplitOk (fm : FeatureMatrix K) (coded : Option (Coded K)) (fi : Nat)
    (spl : Option (Splitter K)) (cs : List Nat) (sp : Split3) : Prop where
  perm : (sp.left ++ sp.missing ++ sp.right).Perm cs
  left : ∀ c ∈ sp.left, caseDir fm coded fi spl c = some .L
  right : ∀ c ∈ sp.right, caseDir fm coded fi spl c = some .R
  missing : ∀ c ∈ sp.missing, caseDir fm coded fi spl c = some .M

/-- The part of `Usable` that concerns the node itself. -/
def NodeOk (fm : FeatureMatrix K) (cases : List Nat) (coded : Option (Coded K)) (fi : Nat)
    (spl : Option (Splitter K)) : Prop :=
  match coded, spl with
  | some code, _ => ∃ f, fm.data[fi]? = some f ∧ f.CodeFits code ∧ f.MissingSound ∧
          ∀ c ∈ cases, f.ValidCase c
  | none, some s => ∃ f, fm.featureOf s = some f ∧ f.MissingSound ∧
          ∀ c ∈ cases, f.ValidCase c
  | none, none => False

theorem usable_split {fm : FeatureMatrix K} {cases : List Nat} {coded : Option (Coded K)} {fi : Nat}
    {l r m : Node K} {pred : String} {spl : Option (Splitter K)}
    (hs : splits coded spl = true) :
    Usable fm cases (.mk coded fi l r m pred spl) ↔ NodeOk fm cases coded fi spl ∧
      Usable fm cases l ∧ Usable fm cases r ∧ (m = .nil ∨ Usable fm cases m) := by
  match coded, spl with
  | some code, _ => rw [Usable, NodeOk]
  | none, some s => rw [Usable, NodeOk]
  | none, none => simp [splits] at hs

theorem usable_leaf {fm : FeatureMatrix K} {cases : List Nat} {coded : Option (Coded K)} {fi : Nat}
    {l r m : Node K} {pred : String} {spl : Option (Splitter K)}
    (hs : splits coded spl = false) :
    Usable fm cases (.mk coded fi l r m pred spl) ↔ l = .nil ∧ r = .nil := by
  match coded, spl with
  | some code, _ => simp [splits] at hs
  | none, some s => simp [splits] at hs
  | none, none => rw [Usable]

theorem nodeSplit_ok {fm : FeatureMatrix K} {cases : List Nat} {coded : Option (Coded K)} {fi : Nat}
    {spl : Option (Splitter K)} (h : NodeOk fm cases coded fi spl) (cs : List Nat)
    (hcs : ∀ c ∈ cs, c ∈ cases) :
    ∃ sp, nodeSplit fm coded fi spl cs = some (some sp) ∧ NodeSplitOk fm coded fi spl cs sp := by
  match coded, spl with
  | some code, spl =>
    obtain ⟨f, hf, hfit, hms, hv⟩ := h
    have hv' : ∀ c ∈ cs, f.ValidCase c := fun c hc => hv c (hcs c hc)
    obtain ⟨r, _, _, _, hr, h3, _⟩ := c01_coded_split f code hfit cs hv'
    have hvr : ∀ c ∈ r.left ++ r.missing ++ r.right, f.missTest c = f.isMissing c := by
      intro c hc
      rw [← h3.order] at hc
      exact missTest_eq_isMissing hms (hv' c (h3.perm.mem_iff.1 hc))
    refine ⟨r, by simp [nodeSplit, hf, hr], ⟨h3.order ▸ h3.perm, ?_, ?_, ?_⟩⟩
    · intro c hc
      have := h3.left_ok c hc
      rw [hvr c (by simp [hc])] at this
      simp [caseDir, hf, this.1, this.2]
    · intro c hc
      have := h3.right_ok c hc
      rw [hvr c (by simp [hc])] at this
      simp [caseDir, hf, this.1, this.2]
    · intro c hc
      have := h3.miss_ok c hc
      rw [hvr c (by simp [hc])] at this
      simp [caseDir, hf, this]
  | none, some s =>
    obtain ⟨f, hf, hms, hv⟩ := h
    have hv' : ∀ c ∈ cs, f.ValidCase c := fun c hc => hv c (hcs c hc)
    obtain ⟨r, hr, h3⟩ := c01_splitter_split fm s f hf cs hv' hms
    have hvr : ∀ c ∈ r.left ++ r.missing ++ r.right, f.missTest c = f.isMissing c := by
      intro c hc
      rw [← h3.order] at hc
      exact missTest_eq_isMissing hms (hv' c (h3.perm.mem_iff.1 hc))
    refine ⟨r, by simp [nodeSplit, hr], ⟨h3.order ▸ h3.perm, ?_, ?_, ?_⟩⟩
    · intro c hc
      have := h3.left_ok c hc
      rw [hvr c (by simp [hc])] at this
      simp [caseDir, hf, this.1, this.2]
    · intro c hc
      have := h3.right_ok c hc
      rw [hvr c (by simp [hc])] at this
      simp [caseDir, hf, this.1, this.2]
    · intro c hc
      have := h3.miss_ok c hc
      rw [hvr c (by simp [hc])] at this
      simp [caseDir, hf, this]
  | none, none => exact h.elim

theorem nodeSplit_none {fm : FeatureMatrix K} {coded : Option (Coded K)} {fi : Nat}
    {spl : Option (Splitter K)} (hs : splits coded spl = false) (cs : List Nat) :
    nodeSplit fm coded fi spl cs = some none := by
  match coded, spl with
  | some code, _ => simp [splits] at hs
  | none, some s => simp [splits] at hs
  | none, none => rfl

theorem Usable.not_nil {fm : FeatureMatrix K} {cases : List Nat} {n : Node K}
    (h : Usable fm cases n) : n.isNil = false := by
  cases n with
  | nil => exact h.elim
  | mk => rfl

/-- The child of a direction. -/
def pick {α : Type} (d : Dir) (l r m : α) : α :=
  match d with
  | .L => l
  | .R => r
  | .M => m

theorem landing_of_dir {fm : FeatureMatrix K} {coded : Option (Coded K)} {fi : Nat}
    {l r m : Node K} {pred : String} {spl : Option (Splitter K)} {c : Nat} {d : Dir}
    (hs : splits coded spl = true) (h : caseDir fm coded fi spl c = some d) :
    landing fm (.mk coded fi l r m pred spl) c =
      (landing fm (pick d l r m) c).map
        fun x => (d :: x.1, x.2) := by
  rw [landing, if_pos hs, h]
  cases d <;> rfl

/-- The recursion on a usable tree, described group by group. -/
structure RecurseOk (fm : FeatureMatrix K) (n : Node K) (cs : List Nat)
    (vs : List (Visit K)) (out : List Nat) : Prop where
  perm : out.Perm cs
  votes : (vs.flatMap fun v => if v.node.isLeaf then v.cases.map fun c => (c, v.node.predOf) else []).Perm
    (cs.filterMap fun c => (landing fm n c).map fun x => (c, x.2))
  groups : ∃ ps : List (List Dir), ps.Nodup ∧
    List.Forall₂ (fun v p => v.cases.Perm
      (cs.filter fun c => landing fm n c == some (p, v.node.predOf)) ∧
      (p, v.node.predOf) ∈ leavesOf n)
      (vs.filter fun v => v.node.isLeaf) ps ∧
    ∀ c ∈ cs, ∀ x, landing fm n c = some x → x.1 ∈ ps

theorem filter_landing {fm : FeatureMatrix K} {coded : Option (Coded K)} {fi : Nat}
    {l r m : Node K} {pred : String} {spl : Option (Splitter K)} {cs : List Nat} {sp : Split3}
    (hs : splits coded spl = true) (hok : NodeSplitOk fm coded fi spl cs sp) (d : Dir)
    (p : List Dir) (q : String) :
    (cs.filter fun c => landing fm (.mk coded fi l r m pred spl) c == some (d :: p, q)).Perm
      (match d with
      | .L => sp.left.filter fun c => landing fm l c == some (p, q)
      | .R => sp.right.filter fun c => landing fm r c == some (p, q)
      | .M => sp.missing.filter fun c => landing fm m c == some (p, q)) := by
  refine (hok.perm.symm.filter _).trans ?_
  rw [List.filter_append, List.filter_append]
  have key : ∀ (d' : Dir) (blk : List Nat), (∀ c ∈ blk, caseDir fm coded fi spl c = some d') →
      (blk.filter fun c => landing fm (.mk coded fi l r m pred spl) c == some (d :: p, q)) =
      if d' = d then blk.filter fun c =>
        landing fm (pick d l r m) c == some (p, q) else [] := by
    intro d' blk hb
    split
    · rename_i hd
      subst hd
      apply List.filter_congr
      intro c hc
      rw [landing_of_dir hs (hb c hc), Bool.eq_iff_iff]
      simp only [beq_iff_eq]
      cases landing fm (pick d' l r m) c with
      | none => simp
      | some x => simp [Prod.ext_iff]
    · rename_i hd
      rw [List.filter_eq_nil_iff]
      intro c hc
      rw [landing_of_dir hs (hb c hc)]
      simp only [beq_iff_eq]
      cases landing fm (pick d' l r m) c with
      | none => simp
      | some x => simp [hd]
  rw [key .L _ hok.left, key .R _ hok.right, key .M _ hok.missing]
  cases d <;> simp [pick]

theorem filterMap_landing {fm : FeatureMatrix K} {coded : Option (Coded K)} {fi : Nat}
    {l r m : Node K} {pred : String} {spl : Option (Splitter K)} {cs : List Nat} {sp : Split3}
    (hs : splits coded spl = true) (hok : NodeSplitOk fm coded fi spl cs sp) :
    (cs.filterMap fun c => (landing fm (.mk coded fi l r m pred spl) c).map fun x => (c, x.2)).Perm
      ((sp.left.filterMap fun c => (landing fm l c).map fun x => (c, x.2)) ++
       (sp.right.filterMap fun c => (landing fm r c).map fun x => (c, x.2)) ++
       (sp.missing.filterMap fun c => (landing fm m c).map fun x => (c, x.2))) := by
  refine (hok.perm.symm.filterMap _).trans ?_
  rw [List.filterMap_append, List.filterMap_append]
  have key : ∀ (d : Dir) (blk : List Nat), (∀ c ∈ blk, caseDir fm coded fi spl c = some d) →
      (blk.filterMap fun c => (landing fm (.mk coded fi l r m pred spl) c).map fun x => (c, x.2)) =
      blk.filterMap fun c =>
        (landing fm (pick d l r m) c).map fun x => (c, x.2) := by
    intro d blk hb
    apply List.filterMap_congr
    intro c hc
    rw [landing_of_dir hs (hb c hc), Option.map_map]
    rfl
  rw [key .L _ hok.left, key .R _ hok.right, key .M _ hok.missing]
  rw [List.append_assoc, List.append_assoc]
  exact (List.perm_append_comm).append_left _

theorem recurse_ok (fm : FeatureMatrix K) (cases : List Nat) (n : Node K) :
    ∀ (cs : List Nat) (d : Nat), Usable fm cases n → (∀ c ∈ cs, c ∈ cases) →
    ∃ vs out, n.recurse fm cs d = some (vs, out) ∧ RecurseOk fm n cs vs out := by
  induction n with
  | nil => intro cs d h; exact h.elim
  | mk coded fi l r m pred spl ihl ihr ihm =>
    intro cs d hu hcs
    by_cases hs : splits coded spl = true
    · obtain ⟨hn, hul, hur, hum⟩ := (usable_split hs).1 hu
      obtain ⟨sp, hsp, hok⟩ := nodeSplit_ok hn cs hcs
      have hmem : ∀ c, c ∈ sp.left ++ sp.missing ++ sp.right → c ∈ cases :=
        fun c hc => hcs c (hok.perm.mem_iff.1 hc)
      obtain ⟨vl, ol, hl, okl⟩ := ihl sp.left (d + 1) hul (fun c hc => hmem c (by simp [hc]))
      obtain ⟨vr, orr, hr, okr⟩ := ihr sp.right (d + 1) hur (fun c hc => hmem c (by simp [hc]))
      have hnl : l.isNil = false := hul.not_nil
      have hme : (Node.mk coded fi l r m pred spl).isLeaf = false := by simp [Node.isLeaf, hnl]
      obtain ⟨psl, ndl, fal, covl⟩ := okl.groups
      obtain ⟨psr, ndr, far, covr⟩ := okr.groups
      by_cases hc : (decide (sp.missing.length > 0) && !m.isNil) = true
      · have hm : Usable fm cases m := by
          rcases hum with h | h
          · subst h; simp [Node.isNil] at hc
          · exact h
        obtain ⟨vm, om, hvm, okm⟩ := ihm sp.missing (d + 1) hm (fun c hc => hmem c (by simp [hc]))
        obtain ⟨psm, ndm, fam, covm⟩ := okm.groups
        refine ⟨_, _, by simp only [Node.recurse, hsp, hl, hr, hvm, Option.bind_eq_bind,
          Option.bind_some, hc, if_true]; rfl, ?_, ?_, ?_⟩
        · exact ((okl.perm.append okm.perm).append okr.perm).trans hok.perm
        · rw [List.flatMap_cons, hme, List.flatMap_append, List.flatMap_append]
          refine List.Perm.trans ?_ (filterMap_landing hs hok).symm
          simp only [Bool.false_eq_true, if_false, List.nil_append]
          exact (okl.votes.append okr.votes).append okm.votes
        · refine ⟨psl.map (.L :: ·) ++ psr.map (.R :: ·) ++ psm.map (.M :: ·), ?_, ?_, ?_⟩
          · rw [List.nodup_append, List.nodup_append]
            refine ⟨⟨ndl.map (fun a b h => by simpa using h), ndr.map (fun a b h => by simpa using h),
              ?_⟩, ndm.map (fun a b h => by simpa using h), ?_⟩
            · intro a ha b hb
              simp only [List.mem_map] at ha hb
              obtain ⟨_, _, rfl⟩ := ha; obtain ⟨_, _, rfl⟩ := hb; simp
            · intro a ha b hb
              simp only [List.mem_append, List.mem_map] at ha hb
              obtain ⟨_, _, rfl⟩ := hb
              rcases ha with ⟨_, _, rfl⟩ | ⟨_, _, rfl⟩ <;> simp
          · rw [List.filter_cons, hme]
            simp only [Bool.false_eq_true, if_false, List.filter_append]
            refine List.rel_append (List.rel_append ?_ ?_) ?_
            · rw [List.forall₂_map_right_iff]
              refine fal.imp fun v p h => ⟨h.1.trans (filter_landing hs hok .L p _).symm, ?_⟩
              rw [leavesOf, if_pos hs]; simp [h.2]
            · rw [List.forall₂_map_right_iff]
              refine far.imp fun v p h => ⟨h.1.trans (filter_landing hs hok .R p _).symm, ?_⟩
              rw [leavesOf, if_pos hs]; simp [h.2]
            · rw [List.forall₂_map_right_iff]
              refine fam.imp fun v p h => ⟨h.1.trans (filter_landing hs hok .M p _).symm, ?_⟩
              rw [leavesOf, if_pos hs]; simp [h.2]
          · intro c hc' x hx
            have := hok.perm.mem_iff.2 hc'
            simp only [List.mem_append] at this
            rcases this with (h | h) | h
            · rw [landing_of_dir hs (hok.left c h)] at hx
              obtain ⟨y, hy, rfl⟩ := Option.map_eq_some_iff.1 hx
              simp [covl c h y hy]
            · rw [landing_of_dir hs (hok.missing c h)] at hx
              obtain ⟨y, hy, rfl⟩ := Option.map_eq_some_iff.1 hx
              simp [covm c h y hy]
            · rw [landing_of_dir hs (hok.right c h)] at hx
              obtain ⟨y, hy, rfl⟩ := Option.map_eq_some_iff.1 hx
              simp [covr c h y hy]
      · have hmnone : ∀ c ∈ sp.missing, landing fm m c = none := by
          intro c hcm
          have : m = .nil := by
            cases m with
            | nil => rfl
            | mk =>
              exfalso; apply hc
              simp [Node.isNil, List.length_pos_of_mem hcm]
          subst this; rfl
        refine ⟨_, _, by simp only [Node.recurse, hsp, hl, hr, Option.bind_eq_bind,
          Option.bind_some, hc, if_false]; rfl, ?_, ?_, ?_⟩
        · exact ((okl.perm.append (List.Perm.refl _)).append okr.perm).trans hok.perm
        · rw [List.flatMap_cons, hme, List.flatMap_append]
          refine List.Perm.trans ?_ (filterMap_landing hs hok).symm
          simp only [Bool.false_eq_true, if_false, List.nil_append]
          have : (sp.missing.filterMap fun c => (landing fm m c).map fun x => (c, x.2)) = [] := by
            rw [List.filterMap_eq_nil_iff]
            intro c hcm; simp [hmnone c hcm]
          rw [this, List.append_nil]
          exact okl.votes.append okr.votes
        · refine ⟨psl.map (.L :: ·) ++ psr.map (.R :: ·), ?_, ?_, ?_⟩
          · rw [List.nodup_append]
            refine ⟨ndl.map (fun a b h => by simpa using h), ndr.map (fun a b h => by simpa using h),
              ?_⟩
            intro a ha b hb
            simp only [List.mem_map] at ha hb
            obtain ⟨_, _, rfl⟩ := ha; obtain ⟨_, _, rfl⟩ := hb; simp
          · rw [List.filter_cons, hme]
            simp only [Bool.false_eq_true, if_false, List.filter_append]
            refine List.rel_append ?_ ?_
            · rw [List.forall₂_map_right_iff]
              refine fal.imp fun v p h => ⟨h.1.trans (filter_landing hs hok .L p _).symm, ?_⟩
              rw [leavesOf, if_pos hs]; simp [h.2]
            · rw [List.forall₂_map_right_iff]
              refine far.imp fun v p h => ⟨h.1.trans (filter_landing hs hok .R p _).symm, ?_⟩
              rw [leavesOf, if_pos hs]; simp [h.2]
          · intro c hc' x hx
            have := hok.perm.mem_iff.2 hc'
            simp only [List.mem_append] at this
            rcases this with (h | h) | h
            · rw [landing_of_dir hs (hok.left c h)] at hx
              obtain ⟨y, hy, rfl⟩ := Option.map_eq_some_iff.1 hx
              simp [covl c h y hy]
            · rw [landing_of_dir hs (hok.missing c h)] at hx
              obtain ⟨y, hy, rfl⟩ := Option.map_eq_some_iff.1 hx
              have := hmnone c h
              change landing fm m c = some y at hy
              rw [this] at hy; cases hy
            · rw [landing_of_dir hs (hok.right c h)] at hx
              obtain ⟨y, hy, rfl⟩ := Option.map_eq_some_iff.1 hx
              simp [covr c h y hy]
    · have hs : splits coded spl = false := by simpa using hs
      obtain ⟨rfl, rfl⟩ := (usable_leaf hs).1 hu
      have hland : ∀ c, landing fm (.mk coded fi .nil .nil m pred spl) c = some ([], pred) := by
        intro c; rw [landing, if_neg (by simp [hs])]
      refine ⟨_, _, by simp only [Node.recurse, nodeSplit_none hs, Option.bind_eq_bind,
        Option.bind_some]; rfl, List.Perm.refl _, ?_, ?_⟩
      · simp [Node.isLeaf, Node.isNil, Node.predOf, hland, List.filterMap_eq_map']
      · refine ⟨[[]], by simp, ?_, ?_⟩
        · simp [Node.isLeaf, Node.isNil, Node.predOf, hland, leavesOf, hs]
        · intro c _ x hx
          rw [hland] at hx; cases hx; simp

end CloudForest
