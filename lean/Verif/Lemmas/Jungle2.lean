import Verif.Lemmas.Jungle
import Mathlib.Tactic.Linarith

set_option linter.unusedSectionVars false

namespace CloudForest
variable {K : Type} [Field K] [LinearOrder K] [IsStrictOrderedRing K] {σ : Type}
  {P : σ → Prop} {Q : Nat → Prop} {g : Grower K σ} {fm : FeatureMatrix K} {cases : List Nat}

/-- An entry still to be extended, at depth `d`. -/
structure EntryOk (Q : Nat → Prop) (n : Nat) (s : Jungle K σ) (d : Nat) (e : JEntry) : Prop where
  alive : e.dead = false
  le : e.start ≤ e.stop
  hi : e.stop ≤ s.cases.length
  nconst : Q e.nconstants
  fresh : s.arena[e.node]? = some .fresh
  size : (e.stop - e.start) + d ≤ n
  some_ : 0 < d → e.start < e.stop

/-- Two entries concern different nodes and different cases. -/
def JEntry.Apart (e e' : JEntry) : Prop := e.node ≠ e'.node ∧ (e.stop ≤ e'.start ∨ e'.stop ≤ e.start)

theorem JEntry.Apart.symm {e e' : JEntry} (h : e.Apart e') : e'.Apart e := ⟨h.1.symm, h.2.symm⟩

/-- The nodes still to be extended: those of `todo` at depth `d`, those of `next` one deeper. -/
def Pend (cs : List Nat) (todo next : List JEntry) (d idx dep : Nat) (l : List Nat) : Prop :=
  (∃ e ∈ todo, e.node = idx ∧ dep = d ∧ l = segOf cs e.start e.stop) ∨
  (∃ e ∈ next, e.node = idx ∧ dep = d + 1 ∧ l = segOf cs e.start e.stop)

/-- The addresses of the nodes still to be extended. -/
def PendAt (todo next : List JEntry) (idx : Nat) : Prop := ∃ e ∈ todo ++ next, e.node = idx

/-- While a level is extended: `done` are the entries before, `todo` those of the level still to be extended, `next`
those of the next level. -/
structure JInv (g : Grower K σ) (fm : FeatureMatrix K) (P : σ → Prop) (Q : Nat → Prop) (cases : List Nat)
    (s : Jungle K σ) (done todo next : List JEntry) (d : Nat) : Prop where
  ents : s.entries = done ++ todo ++ next
  st : P s.st
  perm : s.cases.Perm cases
  todo_ : ∀ e ∈ todo, EntryOk Q cases.length s d e
  next_ : ∀ e ∈ next, EntryOk Q cases.length s (d + 1) e
  apart : (todo ++ next).Pairwise JEntry.Apart
  pos : 0 < s.arena.length
  kids : (s.arena.flatMap JNode.kids).Perm (List.range' 1 (s.arena.length - 1))
  root : JGrown g fm P Q s.arena (PendAt todo next) (Pend s.cases todo next d) false (some 0) cases 0

theorem pairwise_middle {α : Type} {R : α → α → Prop} (hs : ∀ a b, R a b → R b a) {e : α} {l : List α}
    (h : (e :: l).Pairwise R) : ∀ x ∈ l, R x e := fun x hx => hs _ _ ((List.pairwise_cons.1 h).1 x hx)

/-- The entries not concerned keep their cases. -/
theorem seg_keep {cs xs : List Nat} {e e' : JEntry} (ha : e'.Apart e) (h : e.start + xs.length ≤ cs.length)
    (hx : e.start + xs.length = e.stop) :
    segOf (writeBack cs e.start xs) e'.start e'.stop = segOf cs e'.start e'.stop := by
  rcases ha.2 with h1 | h1
  · exact writeBack_before h h1
  · exact writeBack_after h (by omega)

/-- Extending one node. The new state and what is added to `next`. -/
theorem expand_ok (hM : MatrixOk fm cases) (hS : SearchOk g fm P Q cases) (hA : Admissible g fm P Q cases)
    (hls : 1 ≤ g.leafSize)
    (hT : ∀ st cs nc, P st → Q nc → (∀ c ∈ cs, c ∈ cases) → 2 * g.leafSize ≤ cs.length →
      g.best st cs nc ≠ none)
    {s : Jungle K σ} {done todo next : List JEntry} {e : JEntry} {d : Nat}
    (h : JInv g fm P Q cases s done (e :: todo) next d) :
    ∃ s' new, s.expand g fm d done.length = some s' ∧
      JInv g fm P Q cases s' (done ++ [e]) todo (next ++ new) d := by
  have he := h.todo_ e (List.mem_cons_self)
  have hent : s.entries[done.length]? = some e := by
    rw [h.ents, List.append_assoc, List.getElem?_append_right (le_refl _)]; simp
  have hslice := sliceOf_seg he.le he.hi
  have hlen := segOf_length (a := e.start) he.hi
  generalize hcs : segOf s.cases e.start e.stop = cs at hslice hlen
  have hmem : ∀ c ∈ cs, c ∈ cases := fun c hc => h.perm.mem_iff.1 (segOf_mem (hcs ▸ hc))
  have hpw : (e :: (todo ++ next)).Pairwise JEntry.Apart := by simpa using h.apart
  have hap : ∀ x ∈ todo ++ next, x.Apart e := pairwise_middle (fun _ _ => JEntry.Apart.symm) hpw
  have hap' : (todo ++ next).Pairwise JEntry.Apart := (List.pairwise_cons.1 hpw).2
  have hnode : e.node < s.arena.length := (List.getElem?_eq_some_iff.1 he.fresh).1
  -- a leaf
  have hleaf : ∀ cs' st', cs'.Perm cs → P st' →
      JInv g fm P Q cases (s.leaf g e .fresh cs' st') (done ++ [e]) todo (next ++ []) d := by
    intro cs' st' hp hst
    have hl' : cs'.length = e.stop - e.start := by rw [hp.length_eq, hlen]
    have hle : e.start + cs'.length = e.stop := by have := he.le; omega
    have hle' : e.start + cs'.length ≤ s.cases.length := by have := he.hi; omega
    rw [List.append_nil]
    have hok : ∀ x ∈ todo ++ next, ∀ dep, EntryOk Q cases.length s dep x →
        EntryOk Q cases.length (s.leaf g e .fresh cs' st') dep x := by
      intro x hx dep hxok
      refine ⟨hxok.alive, hxok.le, ?_, hxok.nconst, ?_, hxok.size, hxok.some_⟩
      · simpa [Jungle.leaf, writeBack_length hle'] using hxok.hi
      · have := (hap x hx).1
        simpa [Jungle.leaf, List.getElem?_set_ne (Ne.symm this)] using hxok.fresh
    refine ⟨?_, hst, ?_, ?_, ?_, hap', ?_, ?_, ?_⟩
    · simp [Jungle.leaf, h.ents]
    · exact (writeBack_perm he.le he.hi (by rw [hcs]; exact hp)).trans h.perm
    · exact fun x hx => hok x (List.mem_append_left _ hx) d (h.todo_ x (List.mem_cons_of_mem _ hx))
    · exact fun x hx => hok x (List.mem_append_right _ hx) _ (h.next_ x hx)
    · simpa [Jungle.leaf] using h.pos
    · have := kids_set (A := s.arena) (i := e.node) (n := .fresh)
        ⟨none, 0, none, none, none, g.findPredicted cs', none⟩ he.fresh rfl
      simpa [Jungle.leaf, JNode.kids, JNode.fresh] using this.trans (by simpa [JNode.kids] using h.kids)
    · refine JGrown.step ?_ ?_ ?_ h.root
      · intro i n hn hi
        have : i ≠ e.node := fun hh => hn ⟨e, by simp, hh.symm⟩
        simpa [Jungle.leaf, List.getElem?_set_ne this.symm] using hi
      · rintro i n hn hi ⟨x, hx, rfl⟩
        exact hn ⟨x, by simp at hx ⊢; tauto, rfl⟩
      · rintro b i dep l (⟨x, hx, rfl, rfl, rfl⟩ | ⟨x, hx, rfl, rfl, rfl⟩)
        · rcases List.mem_cons.1 hx with rfl | hx'
          · refine .leaf (cs' := cs') (fi := 0) (by rw [hcs]; exact hp) ?_ ?_
            · rintro ⟨y, hy, hyy⟩
              exact (hap y hy).1 hyy
            · simp [Jungle.leaf, List.getElem?_set_self hnode, JNode.fresh]
          · refine .pending (.inl ⟨x, hx', rfl, rfl, ?_⟩)
            exact (seg_keep (hap x (List.mem_append_left _ hx')) hle' hle).symm
        · refine .pending (.inr ⟨x, hx, rfl, rfl, ?_⟩)
          exact (seg_keep (hap x (List.mem_append_right _ hx)) hle' hle).symm
  unfold Jungle.expand
  simp only [hent, he.alive, hslice, he.fresh, Option.bind_eq_bind, Option.bind_some, Bool.false_eq_true, if_false]
  by_cases hcond : ((d : Int) < g.maxDepth ∨ g.maxDepth ≤ 0) ∧ 2 * g.leafSize ≤ cs.length
  swap
  · rw [if_neg hcond]
    exact ⟨_, [], rfl, hleaf cs s.st (List.Perm.refl _) h.st⟩
  rw [if_pos hcond]
  obtain ⟨⟨st1, res⟩, hb⟩ := Option.ne_none_iff_exists'.1 (hT s.st cs e.nconstants h.st he.nconst hmem hcond.2)
  have hperm := hS.perm _ _ _ _ _ h.st he.nconst hmem hb
  obtain ⟨hP1, hQ1⟩ := hS.keeps _ _ _ _ _ h.st he.nconst hmem hb
  rw [hb]
  simp only [Option.bind_some]
  cases hres : res.split with
  | none => exact ⟨_, [], rfl, hleaf res.cases st1 hperm hP1⟩
  | some code =>
    obtain ⟨f, hf, hfit⟩ := hS.fits _ _ _ _ _ code h.st he.nconst hmem hb hres
    have hcs1 : ∀ c ∈ res.cases, c ∈ cases := fun c hc => hmem c (hperm.mem_iff.1 hc)
    obtain ⟨spl, hdec⟩ : ∃ spl, f.decodeSplit code = some spl := by
      match f, code, hfit with
      | .cat f, .int _, _ => exact ⟨_, rfl⟩
      | .cat f, .big _, _ => exact ⟨_, rfl⟩
      | .num f, .num _, _ => exact ⟨_, rfl⟩
    obtain ⟨cs', li, ri, hpt, hle, hle', hlen', sp, e1, e2, e3, hok⟩ :=
      splitPoints_ok hM (some spl) hf hfit res.cases hcs1
    have hsp := hok.congr hperm
    obtain ⟨a1, a2⟩ := hA _ _ _ _ _ _ _ h.st he.nconst hmem hb hres hf
    obtain ⟨c1, c2⟩ := counts_of_split hf hsp
    have hrl := hperm.length_eq
    have hl1 : 1 ≤ li := by rw [c1, e1, List.length_take] at a1; omega
    have hl2 : ri + 1 ≤ cs'.length := by rw [c2, e2, List.length_drop] at a2; omega
    simp only [hf, hdec, hpt, Option.bind_some]
    have hL : cs'.length = e.stop - e.start := by omega
    have hwl : e.start + cs'.length = e.stop := by have := he.le; omega
    have hwl' : e.start + cs'.length ≤ s.cases.length := by have := he.hi; omega
    have hsize := he.size
    have hsmall := he.hi
    have hestart := he.le
    have hp' : cs'.Perm (segOf s.cases e.start e.stop) := by
      rw [hcs]
      refine List.Perm.trans ?_ hsp.perm
      rw [e1, e2, e3]
      have : cs' = cs'.take li ++ (cs'.drop li).take (ri - li) ++ cs'.drop ri := by
        conv_lhs => rw [← List.take_append_drop li cs', ← List.take_append_drop (ri - li) (cs'.drop li)]
        rw [List.drop_drop, show li + (ri - li) = ri by omega, List.append_assoc]
      exact List.Perm.of_eq this
    generalize hk : s.arena.length = k at hnode
    have hbk : s.branch g e .fresh code spl res.fi res.nconstants cs' li ri st1 =
      { arena :=
          s.arena.set e.node ⟨some code, res.fi, some k, some (k + 1),
            if g.splitmissing then some (k + 2) else none, "", some spl⟩ ++
          (.fresh :: .fresh :: if g.splitmissing then [.fresh] else [])
        entries :=
          s.entries ++
          (⟨k, e.start, e.start + li, res.nconstants, some e.node, false⟩ ::
           ⟨k + 1, e.start + ri, e.stop, res.nconstants, some e.node, false⟩ ::
           if g.splitmissing = true ∧ li ≠ ri then
             [⟨k + 2, e.start + li, e.start + ri, res.nconstants, some e.node, false⟩] else [])
        cases := writeBack s.cases e.start cs'
        st := st1 } := by rw [← hk]; rfl
    rw [hbk]
    generalize hR : (⟨some code, res.fi, some k, some (k + 1), if g.splitmissing then some (k + 2) else none, "",
      some spl⟩ : JNode K) = R
    generalize hnew : ((⟨k, e.start, e.start + li, res.nconstants, some e.node, false⟩ : JEntry) ::
           ⟨k + 1, e.start + ri, e.stop, res.nconstants, some e.node, false⟩ ::
           if g.splitmissing = true ∧ li ≠ ri then
             [⟨k + 2, e.start + li, e.start + ri, res.nconstants, some e.node, false⟩] else []) = new
    generalize hfr : (JNode.fresh (K := K) :: .fresh :: if g.splitmissing then [.fresh] else []) = fr
    have hfrlen : fr.length = if g.splitmissing then 3 else 2 := by rw [← hfr]; split <;> rfl
    have hfr0 : fr[0]? = some .fresh := by rw [← hfr]; rfl
    have hfr1 : fr[1]? = some .fresh := by rw [← hfr]; rfl
    have hfr2 : g.splitmissing = true → fr[2]? = some .fresh := by intro h; rw [← hfr, h]; rfl
    have hnewnode : ∀ y ∈ new, k ≤ y.node ∧ (s.arena.set e.node R ++ fr)[y.node]? = some .fresh ∧
        e.start ≤ y.start ∧ y.stop ≤ e.stop ∧ y.start < y.stop ∧ y.dead = false ∧
        y.nconstants = res.nconstants ∧ (y.stop - y.start) < e.stop - e.start := by
      have hget : ∀ j, (s.arena.set e.node R ++ fr)[k + j]? = fr[j]? := by
        intro j
        rw [List.getElem?_append_right (by rw [List.length_set]; omega), List.length_set, hk,
          Nat.add_sub_cancel_left]
      intro y hy
      rw [← hnew] at hy
      simp only [List.mem_cons] at hy
      rcases hy with rfl | rfl | hy
      · exact ⟨le_refl _, (hget 0).trans hfr0, le_refl _, by simp only; omega, by simp only; omega, rfl, rfl, by
          simp only; omega⟩
      · exact ⟨by simp only; omega, (hget 1).trans hfr1, by simp only; omega, le_refl _, by simp only; omega, rfl, rfl,
          by simp only; omega⟩
      · split at hy
        · rename_i hc
          simp only [List.mem_cons, List.not_mem_nil, or_false] at hy
          subst hy
          exact ⟨by simp only; omega, (hget 2).trans (hfr2 hc.1), by simp only; omega, by simp only; omega, by
            simp only; omega, rfl, rfl, by simp only; omega⟩
        · simp at hy
    have hold : ∀ i n, i ≠ e.node → s.arena[i]? = some n → (s.arena.set e.node R ++ fr)[i]? = some n := by
      intro i n hne hi
      have := (List.getElem?_eq_some_iff.1 hi).1
      rw [List.getElem?_append_left (by rw [List.length_set]; exact this), List.getElem?_set_ne hne.symm, hi]
    have hself : (s.arena.set e.node R ++ fr)[e.node]? = some R := by
      rw [List.getElem?_append_left (by rw [List.length_set]; omega), List.getElem?_set_self (by omega)]
    have hltk : ∀ x ∈ todo ++ next, x.node < k := by
      intro x hx
      rw [← hk]
      rcases List.mem_append.1 hx with hx' | hx'
      · exact (List.getElem?_eq_some_iff.1 (h.todo_ x (List.mem_cons_of_mem _ hx')).fresh).1
      · exact (List.getElem?_eq_some_iff.1 (h.next_ x hx').fresh).1
    refine ⟨_, new, rfl, ?_⟩
    have hok' : ∀ x ∈ todo ++ next, ∀ dep, EntryOk Q cases.length s dep x →
        EntryOk Q cases.length (⟨s.arena.set e.node R ++ fr, s.entries ++ new, writeBack s.cases e.start cs', st1⟩ :
          Jungle K σ) dep x := by
      intro x hx dep hxok
      refine ⟨hxok.alive, hxok.le, ?_, hxok.nconst, hold _ _ (hap x hx).1 hxok.fresh, hxok.size, hxok.some_⟩
      simpa [writeBack_length hwl'] using hxok.hi
    refine ⟨?_, hP1, (writeBack_perm he.le he.hi hp').trans h.perm, ?_, ?_, ?_, ?_, ?_, ?_⟩
    · simp [h.ents]
    · exact fun x hx => hok' x (List.mem_append_left _ hx) d (h.todo_ x (List.mem_cons_of_mem _ hx))
    · intro x hx
      rcases List.mem_append.1 hx with hx' | hx'
      · exact hok' x (List.mem_append_right _ hx') _ (h.next_ x hx')
      · obtain ⟨h1, h2, h3, h4, h5, h6, h7, h8⟩ := hnewnode x hx'
        refine ⟨h6, h5.le, ?_, h7 ▸ hQ1, h2, by omega, fun _ => h5⟩
        simp only [writeBack_length hwl']; omega
    · rw [← List.append_assoc]
      refine List.pairwise_append.2 ⟨hap', ?_, ?_⟩
      · rw [← hnew]
        refine List.pairwise_cons.2 ⟨?_, List.pairwise_cons.2 ⟨?_, ?_⟩⟩
        · intro y hy
          simp only [List.mem_cons] at hy
          rcases hy with rfl | hy
          · exact ⟨by simp only; omega, .inl (by simp only; omega)⟩
          · split at hy
            · simp only [List.mem_cons, List.not_mem_nil, or_false] at hy
              subst hy
              exact ⟨by simp only; omega, .inl (by simp only; omega)⟩
            · simp at hy
        · intro y hy
          split at hy
          · simp only [List.mem_cons, List.not_mem_nil, or_false] at hy
            subst hy
            exact ⟨by simp only; omega, .inr (by simp only; omega)⟩
          · simp at hy
        · split <;> simp
      · intro x hx y hy
        obtain ⟨h1, h2, h3, h4, -⟩ := hnewnode y hy
        have h5 := hltk x hx
        refine ⟨by omega, ?_⟩
        rcases (hap x hx).2 with h6 | h6
        · exact .inl (by omega)
        · exact .inr (by omega)
    · simp only [List.length_append, List.length_set]; omega
    · have hfk : fr.flatMap JNode.kids = [] := by rw [← hfr]; split <;> rfl
      have hkids := kids_set (A := s.arena) (i := e.node) (n := .fresh) R he.fresh rfl
      simp only [List.flatMap_append, hfk, List.append_nil, List.length_append, List.length_set, hk, hfrlen]
      refine hkids.trans ?_
      have hRk : R.kids = List.range' k (if g.splitmissing then 3 else 2) := by
        rw [← hR]; split <;> simp [JNode.kids, List.range']
      rw [hRk]
      refine (h.kids.append_right _).trans (List.Perm.of_eq ?_)
      rw [hk, show k + (if g.splitmissing then 3 else 2) - 1 = (k - 1) + (if g.splitmissing then 3 else 2) by omega,
        ← List.range'_append_1, show 1 + (k - 1) = k by omega]
    · refine JGrown.step ?_ ?_ ?_ h.root
      · intro i n hn hi
        exact hold i n (fun hh => hn ⟨e, by simp, hh.symm⟩) hi
      · rintro i n hn hi ⟨x, hx, rfl⟩
        rw [← List.append_assoc] at hx
        rcases List.mem_append.1 hx with hx' | hx'
        · exact hn ⟨x, by simp at hx' ⊢; tauto, rfl⟩
        · have := (hnewnode x hx').1
          have := (List.getElem?_eq_some_iff.1 hi).1
          omega
      · rintro b i dep l (⟨x, hx, rfl, rfl, rfl⟩ | ⟨x, hx, rfl, rfl, rfl⟩)
        · rcases List.mem_cons.1 hx with rfl | hx'
          · rw [hcs]
            refine .split (sp := sp) (l := k) (r := k + 1) (m := if g.splitmissing then some (k + 2) else none)
              hcond.1 hcond.2 h.st he.nconst hb hres hf hfit hdec hsp ?_ (by rw [hR]; exact hself) hnode (by omega) ?_
              (.pending (.inr ⟨⟨k, x.start, x.start + li, res.nconstants, some x.node, false⟩, by
                rw [← hnew]; simp, rfl, rfl, ?_⟩))
              (.pending (.inr ⟨⟨k + 1, x.start + ri, x.stop, res.nconstants, some x.node, false⟩, by
                rw [← hnew]; simp, rfl, rfl, ?_⟩)) ?_
            · rintro ⟨y, hy, hyy⟩
              rw [← List.append_assoc] at hy
              rcases List.mem_append.1 hy with hy' | hy'
              · exact (hap y hy').1 hyy
              · have := (hnewnode y hy').1
                omega
            · intro j hj
              split at hj
              · cases hj; omega
              · cases hj
            · have := writeBack_inside (p := 0) hwl' (show li ≤ cs'.length by omega)
              simp only [Nat.add_zero, List.drop_zero] at this
              rw [e1]; exact this.symm
            · have := writeBack_inside (p := ri) hwl' (le_refl _)
              rw [hwl, List.take_length] at this
              rw [e2]; exact this.symm
            · cases hsm : g.splitmissing with
              | false => exact .absent hsm
              | true =>
                by_cases hli : li = ri
                · have : sp.missing = [] := by rw [e3, hli]; simp
                  rw [this]
                  refine .empty hsm ?_ ?_
                  · rintro ⟨y, hy, hyy⟩
                    rw [← List.append_assoc] at hy
                    rcases List.mem_append.1 hy with hy' | hy'
                    · have := hltk y hy'; omega
                    · rw [← hnew, if_neg (by simp [hli])] at hy'
                      simp only [List.mem_cons, List.not_mem_nil, or_false] at hy'
                      rcases hy' with rfl | rfl
                      · simp at hyy
                      · simp at hyy
                  · rw [List.getElem?_append_right (by rw [List.length_set]; omega), List.length_set, hk,
                      Nat.add_sub_cancel_left]
                    exact hfr2 hsm
                · refine .pending (.inr ⟨⟨k + 2, x.start + li, x.start + ri, res.nconstants, some x.node, false⟩, ?_,
                    rfl, rfl, ?_⟩)
                  · rw [← hnew, if_pos ⟨hsm, hli⟩]; simp
                  · have := writeBack_inside (p := li) hwl' hle'
                    rw [e3, this, List.drop_take]
          · refine .pending (.inl ⟨x, hx', rfl, rfl, ?_⟩)
            exact (seg_keep (hap x (List.mem_append_left _ hx')) hwl' hwl).symm
        · refine .pending (.inr ⟨x, List.mem_append_left _ hx, rfl, rfl, ?_⟩)
          exact (seg_keep (hap x (List.mem_append_right _ hx)) hwl' hwl).symm

/-- Extending a level. -/
theorem level_ok (hM : MatrixOk fm cases) (hS : SearchOk g fm P Q cases) (hA : Admissible g fm P Q cases)
    (hls : 1 ≤ g.leafSize)
    (hT : ∀ st cs nc, P st → Q nc → (∀ c ∈ cs, c ∈ cases) → 2 * g.leafSize ≤ cs.length →
      g.best st cs nc ≠ none) {d : Nat} :
    ∀ (todo done next : List JEntry) (s : Jungle K σ), JInv g fm P Q cases s done todo next d →
      ∃ s' next', s.level g fm d todo.length done.length = some s' ∧
        JInv g fm P Q cases s' (done ++ todo) [] next' d := by
  intro todo
  induction todo with
  | nil => intro done next s h; exact ⟨s, next, rfl, by simpa using h⟩
  | cons e todo ih =>
    intro done next s h
    obtain ⟨s1, new, h1, h2⟩ := expand_ok hM hS hA hls hT h
    obtain ⟨s2, next', h3, h4⟩ := ih _ _ _ h2
    refine ⟨s2, next', ?_, by simpa using h4⟩
    rw [List.length_cons, Jungle.level, h1]
    simpa using h3

/-! ## Joining -/

/-- Joining two nodes gains nothing. -/
def NoGain (gain : Merger K σ) (P : σ → Prop) (cases : List Nat) : Prop :=
  ∀ st l r, P st → l ≠ [] → r ≠ [] → (∀ c ∈ l ++ r, c ∈ cases) →
    ∃ x st', gain st l r (l ++ r) = some (x, st') ∧ ¬ .fin 0 < x ∧ P st'

theorem segOf_ne_nil {cs : List Nat} {a b : Nat} (h : a < b) (hb : b ≤ cs.length) : segOf cs a b ≠ [] := by
  intro h0
  have := segOf_length (a := a) hb
  rw [h0] at this
  simp at this
  omega

theorem partner_none {gain : Merger K σ} (hG : NoGain gain P cases) {s : Jungle K σ} {done next : List JEntry} {d : Nat}
    (h : JInv g fm P Q cases s done [] next d) {ei : JEntry} (hei : ei ∈ next) :
    ∀ (js : List Nat) (st : σ), (∀ j ∈ js, ∃ ej ∈ next, s.entries[j]? = some ej) → P st →
      ∃ st', s.partner gain ei js st (.fin 0) none = some (none, st') ∧ P st' := by
  intro js
  induction js with
  | nil => intro st _ hP; exact ⟨st, rfl, hP⟩
  | cons j js ih =>
    intro st hj hP
    obtain ⟨ej, hej, hget⟩ := hj j List.mem_cons_self
    have hi := h.next_ ei hei
    have hjk := h.next_ ej hej
    have hrest := fun st => ih st (fun j hj' => hj j (List.mem_cons_of_mem _ hj'))
    rw [Jungle.partner]
    simp only [hget, hjk.alive, Option.bind_eq_bind, Option.bind_some, Bool.false_eq_true, if_false]
    split
    · rename_i hc
      have h1 := hi.some_ (Nat.succ_pos _)
      have h2 := hjk.some_ (Nat.succ_pos _)
      have hle := hjk.hi
      rw [sliceOf_seg hi.le hi.hi, sliceOf_seg hjk.le hjk.hi, sliceOf_seg (by omega) hjk.hi]
      simp only [Option.bind_some]
      rw [segOf_append (a := ei.start) (b := ei.stop) (c := ej.stop) (by omega) (by omega), hc.1]
      obtain ⟨x, st', e, hx, hP'⟩ := hG st (segOf s.cases ei.start ej.start) (segOf s.cases ej.start ej.stop) hP
        (segOf_ne_nil (by omega) (by omega)) (segOf_ne_nil h2 hle) (by
          intro c hc
          rcases List.mem_append.1 hc with hc | hc <;> exact h.perm.mem_iff.1 (segOf_mem hc))
      rw [e]
      simp only [Option.bind_some, if_neg hx]
      exact hrest st' hP'
    · exact hrest st hP

theorem JInv.set_st {s : Jungle K σ} {done todo next : List JEntry} {d : Nat}
    (h : JInv g fm P Q cases s done todo next d) {st : σ} (hP : P st) :
    JInv g fm P Q cases { s with st := st } done todo next d :=
  ⟨h.ents, hP, h.perm, fun e he => ⟨(h.todo_ e he).alive, (h.todo_ e he).le, (h.todo_ e he).hi, (h.todo_ e he).nconst,
      (h.todo_ e he).fresh, (h.todo_ e he).size, (h.todo_ e he).some_⟩,
    fun e he => ⟨(h.next_ e he).alive, (h.next_ e he).le, (h.next_ e he).hi, (h.next_ e he).nconst,
      (h.next_ e he).fresh, (h.next_ e he).size, (h.next_ e he).some_⟩, h.apart, h.pos, h.kids, h.root⟩

theorem pass_none {gain : Merger K σ} (hG : NoGain gain P cases) {done next : List JEntry} {d : Nat} :
    ∀ (is : List Nat) (s : Jungle K σ), JInv g fm P Q cases s done [] next d →
      (∀ j ∈ is, done.length ≤ j ∧ j < s.entries.length) →
      ∃ st', s.pass gain done.length is false = some ({ s with st := st' }, false) ∧ P st' := by
  intro is
  induction is with
  | nil => intro s h _; exact ⟨s.st, rfl, h.st⟩
  | cons i is ih =>
    intro s h hi
    have hget : ∀ j, done.length ≤ j ∧ j < s.entries.length → ∃ ej ∈ next, s.entries[j]? = some ej := by
      intro j hj
      have hents := h.ents
      rw [List.append_nil] at hents
      rw [hents] at hj ⊢
      rw [List.length_append] at hj
      rw [List.getElem?_append_right hj.1]
      exact ⟨next[j - done.length]'(by omega), List.getElem_mem _, List.getElem?_eq_getElem _⟩
    obtain ⟨ei, hei, he⟩ := hget i (hi i List.mem_cons_self)
    rw [Jungle.pass]
    simp only [he, (h.next_ ei hei).alive, Option.bind_eq_bind, Option.bind_some, Bool.false_eq_true, if_false]
    obtain ⟨st', h1, h2⟩ := partner_none hG h hei (List.range' done.length (s.entries.length - done.length)) s.st
      (fun j hj => hget j (by have := List.mem_range'_1.1 hj; omega)) h.st
    rw [h1]
    simp only [Option.bind_some]
    obtain ⟨st'', h3, h4⟩ := ih { s with st := st' } (h.set_st h2) (fun j hj => hi j (List.mem_cons_of_mem _ hj))
    exact ⟨st'', h3, h4⟩

theorem combine_none {gain : Merger K σ} (hG : NoGain gain P cases) {done next : List JEntry} {d : Nat}
    {s : Jungle K σ} (h : JInv g fm P Q cases s done [] next d) (fuel : Nat) :
    ∃ st', s.combine gain done.length (fuel + 1) = some { s with st := st' } ∧ P st' := by
  obtain ⟨st', h1, h2⟩ := pass_none hG (List.range' done.length (s.entries.length - done.length)) s h
    (fun j hj => by have := List.mem_range'_1.1 hj; omega)
  refine ⟨st', ?_, h2⟩
  rw [Jungle.combine, h1]
  rfl

/-! ## All levels -/

theorem levels_ok (hM : MatrixOk fm cases) (hS : SearchOk g fm P Q cases) (hA : Admissible g fm P Q cases)
    (hls : 1 ≤ g.leafSize)
    (hT : ∀ st cs nc, P st → Q nc → (∀ c ∈ cs, c ∈ cases) → 2 * g.leafSize ≤ cs.length →
      g.best st cs nc ≠ none)
    {gain : Merger K σ} (hG : NoGain gain P cases) :
    ∀ (fuel d : Nat) (s : Jungle K σ) (done todo : List JEntry), JInv g fm P Q cases s done todo [] d →
      cases.length < fuel + d → d ≤ cases.length →
      ∃ s' done' d', s.levels g gain fm fuel done.length d = some s' ∧ JInv g fm P Q cases s' done' [] [] d' := by
  intro fuel
  induction fuel with
  | zero => intro d s done todo _ h1 h2; omega
  | succ fuel ih =>
    intro d s done todo h h1 h2
    obtain ⟨s1, next, e1, h3⟩ := level_ok hM hS hA hls hT todo done [] s h
    have hl : s.entries.length = done.length + todo.length := by rw [h.ents]; simp
    have hl1 : s1.entries.length = s.entries.length + next.length := by rw [h3.ents, hl]; simp [Nat.add_assoc]
    rw [Jungle.levels]
    simp only [show s.entries.length - done.length = todo.length by omega, e1, Option.bind_eq_bind, Option.bind_some]
    split
    · rename_i hc
      have : next = [] := List.eq_nil_of_length_eq_zero (by omega)
      subst this
      exact ⟨s1, _, _, rfl, h3⟩
    · rename_i hc
      obtain ⟨st', e2, hP'⟩ := combine_none hG h3 s1.entries.length
      rw [List.length_append, ← hl] at e2
      rw [e2]
      simp only [Option.bind_some]
      have h4 := h3.set_st hP'
      obtain ⟨e, he⟩ : ∃ e, e ∈ next := by
        cases next with
        | nil => simp at hl1; omega
        | cons e _ => exact ⟨e, by simp⟩
      have hne := h3.next_ e he
      have := hne.some_ (Nat.succ_pos _)
      have := hne.size
      have h5 : JInv g fm P Q cases { s1 with st := st' } (done ++ todo) next [] (d + 1) := by
        refine ⟨by simpa using h4.ents, h4.st, h4.perm, h4.next_, by simp, by simpa using h4.apart, h4.pos, h4.kids, ?_⟩
        refine JGrown.step (fun _ _ _ hi => hi) ?_ ?_ h4.root
        · rintro i n hn hi ⟨x, hx, rfl⟩
          exact hn ⟨x, by simpa using hx, rfl⟩
        · rintro b i dep l (⟨x, hx, rfl, rfl, rfl⟩ | ⟨x, hx, rfl, rfl, rfl⟩)
          · simp at hx
          · exact .pending (.inl ⟨x, hx, rfl, rfl, rfl⟩)
      have := ih (d + 1) _ (done ++ todo) next h5 (by omega) (by omega)
      rw [List.length_append, ← hl] at this
      exact this

/-- More fuel changes nothing. -/
theorem levels_fuel (g : Grower K σ) (gain : Merger K σ) (fm : FeatureMatrix K) :
    ∀ (fuel first d : Nat) (s r : Jungle K σ), s.levels g gain fm fuel first d = some r →
      s.levels g gain fm (fuel + 1) first d = some r := by
  intro fuel
  induction fuel with
  | zero => intro first d s r h; simp [Jungle.levels] at h
  | succ fuel ih =>
    intro first d s r h
    rw [Jungle.levels] at h ⊢
    simp only [Option.bind_eq_bind, Option.bind_eq_some_iff] at h ⊢
    obtain ⟨s1, h1, h2⟩ := h
    refine ⟨s1, h1, ?_⟩
    split at h2
    · rename_i hc; rw [if_pos hc]; exact h2
    · rename_i hc
      rw [if_neg hc]
      obtain ⟨s2, h3, h4⟩ := Option.bind_eq_some_iff.1 h2
      exact Option.bind_eq_some_iff.2 ⟨s2, h3, ih _ _ _ _ h4⟩

theorem levels_fuel_le {g : Grower K σ} {gain : Merger K σ} {fm : FeatureMatrix K} {first d : Nat} {s r : Jungle K σ}
    {fuel fuel' : Nat} (hle : fuel ≤ fuel') (h : s.levels g gain fm fuel first d = some r) :
    s.levels g gain fm fuel' first d = some r := by
  induction hle with
  | refl => exact h
  | step _ ih => exact levels_fuel _ _ _ _ _ _ _ _ ih

/-- A jungle in which no join gains anything is grown, and is a tree. -/
theorem growJungle_grown (hM : MatrixOk fm cases) (hS : SearchOk g fm P Q cases) (hA : Admissible g fm P Q cases)
    (hls : 1 ≤ g.leafSize)
    (hT : ∀ st cs nc, P st → Q nc → (∀ c ∈ cs, c ∈ cases) → 2 * g.leafSize ≤ cs.length →
      g.best st cs nc ≠ none)
    {gain : Merger K σ} (hG : NoGain gain P cases) {st : σ} (hP : P st) (hQ : Q 0) :
    ∃ s, (∀ fuel, cases.length < fuel → growJungle g gain fm fuel st cases = some s) ∧
      Grown g fm P Q false s.root cases 0 ∧ 0 < s.arena.length ∧
      (s.arena.flatMap JNode.kids).Perm (List.range' 1 (s.arena.length - 1)) := by
  have h0 : JInv g fm P Q cases
      (⟨[.fresh], [⟨0, 0, cases.length, 0, none, false⟩], cases, st⟩ : Jungle K σ) []
      [⟨0, 0, cases.length, 0, none, false⟩] [] 0 := by
    refine ⟨rfl, hP, List.Perm.refl _, ?_, by simp, by simp, by simp, by simp [JNode.kids, JNode.fresh], ?_⟩
    · intro e he
      simp only [List.mem_cons, List.not_mem_nil, or_false] at he
      subst he
      exact ⟨rfl, Nat.zero_le _, le_refl _, hQ, rfl, by simp, fun h => absurd h (lt_irrefl _)⟩
    · exact .pending (.inl ⟨_, List.mem_cons_self, rfl, rfl, by simp [segOf]⟩)
  obtain ⟨s, done, d, h1, h2⟩ := levels_ok hM hS hA hls hT hG (cases.length + 1) 0 _ _ _ h0 (by omega) (Nat.zero_le _)
  refine ⟨s, fun fuel hf => levels_fuel_le hf h1, ?_, h2.pos, h2.kids⟩
  refine h2.root.grown ?_ s.arena.length ?_
  · rintro i d cs (⟨e, he, -⟩ | ⟨e, he, -⟩) <;> simp at he
  · rintro i ⟨⟩; simp

end CloudForest
