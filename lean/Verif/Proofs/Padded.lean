import Verif.Proofs.Unread
import Verif.Proofs.Made
/-! # Rows do not overlap if the first tokens are not read -/

namespace Pomelo

open Spec

/-! ## The end of the table -/

/-- The last `n` cells are labelled 0. -/
def ActTab.Tail (t : ActTab) (n : Nat) : Prop := ∀ k : Nat, k < n → ∃ a, t.at ((t.length : Int) - 1 - k) = some a ∧ a.la = 0

theorem hole_or_tail {t : ActTab} {m : LaAct} {row : List LaAct} (hs : (m :: row).Pairwise (fun a b => a.la ≤ b.la))
    (hf : (List.range (t.length + ((m :: row).getLast?.getD m).la)).find? (t.holeAt (m :: row)) = none) :
    t.seen (t.length - m.la) = 0 ∨ (m.la ≠ 0 ∧ (∀ a ∈ m :: row, a.la = m.la) ∧ t.Tail m.la) := by
  rw [List.find?_eq_none] at hf
  have hm1 : ∀ a ∈ m :: row, m.la ≤ a.la := by
    intro a ha
    rcases List.mem_cons.1 ha with rfl | ha
    · exact Nat.le_refl _
    · exact (List.pairwise_cons.1 hs).1 a ha
  have hm2 : ∀ a ∈ m :: row, a.la ≤ ((m :: row).getLast?.getD m).la := by
    intro a ha
    rw [List.getLast?_eq_some_getLast (List.cons_ne_nil _ _), Option.getD_some]
    have h1 := List.dropLast_append_getLast (l := m :: row) (List.cons_ne_nil _ _)
    rw [← h1, List.pairwise_append] at hs
    rw [← h1] at ha
    rcases List.mem_append.1 ha with ha | ha
    · exact hs.2.2 a ha _ (List.mem_singleton.2 rfl)
    · rw [List.mem_singleton.1 ha]
  have hlarge : ∀ i : Nat, t.length ≤ i → i < t.length + ((m :: row).getLast?.getD m).la → t.seen (i - m.la) ≠ 0 := by
    intro i h1 h2 h0
    refine hf i (List.mem_range.2 h2) ?_
    unfold ActTab.holeAt
    simp only [Bool.and_eq_true, List.all_eq_true, beq_iff_eq]
    refine ⟨fun a ha => at_len ?_, h0⟩
    have := hm1 a ha
    omega
  have hfar : ∀ o : Int, (t.length : Int) ≤ o → t.seen o = 0 := by
    intro o ho
    rw [seen_eq, List.length_eq_zero_iff, List.eq_nil_iff_forall_not_mem]
    rintro ⟨c, j⟩ hc
    cases c with
    | none => simp [ActTab.cells] at hc
    | some a =>
      obtain ⟨h1, h2⟩ := mem_seen.1 hc
      have := at_bound h1
      omega
  by_cases hlt : m.la < ((m :: row).getLast?.getD m).la
  · exact absurd (hfar _ (by push_cast; omega)) (hlarge (t.length + m.la) (by omega) (by omega))
  by_cases hm : m.la = 0
  · exact .inl (hfar _ (by omega))
  right
  refine ⟨hm, fun a ha => ?_, ?_⟩
  · have := hm1 a ha; have := hm2 a ha; omega
  have hlast : ((m :: row).getLast?.getD m).la = m.la := by
    have := hm2 m List.mem_cons_self; omega
  rw [hlast] at hlarge
  intro k
  induction k using Nat.strongRecOn with
  | ind k ih =>
    intro hk
    have h1 := hlarge (t.length + (m.la - 1 - k)) (by omega) (by omega)
    rw [seen_eq, Ne, List.length_eq_zero_iff] at h1
    obtain ⟨⟨c, j⟩, hc⟩ := List.exists_mem_of_ne_nil _ h1
    cases c with
    | none => simp [ActTab.cells] at hc
    | some a =>
      obtain ⟨h2, h3⟩ := mem_seen.1 hc
      have hjl := at_bound h2
      by_cases ha : a.la = 0
      · refine ⟨a, ?_, ha⟩
        rw [← h2]; congr 1
        omega
      · exfalso
        obtain ⟨a', h4, h5⟩ := ih (t.length - 1 - j) (by omega) (by omega)
        rw [show (t.length : Int) - 1 - ((t.length - 1 - j : Nat) : Int) = j from by omega, h2] at h4
        cases h4
        exact ha h5

theorem insert_cases {t t' : ActTab} {m : LaAct} {row : List LaAct} {ofs : Int} (hs : (m :: row).Pairwise (fun a b => a.la ≤ b.la))
    (h : t.insert (m :: row) = some (t', ofs)) :
    (∃ i : Nat, t.matchAt (m :: row) i = true ∧ ofs = i - m.la) ∨
    ((∀ i : Nat, i < t.length → t.matchAt (m :: row) i = false) ∧
      (t.seen ofs = 0 ∨ (m.la ≠ 0 ∧ (∀ a ∈ m :: row, a.la = m.la) ∧ t.Tail m.la))) := by
  unfold ActTab.insert at h
  simp only at h
  rw [ite_eq_iff] at h
  rcases h with ⟨_, h⟩ | ⟨_, h⟩
  · simp only [Option.some.injEq, Prod.mk.injEq] at h
    obtain ⟨_, rfl⟩ := h
    split
    · rename_i i' hf
      exact .inl ⟨i', List.find?_some hf, rfl⟩
    · rename_i hf0
      refine .inr ⟨fun i hi => ?_, ?_⟩
      · have := List.find?_eq_none.1 hf0 i (by simp [hi])
        simpa using this
      split
      · rename_i i' hf
        have := List.find?_some hf
        unfold ActTab.holeAt at this
        simp only [Bool.and_eq_true, List.all_eq_true, beq_iff_eq] at this
        exact .inl this.2
      · rename_i hf
        exact hole_or_tail hs hf
  · cases h

/-! ## One row -/

/-- Rows as they are made: entries for 0 are actions of `Z`, and a row for a single symbol is for 0 or for a number that is larger than the size of `Z`. -/
structure GoodRow (Z : List Nat) (row : List LaAct) : Prop where
  sorted : row.Pairwise (fun a b => a.la ≤ b.la)
  nodup : row.Nodup
  zero : ∀ a ∈ row, a.la = 0 → a.act ∈ Z
  one : ∀ a ∈ row, ∀ b ∈ row, a.la = 0 → b.la = 0 → a = b
  big : ∀ m ∈ row, m.la ≠ 0 → (∀ a ∈ row, a.la = m.la) → Z.length < m.la

/-- Nothing but the cell labelled 0 is seen from there. -/
def ActTab.Alone (t : ActTab) (i : Int) : Prop := ∀ la : Nat, la ≠ 0 → t.vis i la = none

/-- Rows that have an entry for 0 only are not placed twice. -/
structure TabInv (Z : List Nat) (t : ActTab) : Prop where
  zero : ∀ i a, t.at i = some a → a.la = 0 → a.act ∈ Z
  inj : ∀ i j a, t.at i = some a → t.at j = some a → a.la = 0 → t.Alone i → t.Alone j → i = j

theorem TabInv.tail {Z : List Nat} {t : ActTab} (h : TabInv Z t) {n : Nat} (hn : t.Tail n) : n ≤ Z.length := by
  have halone : ∀ k : Nat, k < n → t.Alone ((t.length : Int) - 1 - k) := by
    intro k hk la hla
    cases hv : t.vis ((t.length : Int) - 1 - k) la with
    | none => rfl
    | some act =>
      exfalso
      rw [vis_some] at hv
      have := at_bound hv
      obtain ⟨a, h1, h2⟩ := hn (k - la) (by omega)
      rw [show (t.length : Int) - 1 - ((k - la : Nat) : Int) = (t.length : Int) - 1 - k + la from by omega, hv] at h1
      cases h1
      exact hla h2
  let f : Nat → Nat := fun k => ((t.at ((t.length : Int) - 1 - k)).map (·.act)).getD 0
  have hnd : ((List.range n).map f).Nodup := by
    rw [List.nodup_map_iff_inj_on List.nodup_range]
    intro x hx y hy he
    rw [List.mem_range] at hx hy
    obtain ⟨a, h1, h2⟩ := hn x hx
    obtain ⟨b, h3, h4⟩ := hn y hy
    simp only [f, h1, h3, Option.map_some, Option.getD_some] at he
    have hab : b = a := by
      cases a; cases b
      simp only at h2 h4 he
      rw [h2, h4, he]
    rw [hab] at h3
    have := h.inj _ _ a h1 h3 h2 (halone x hx) (halone y hy)
    omega
  have hsub : (List.range n).map f ⊆ Z := by
    intro z hz
    obtain ⟨k, hk, rfl⟩ := List.mem_map.1 hz
    rw [List.mem_range] at hk
    obtain ⟨a, h1, h2⟩ := hn k hk
    simp only [f, h1, Option.map_some, Option.getD_some]
    exact h.zero _ a h1 h2
  have := (hnd.subperm hsub).length_le
  rwa [List.length_map, List.length_range] at this

theorem seen_one {t : ActTab} {j : Nat} {a : LaAct} (h : t.at j = some a) (h0 : a.la = 0) (hal : t.Alone j) : t.seen j = 1 := by
  have hmem : (some a, j) ∈ t.cells (j : Int) := mem_seen.2 ⟨h, by rw [h0]; omega⟩
  have hall : ∀ x ∈ t.cells (j : Int), x = (some a, j) := by
    rintro ⟨c, i⟩ hx
    cases c with
    | none => simp [ActTab.cells] at hx
    | some b =>
      obtain ⟨h1, h2⟩ := mem_seen.1 hx
      by_cases hb : b.la = 0
      · have : i = j := by rw [hb] at h2; omega
        subst this
        rw [h1] at h; cases h; rfl
      · have h3 := hal b.la hb
        rw [h2] at h1
        have := (vis_some (t := t) (o := (j : Int)) (la := b.la) (act := b.act)).2 h1
        rw [h3] at this; cases this
  have hnd : (t.cells (j : Int)).Nodup := by
    unfold ActTab.cells
    refine List.Nodup.filter _ (List.Nodup.of_map Prod.snd ?_)
    rw [List.zipIdx_map_snd]
    exact List.nodup_range'
  rw [seen_eq]
  match hc : t.cells (j : Int) with
  | [] => rw [hc] at hmem; cases hmem
  | [x] => rfl
  | x :: y :: l =>
    exfalso
    rw [hc] at hall hnd
    rw [hall x (by simp), hall y (by simp)] at hnd
    simp at hnd

theorem insert_good {Z : List Nat} {t t' : ActTab} {row : List LaAct} {ofs : Int} (ht : TabInv Z t) (hr : GoodRow Z row) (h : t.insert row = some (t', ofs)) :
    TabInv Z t' ∧ (∀ la, t'.vis ofs la = rowGet row la) ∧ ((∀ la, t.vis ofs la = none) ∨ ∀ la, t.vis ofs la = rowGet row la) := by
  have hi := insert_spec hr.sorted h
  cases row with
  | nil => cases h
  | cons m row =>
  -- what is seen afterwards
  have hvis : ((∀ la, t.vis ofs la = none) ∨ ∀ la, t.vis ofs la = rowGet (m :: row) la) → ∀ la, t'.vis ofs la = rowGet (m :: row) la := by
    intro H la
    cases hw : rowGet (m :: row) la with
    | some act => rw [vis_some]; exact hi.put la act hw
    | none =>
      cases hv : t'.vis ofs la with
      | none => rfl
      | some act =>
        rw [vis_some] at hv
        rcases hi.only _ _ hv with h1 | ⟨_, h1⟩
        · rw [← vis_some] at h1
          rcases H with H | H
          · rw [H] at h1; cases h1
          · rw [H, hw] at h1; cases h1
        · rw [hw] at h1; cases h1
  have halone : ∀ i, t'.Alone i → t.Alone i := by
    intro i hi' la hla
    cases hv : t.vis i la with
    | none => rfl
    | some act =>
      rw [vis_some] at hv
      have := hi' la hla
      rw [vis_some.2 (hi.keep _ _ hv)] at this; cases this
  have hzero : ∀ i a, t'.at i = some a → a.la = 0 → a.act ∈ Z := by
    intro i a h1 h2
    rcases hi.only _ _ h1 with h3 | ⟨_, h3⟩
    · exact ht.zero i a h3 h2
    · exact hr.zero _ (rowGet_some h3) h2
  rcases insert_cases hr.sorted h with ⟨i, hm, rfl⟩ | ⟨hno, hseen⟩
  · unfold ActTab.matchAt at hm
    simp only [Bool.and_eq_true, List.all_eq_true, beq_iff_eq] at hm
    have hst : (m :: row).Pairwise (fun a b => a.la < b.la) := by
      have hnd : (m :: row).Pairwise (fun a b => a ≠ b) := hr.nodup
      refine (List.Pairwise.and_mem.1 (hr.sorted.and hnd)).imp ?_
      rintro a b ⟨ha, hb, h1, h2⟩
      refine Nat.lt_of_le_of_ne h1 fun he => h2 ?_
      have h3 := hm.1.2 a ha
      have h4 := hm.1.2 b hb
      rw [he, h4] at h3
      cases h3; rfl
    have H : ∀ la, t.vis (i - m.la) la = rowGet (m :: row) la := fun la => by
      rw [← wants_eq_rowGet hst]; exact seen_exact hst hm.1.2 hm.2 la
    refine ⟨⟨hzero, ?_⟩, hvis (.inr H), .inr H⟩
    have hold : ∀ k c, t'.at k = some c → t.at k = some c := by
      intro k c hc
      rcases hi.only _ _ hc with h1 | ⟨h1, h2⟩
      · exact h1
      · rw [h1]
        exact vis_some.1 (by rw [H, h2])
    intro i j a h1 h2 h3 h4 h5
    exact ht.inj i j a (hold _ _ h1) (hold _ _ h2) h3 (halone _ h4) (halone _ h5)
  · have hs0 : t.seen ofs = 0 := by
      rcases hseen with h0 | ⟨h1, h2, h3⟩
      · exact h0
      · have := ht.tail h3
        have := hr.big m List.mem_cons_self h1 h2
        omega
    have H : ∀ la, t.vis ofs la = none := seen_zero hs0
    have hv' := hvis (.inl H)
    refine ⟨⟨hzero, ?_⟩, hv', .inl H⟩
    -- a new cell that is alone makes the row a single entry
    have hnew : ∀ a, rowGet (m :: row) a.la = some a.act → a.la = 0 → t'.Alone ofs → m :: row = [a] := by
      intro a h1 h2 h3
      have h4 : ∀ b ∈ m :: row, b.la = 0 := by
        intro b hb
        by_contra hb0
        have h5 := rowGet_isSome hb
        rw [← hv', h3 b.la hb0] at h5
        cases h5
      have ha := rowGet_some h1
      have h6 : ∀ b ∈ m :: row, b = a := fun b hb => hr.one b hb a ha (h4 b hb) h2
      have h7 := h6 m List.mem_cons_self
      cases row with
      | nil => rw [h7]
      | cons b row =>
        exfalso
        have h8 := h6 b (by simp)
        have := hr.nodup
        rw [h7, h8] at this
        simp at this
    have hne : ∀ i j a, (i = ofs + a.la ∧ rowGet (m :: row) a.la = some a.act) → t.at j = some a → a.la = 0 → t'.Alone i → t'.Alone j → False := by
      rintro i j a ⟨rfl, h1⟩ h2 h3 h4 h5
      rw [h3] at h4
      simp only [Int.natCast_zero, Int.add_zero] at h4
      have h6 := hnew a h1 h3 h4
      have hj := at_nonneg h2
      have hjl := at_bound h2
      obtain ⟨n, rfl⟩ := Int.eq_ofNat_of_zero_le hj
      have h7 := hno n (by omega)
      rw [h6] at h7
      have h8 := seen_one h2 h3 (halone _ h5)
      unfold ActTab.matchAt at h7
      simp only [List.all_cons, List.all_nil, Bool.and_true, h3, Int.natCast_zero, Int.sub_zero, Int.add_zero, h2, h8, List.length_singleton, beq_self_eq_true] at h7
      cases h7
    intro i j a h1 h2 h3 h4 h5
    rcases hi.only _ _ h1 with h6 | h6 <;> rcases hi.only _ _ h2 with h7 | h7
    · exact ht.inj i j a h6 h7 h3 (halone _ h4) (halone _ h5)
    · exact (hne j i a h7 h6 h3 h5 h4).elim
    · exact (hne i j a h6 h7 h3 h4 h5).elim
    · rw [h6.1, h7.1]

/-! ## All rows -/

structure ExactPack (g : Grammar) (sts : List RState) (Z : List Nat) (p : Packed) : Prop where
  tab : TabInv Z p.tab
  vis : ∀ k pos ofs, (pos, ofs) ∈ p.ofs k → g.rowOf sts k pos ≠ [] ∧ ∀ la, p.tab.vis ofs la = rowGet (g.rowOf sts k pos) la

theorem packOne_exact {g : Grammar} {sts : List RState} {Z : List Nat} (hr : ∀ k pos, GoodRow Z (g.rowOf sts k pos)) {p p' : Packed} {a : Ax}
    (hp : ExactPack g sts Z p) (h : g.packOne sts p a = some p') : ExactPack g sts Z p' := by
  unfold Grammar.packOne at h
  split at h
  · cases h; exact hp
  · split at h
    · cases h
    · rename_i tab ofs hins
      have hins' : p.tab.insert (g.rowOf sts a.isTkn a.pos) = some (tab, ofs) := hins
      obtain ⟨h1, h2, h3⟩ := insert_good hp.tab (hr _ _) hins'
      have hi := insert_spec (hr _ _).sorted hins'
      have hne : g.rowOf sts a.isTkn a.pos ≠ [] := by
        intro e; rw [e] at hins'; cases hins'
      have hold : ∀ k pos o, (pos, o) ∈ p.ofs k → g.rowOf sts k pos ≠ [] ∧ ∀ la, tab.vis o la = rowGet (g.rowOf sts k pos) la := by
        intro k pos o hm
        obtain ⟨h4, h5⟩ := hp.vis k pos o hm
        refine ⟨h4, fun la => ?_⟩
        by_cases ho : o = ofs
        · subst ho
          rcases h3 with h3 | h3
          · exfalso
            obtain ⟨b, hb⟩ := List.exists_mem_of_ne_nil _ h4
            have := rowGet_isSome hb
            rw [← h5, h3] at this; cases this
          · rw [h2, ← h3, h5]
        · rw [hi.other ho, h5]
      have hfin : ∀ q : Packed, q.tab = tab → (∀ k x, x ∈ q.ofs k → x ∈ p.ofs k ∨ (k = a.isTkn ∧ x = (a.pos, ofs))) → ExactPack g sts Z q := by
        intro q hq hx
        refine ⟨by rw [hq]; exact h1, fun k pos o hm => ?_⟩
        rw [hq]
        rcases hx k _ hm with h4 | ⟨rfl, h4⟩
        · exact hold k pos o h4
        · cases h4; exact ⟨hne, h2⟩
      split at h
      · rename_i hk
        cases h
        refine hfin _ rfl fun k x hx => ?_
        cases k
        · exact .inl hx
        · rcases List.mem_cons.1 hx with rfl | hx
          · exact .inr ⟨hk.symm, rfl⟩
          · exact .inl hx
      · rename_i hk
        cases h
        refine hfin _ rfl fun k x hx => ?_
        cases k
        · rcases List.mem_cons.1 hx with rfl | hx
          · exact .inr ⟨by simpa using hk, rfl⟩
          · exact .inl hx
        · exact .inl hx

theorem pack_exact {g : Grammar} {sts : List RState} {Z : List Nat} (hr : ∀ k pos, GoodRow Z (g.rowOf sts k pos)) {p : Packed} (h : g.pack sts = some p) :
    ExactPack g sts Z p := by
  have key : ∀ (l : List Ax) (p0 : Packed), ExactPack g sts Z p0 → l.foldlM (g.packOne sts) p0 = some p → ExactPack g sts Z p := by
    intro l
    induction l with
    | nil => intro p0 h0 h; cases h; exact h0
    | cons a l ih =>
      intro p0 h0 h
      rw [List.foldlM_cons] at h
      cases h1 : g.packOne sts p0 a with
      | none => rw [h1] at h; cases h
      | some p1 => rw [h1] at h; exact ih p1 (packOne_exact hr h0 h1) h
  refine key _ {} ⟨⟨?_, ?_⟩, ?_⟩ h
  · intro i a h
    have := at_bound h; have := at_nonneg h; simp at *; omega
  · intro i j a h
    have := at_bound h; have := at_nonneg h; simp at *; omega
  · intro k pos ofs hm; cases k <;> cases hm

theorem ExactPack.own {g : Grammar} {sts : List RState} {Z : List Nat} {p : Packed} (h : ExactPack g sts Z p) : ownRows g sts p = true := by
  unfold ownRows
  rw [List.all_eq_true]
  intro k _
  rw [List.all_eq_true]
  rintro ⟨pos, ofs⟩ hm
  have hv := (h.vis k pos ofs hm).2
  simp only
  rw [List.all_eq_true]
  rintro ⟨c, j⟩ hc
  cases c with
  | none => rfl
  | some a =>
    simp only
    by_cases he : (a.la : Int) = (j : Int) - ofs
    · rw [List.mk_mem_zipIdx_iff_getElem?] at hc
      have hat : p.tab.at (ofs + a.la) = some a := by
        rw [show ofs + (a.la : Int) = j from by omega]
        unfold ActTab.at
        rw [if_neg (by omega), Int.toNat_natCast, List.getD_eq_getElem?_getD, hc]; rfl
      have h2 := (vis_some (t := p.tab) (o := ofs) (la := a.la) (act := a.act)).2 hat
      rw [hv] at h2
      have : (g.row sts k (sts.getD pos default).actions).contains a = true := List.contains_iff_mem.2 (rowGet_some h2)
      rw [this, Bool.or_true]
    · rw [decide_eq_false he]; rfl

/-! ## The rows of a grammar -/

section
variable {ord : List (SymbolId × SymbolId) → List (SymbolId × SymbolId)} {ds : List Decl} {t : Tables}

theorem CompSpec.lives_sub {g : Grammar} {dflt : SymbolId} {acts acts' : List Action} {d : Option RuleId} {ig : List SymbolId}
    (h : CompSpec g dflt acts acts' d ig) {x : SymbolId} (hx : x ≠ dflt) : ∃ l, (lives (onSym x acts')).Perm l ∧ l.Sublist (lives (onSym x acts)) := by
  cases d with
  | none => rw [(h.dNone rfl).1]; exact ⟨_, .refl _, .refl _⟩
  | some r =>
    rw [(h.dSome r rfl).1]
    refine ⟨_, lives_perm (onSym_perm (perm_sortBy _ _)), ?_⟩
    rw [lives_makeDefault hx]
    exact List.filter_sublist

theorem Grammar.Outcome.nodup {g : Grammar} {s : SymbolId} {sh : List StateId} {rd : List RuleId} {l : List Detail} (h : g.Outcome s sh rd l) : l.Nodup := by
  cases h <;> simp

theorem CanShift.ne_dollar {g : Grammar} {sts : List LState} (hi : GInv g) (ha : Auto g sts) {q k : StateId} (h : g.CanShift sts q 0 k) : False := by
  obtain ⟨X, h1, h2⟩ := h
  obtain ⟨r, hr, hX⟩ := h1.rhs hi ha
  have hX := hi.rhs r hr X hX
  rcases (mem_shiftActions.1 h2).2 with ⟨_, h3⟩ | ⟨_, h3⟩
  · have := (hi.subs X hX.1 _ h3).2
    simp only at this
    rw [hi.dollar.1] at this; cases this
  · simp only at h3
    rw [← h3] at hX
    exact hX.2.1 hi.dollar.1

/-- What is live on a symbol -/
theorem CSpec.lives_cases (ho : OrdOk ord) (s : CSpec ord ds t) {q : StateId} (hq : q < s.acts'.length) {x : SymbolId} (hx : (s.g.sym x).index ≠ s.g.defaultIndex) :
    ∃ l l', (lives (onSym x (s.acts'.getD q []))).Perm l' ∧ l'.Sublist l ∧ (l = [] ∨ (∃ d, l = [d]) ∨ ∃ r : Nat, r < s.g.rules.length ∧ l = [.error, .reduce r]) ∧
      (x = 0 → l = [] ∨ ∃ r : Nat, r < s.g.rules.length ∧ l = [.reduce r]) := by
  have hi := s.ginv ho
  obtain ⟨b⟩ := bridge ho s.decls s.auto
  obtain ⟨dflt, d1, d2, d3, d4, d5⟩ := compressTables_spec hi s.compress
  have hau := automaton_auto ho s.decls s.auto
  have hs := findActions_spec hi hau b.levels b.noStart s.actions
  have hqa : q < s.acts.length := by rw [← d4]; exact hq
  obtain ⟨d, ig, hcomp⟩ := d5 q hqa
  have hqs : q < s.sts.length := by rw [← hs.len]; exact hqa
  obtain ⟨l', h1, h2⟩ := hcomp.lives_sub (x := x) (fun e => hx (by rw [e, d2]))
  refine ⟨_, l', h1, h2, ?_⟩
  clear h1 h2
  have hrd : ∀ {r : Nat}, s.g.CanReduce s.sts q x r → r < s.g.rules.length := fun {r} h => by
    have := LA_item hi hau h.2.2
    exact hau.item_rule hi this.1 this.2
  by_cases hst : q = 0 ∧ x = s.g.start.getD 0
  · obtain ⟨rfl, rfl⟩ := hst
    rw [hs.acc]
    refine ⟨.inr (.inl ⟨.accept, rfl⟩), fun e => ?_⟩
    have := hi.start_kind.1
    rw [e, hi.dollar.2.1] at this; cases this
  · obtain ⟨sh, rd, h3, h4, h5⟩ := hs.out q hqs x (by by_cases h : q = 0; exact .inr fun e => hst ⟨h, e⟩; exact .inl h)
    revert h5
    generalize lives (onSym x (s.acts.getD q [])) = l
    intro h5
    refine ⟨?_, ?_⟩
    · cases h5 with
      | nothing => exact .inl rfl
      | shift => exact .inr (.inl ⟨_, rfl⟩)
      | reduce => exact .inr (.inl ⟨_, rfl⟩)
      | error _ hr => exact .inr (.inr ⟨_, hrd ((h4 _).1 hr), rfl⟩)
    · rintro rfl
      have hsh : sh = [] := by
        rw [List.eq_nil_iff_forall_not_mem]
        exact fun k hk => CanShift.ne_dollar hi hau ((h3 k).1 hk)
      cases h5 with
      | nothing _ _ => exact .inl rfl
      | shift h => rw [hsh] at h; cases h
      | reduce hr => exact .inr ⟨_, hrd ((h4 _).1 hr), rfl⟩
      | error h => rw [hsh] at h; cases h

/-- The rows of the packed table, when the tokens with the numbers 1 to the number of rules are not read -/
theorem CSpec.goodRow (ho : OrdOk ord) (s : CSpec ord ds t)
    (hpad : ∀ k, 1 ≤ k → k ≤ t.nRule → ∃ i : Ident, t.tokenNames[k]? = some (.ident i) ∧ i.isTerminal = true ∧ unread ds i = true) (k : Bool) (pos : Nat) :
    GoodRow ((List.range s.g.rules.length).map (· + (s.g.resortStates s.acts').length)) (s.g.rowOf (s.g.resortStates s.acts') k pos) := by
  have hi := s.ginv ho
  obtain ⟨b⟩ := bridge ho s.decls s.auto
  obtain ⟨dflt, d1, d2, d3, d4, d5⟩ := compressTables_spec hi s.compress
  have hau := automaton_auto ho s.decls s.auto
  have hs := findActions_spec hi hau b.levels b.noStart s.actions
  have hsorted : (s.g.rowOf (s.g.resortStates s.acts') k pos).Pairwise (fun a b => a.la ≤ b.la) := row_sorted (s.rowsSorted ho pos)
  by_cases hp : pos < s.acts'.length
  swap
  · have : s.g.rowOf (s.g.resortStates s.acts') k pos = [] := by
      unfold Grammar.rowOf
      rw [List.getD_eq_getElem?_getD, List.getElem?_eq_none (by rw [resort_len]; omega)]
      rfl
    rw [this]
    exact ⟨List.Pairwise.nil, List.nodup_nil, by simp, by simp, by simp⟩
  obtain ⟨q, hq, rfl⟩ := stateNum_surj (g := s.g) s.acts' hp
  have hrow : s.g.rowOf (s.g.resortStates s.acts') k (stateNum (s.g.resortStates s.acts') q) = s.g.row (s.g.resortStates s.acts') k (s.acts'.getD q []) := by
    unfold Grammar.rowOf
    rw [getD_resort q hq]
  rw [hrow] at hsorted ⊢
  have hqa : q < s.acts.length := by rw [← d4]; exact hq
  have hqs : q < s.sts.length := by rw [← hs.len]; exact hqa
  have hlt : ∀ a ∈ s.acts'.getD q [], a.la < s.g.syms.length := by
    intro a ha
    obtain ⟨d, ig, hcomp⟩ := d5 q hqa
    rcases hcomp.las ha with h3 | ⟨y, hy, h3⟩
    · rw [h3]; exact d1
    · rw [← h3]
      rcases hs.las q hqs y hy with ⟨k', h4⟩ | ⟨r, h4⟩ | ⟨_, h4⟩
      · exact h4.lt hi hau
      · exact h4.1
      · rw [h4]; exact hi.start_kind.2.1
  -- the entries for one symbol
  have hent : ∀ c ∈ s.g.row (s.g.resortStates s.acts') k (s.acts'.getD q []), ∃ x, x < s.g.syms.length ∧ (s.g.sym x).index = c.la ∧ (s.g.sym x).index ≠ s.g.defaultIndex ∧
      (s.g.row (s.g.resortStates s.acts') k (s.acts'.getD q [])).filter (fun a => a.la == c.la) =
        (lives (onSym x (s.acts'.getD q []))).map (fun d => ⟨c.la, codeOf (s.g.resortStates s.acts').length s.g.rules.length (stateNum (s.g.resortStates s.acts')) d⟩) := by
    intro c hc
    obtain ⟨x, hx, h1, h2⟩ := mem_row hc
    refine ⟨x.la, hlt x hx, h1.symm, ?_, ?_⟩
    · rw [← h1]
      unfold Grammar.InRow at h2
      split at h2
      · intro e; rw [e] at h2; exact absurd hi.nterm.2.1 (Nat.not_le_of_lt h2)
      · exact h2.2
    · rw [h1] at h2 ⊢
      exact row_filter h2 fun a ha he => hi.index_inj (hlt a ha) (hlt x hx) he
  have hzero : ∀ c ∈ s.g.row (s.g.resortStates s.acts') k (s.acts'.getD q []), c.la = 0 → ∃ r : Nat, r < s.g.rules.length ∧
      ∀ a ∈ s.g.row (s.g.resortStates s.acts') k (s.acts'.getD q []), a.la = 0 → a = ⟨0, r + (s.g.resortStates s.acts').length⟩ := by
    intro c hc hc0
    obtain ⟨x, h1, h2, h3, h4⟩ := hent c hc
    have hx0 : x = 0 := hi.index_inj h1 (Nat.lt_of_lt_of_le Nat.zero_lt_two hi.two) (by rw [h2, hc0, hi.dollar.2.2])
    obtain ⟨l, l', h5, h6, _, h7⟩ := s.lives_cases ho hq h3
    have hin : ∀ a ∈ s.g.row (s.g.resortStates s.acts') k (s.acts'.getD q []), a.la = 0 → ∃ d ∈ l,
        a = ⟨0, codeOf (s.g.resortStates s.acts').length s.g.rules.length (stateNum (s.g.resortStates s.acts')) d⟩ := by
      intro a ha ha0
      have hf : a ∈ (s.g.row (s.g.resortStates s.acts') k (s.acts'.getD q [])).filter (fun a => a.la == c.la) :=
        List.mem_filter.2 ⟨ha, by rw [ha0, hc0]; rfl⟩
      rw [h4] at hf
      obtain ⟨d, hd, rfl⟩ := List.mem_map.1 hf
      exact ⟨d, h6.subset (h5.subset hd), by rw [hc0]⟩
    rcases h7 hx0 with rfl | ⟨r, hr, rfl⟩
    · obtain ⟨d, hd, _⟩ := hin c hc hc0
      cases hd
    · refine ⟨r, hr, fun a ha ha0 => ?_⟩
      obtain ⟨d, hd, rfl⟩ := hin a ha ha0
      rw [List.mem_singleton.1 hd]; rfl
  refine ⟨hsorted, ?_, ?_, ?_, ?_⟩
  · rw [List.nodup_iff_count_le_one]
    intro c
    by_cases hc : c ∈ s.g.row (s.g.resortStates s.acts') k (s.acts'.getD q [])
    swap
    · rw [List.count_eq_zero_of_not_mem hc]; exact Nat.zero_le _
    obtain ⟨x, h1, h2, h3, h4⟩ := hent c hc
    rw [← List.count_filter (p := fun a : LaAct => a.la == c.la) (by simp), h4]
    refine List.nodup_iff_count_le_one.1 ?_ c
    obtain ⟨l, l', h5, h6, h7, _⟩ := s.lives_cases ho hq h3
    rw [(h5.map _).nodup_iff]
    refine (h6.map _).nodup ?_
    rcases h7 with rfl | ⟨d, rfl⟩ | ⟨r, hr, rfl⟩
    · exact List.nodup_nil
    · simp
    · rw [List.map_cons, List.map_cons, List.map_nil, List.nodup_cons]
      refine ⟨?_, by simp⟩
      rw [List.mem_singleton]
      simp only [codeOf, computeAction, Option.getD_some, LaAct.mk.injEq, true_and]
      intro he
      have : s.g.rules.length = r := by omega
      omega
  · intro c hc hc0
    obtain ⟨r, hr, h⟩ := hzero c hc hc0
    rw [h c hc hc0]
    exact List.mem_map.2 ⟨r, List.mem_range.2 hr, rfl⟩
  · intro a ha a' ha' h0 h0'
    obtain ⟨r, hr, h⟩ := hzero a ha h0
    rw [h a ha h0, h a' ha' h0']
  · intro m hm hm0 _
    rw [List.length_map, List.length_range]
    by_contra hle
    obtain ⟨i, h1, h2, h3⟩ := hpad m.la (by omega) (by rw [(s.nStates ho).2]; omega)
    exact s.unread_row ho h1 h3 h2 hq hm rfl

theorem CSpec.apart_of_pads (ho : OrdOk ord) (s : CSpec ord ds t)
    (hpad : ∀ k, 1 ≤ k → k ≤ t.nRule → ∃ i : Ident, t.tokenNames[k]? = some (.ident i) ∧ i.isTerminal = true ∧ unread ds i = true) : apart ord ds = true := by
  rw [apart_iff s]
  exact (pack_exact (s.goodRow ho hpad) s.packed).own

end

end Pomelo
