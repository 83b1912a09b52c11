import Verif.Proofs.Pack
import Verif.Spec.Pack
import Mathlib.Data.List.Nodup
/-! # Placing rows -/

namespace Pomelo

open Spec

theorem vis_eq_sees (t : ActTab) (o : Int) (la : Nat) : sees t o la = t.vis o la := by
  unfold sees ActTab.vis ActTab.at
  by_cases h : o + la < 0
  · rw [if_pos h, if_pos h]
  · rw [if_neg h, if_neg h, List.getD_eq_getElem?_getD]
    cases t[(o + la).toNat]? with
    | none => rfl
    | some c => cases c <;> rfl

theorem row_inj {row : List LaAct} (h : row.Pairwise (fun a b => a.la < b.la)) {a b : LaAct} (ha : a ∈ row) (hb : b ∈ row) (hab : a.la = b.la) : a = b := by
  induction row with
  | nil => cases ha
  | cons c row ih =>
    obtain ⟨h1, h2⟩ := List.pairwise_cons.1 h
    rcases List.mem_cons.1 ha with e | ha <;> rcases List.mem_cons.1 hb with e' | hb
    · rw [e, e']
    · have := h1 b hb; rw [← e] at this; omega
    · have := h1 a ha; rw [← e'] at this; omega
    · exact ih h2 ha hb

theorem wants_iff {row : List LaAct} (h : row.Pairwise (fun a b => a.la < b.la)) {la act : Nat} : wants row la = some act ↔ ⟨la, act⟩ ∈ row := by
  unfold wants
  constructor
  · intro hw
    obtain ⟨b, h1, h2⟩ := Option.map_eq_some_iff.1 hw
    have h3 := List.find?_some h1
    simp only [beq_iff_eq] at h3
    subst h2; subst h3
    exact List.mem_of_find?_eq_some h1
  · intro hm
    cases hf : row.find? (fun a => a.la == la) with
    | none => exact absurd (List.find?_eq_none.1 hf _ hm) (by simp)
    | some b =>
      have h1 := List.find?_some hf
      simp only [beq_iff_eq] at h1
      have := row_inj h (List.mem_of_find?_eq_some hf) hm h1
      rw [this]; rfl

theorem wants_eq_rowGet {row : List LaAct} (h : row.Pairwise (fun a b => a.la < b.la)) (la : Nat) : wants row la = rowGet row la := by
  cases hr : rowGet row la with
  | none =>
    rw [rowGet_none] at hr
    unfold wants
    rw [List.find?_eq_none.2 (by simpa using hr)]; rfl
  | some act => exact (wants_iff h).2 (rowGet_some hr)

theorem vis_some {t : ActTab} {o : Int} {la act : Nat} : t.vis o la = some act ↔ t.at (o + la) = some ⟨la, act⟩ := by
  unfold ActTab.vis
  cases h : t.at (o + la) with
  | none => simp
  | some a =>
    simp only [Option.some.injEq]
    constructor
    · intro h
      split at h
      · rename_i h2; cases h; rw [← h2]
      · cases h
    · rintro rfl; simp

/-! ## The number of cells seen -/

/-- The cells that are seen from an offset -/
def ActTab.cells (t : ActTab) (o : Int) : List (Option LaAct × Nat) :=
  t.zipIdx.filter (fun (c, j) => match c with
    | none => false
    | some a => (a.la : Int) == (j : Int) - o)

theorem seen_eq (t : ActTab) (o : Int) : t.seen o = (t.cells o).length := rfl

theorem mem_seen {t : ActTab} {o : Int} {a : LaAct} {j : Nat} : (some a, j) ∈ t.cells o ↔ t.at j = some a ∧ (j : Int) = o + a.la := by
  unfold ActTab.cells
  rw [List.mem_filter, List.mk_mem_zipIdx_iff_getElem?]
  unfold ActTab.at
  rw [if_neg (by omega), Int.toNat_natCast, List.getD_eq_getElem?_getD]
  simp only [beq_iff_eq]
  constructor
  · rintro ⟨h1, h2⟩
    rw [h1]
    exact ⟨rfl, by omega⟩
  · rintro ⟨h1, h2⟩
    refine ⟨?_, by omega⟩
    cases h : t[j]? with
    | none => rw [h] at h1; cases h1
    | some c => rw [h] at h1; simp only [Option.getD_some] at h1; rw [h1]

theorem at_nonneg {t : ActTab} {k : Int} {a : LaAct} (h : t.at k = some a) : 0 ≤ k := by
  unfold ActTab.at at h
  split at h
  · cases h
  · omega

theorem at_bound {t : ActTab} {k : Int} {a : LaAct} (h : t.at k = some a) : k < t.length := by
  by_contra hk
  rw [at_len (by omega)] at h; cases h

theorem seen_zero {t : ActTab} {o : Int} (h : t.seen o = 0) (la : Nat) : t.vis o la = none := by
  cases hv : t.vis o la with
  | none => rfl
  | some act =>
    rw [vis_some] at hv
    have hn := at_nonneg hv
    rw [seen_eq] at h
    rw [List.length_eq_zero_iff] at h
    have := (mem_seen (t := t) (o := o) (a := ⟨la, act⟩) (j := (o + la).toNat)).2 ⟨by rw [Int.toNat_of_nonneg hn]; exact hv, by rw [Int.toNat_of_nonneg hn]⟩
    rw [h] at this; cases this

theorem seen_exact {t : ActTab} {o : Int} {row : List LaAct} (hs : row.Pairwise (fun a b => a.la < b.la)) (hall : ∀ a ∈ row, t.at (o + a.la) = some a)
    (h : t.seen o = row.length) (la : Nat) : t.vis o la = wants row la := by
  have hin : ∀ a ∈ row, t.vis o a.la = some a.act := fun a ha => vis_some.2 (hall a ha)
  cases hw : wants row la with
  | some act => exact hin _ ((wants_iff hs).1 hw)
  | none =>
    cases hv : t.vis o la with
    | none => rfl
    | some act =>
      exfalso
      rw [vis_some] at hv
      have hn := at_nonneg hv
      -- the list of cells that are seen contains the row and one more
      have hnot : (⟨la, act⟩ : LaAct) ∉ row := by
        intro hm
        rw [(wants_iff hs).2 hm] at hw; cases hw
      let f : LaAct → Option LaAct × Nat := fun a => (some a, (o + a.la).toNat)
      have hinj : Function.Injective f := by intro a b hab; simp only [f, Prod.mk.injEq, Option.some.injEq] at hab; exact hab.1
      have hnd : ((⟨la, act⟩ :: row).map f).Nodup := by
        refine List.Nodup.map hinj (List.nodup_cons.2 ?_)
        exact ⟨hnot, hs.imp (by rintro a b hab rfl; omega)⟩
      have hsub : (⟨la, act⟩ :: row).map f ⊆ t.cells o := by
        intro x hx
        obtain ⟨a, ha, rfl⟩ := List.mem_map.1 hx
        have hat : t.at (o + a.la) = some a := by
          rcases List.mem_cons.1 ha with rfl | ha
          · exact hv
          · exact hall a ha
        have hnn := at_nonneg hat
        exact mem_seen.2 ⟨by rw [Int.toNat_of_nonneg hnn]; exact hat, by rw [Int.toNat_of_nonneg hnn]⟩
      have hlen := (hnd.subperm hsub).length_le
      rw [seen_eq] at h
      rw [h] at hlen
      rw [List.length_map, List.length_cons] at hlen
      omega

/-! ## One insertion -/

/-- All lookaheads of the placement other than the row's offset are as before. -/
theorem InsertSpec.other {t t' : ActTab} {row : List LaAct} {ofs : Int} (h : InsertSpec t row t' ofs) {o : Int} (ho : o ≠ ofs) (la : Nat) :
    t'.vis o la = t.vis o la := by
  cases hv : t.vis o la with
  | some act => rw [vis_some] at hv ⊢; exact h.keep _ _ hv
  | none =>
    cases hv' : t'.vis o la with
    | none => rfl
    | some act =>
      rw [vis_some] at hv'
      rcases h.only _ _ hv' with h1 | ⟨h1, _⟩
      · rw [vis_some.2 h1] at hv; cases hv
      · exact absurd (by simpa using h1) ho

theorem not_tight_hole {t : ActTab} {m : LaAct} {row : List LaAct} (hs : (m :: row).Pairwise (fun a b => a.la < b.la)) (ht : tight t (m :: row) = false)
    (hf : (List.range (t.length + ((m :: row).getLast?.getD m).la)).find? (t.holeAt (m :: row)) = none) : t.seen (t.length - m.la) = 0 := by
  rw [List.find?_eq_none] at hf
  have hlarge : ∀ i : Nat, t.length ≤ i → i < t.length + ((m :: row).getLast?.getD m).la → t.seen (i - m.la) ≠ 0 := by
    intro i h1 h2 h0
    refine hf i (List.mem_range.2 h2) ?_
    unfold ActTab.holeAt
    simp only [Bool.and_eq_true, List.all_eq_true, beq_iff_eq]
    refine ⟨fun a ha => at_len ?_, h0⟩
    have : m.la ≤ a.la := by
      rcases List.mem_cons.1 ha with rfl | ha
      · exact Nat.le_refl _
      · exact Nat.le_of_lt ((List.pairwise_cons.1 hs).1 a ha)
    omega
  have hfar : ∀ o : Int, (t.length : Int) ≤ o → t.seen o = 0 := by
    intro o ho
    rw [seen_eq, List.length_eq_zero_iff, List.eq_nil_iff_forall_not_mem]
    rintro ⟨c, j⟩ hc
    cases c with
    | none => simp [ActTab.cells] at hc
    | some a =>
      obtain ⟨h1, h2⟩ := mem_seen.1 hc
      have := at_bound h1
      omega
  cases row with
  | cons b row =>
    exfalso
    have hlt : m.la < ((m :: b :: row).getLast?.getD m).la := by
      have hne : (b :: row) ≠ [] := by simp
      rw [List.getLast?_cons_cons, List.getLast?_eq_some_getLast hne, Option.getD_some]
      exact (List.pairwise_cons.1 hs).1 _ (List.getLast_mem hne)
    exact hlarge (t.length + m.la) (by omega) (by omega) (hfar _ (by push_cast; omega))
  | nil =>
    simp only [List.getLast?_singleton, Option.getD_some] at hlarge
    by_cases hm : m.la = 0
    · exact hfar _ (by omega)
    · exfalso
      -- each of the last cells is labelled 0
      have hz : ∀ k : Nat, k < m.la → ∃ a, t.at ((t.length : Int) - 1 - k) = some a ∧ a.la = 0 := by
        intro k
        induction k using Nat.strongRecOn with
        | ind k ih =>
          intro hk
          have h1 := hlarge (t.length + (m.la - 1 - k)) (by omega) (by omega)
          rw [seen_eq, Ne, List.length_eq_zero_iff] at h1
          obtain ⟨⟨c, j⟩, hc⟩ := List.exists_mem_of_ne_nil _ h1
          cases c with
          | none => simp [ActTab.cells] at hc
          | some a =>
            obtain ⟨h2, h3⟩ := mem_seen.1 hc
            have hjl := at_bound h2
            by_cases ha : a.la = 0
            · refine ⟨a, ?_, ha⟩
              rw [← h2]; congr 1
              omega
            · -- a cell further right, which is labelled 0
              exfalso
              obtain ⟨a', h4, h5⟩ := ih (t.length - 1 - j) (by omega) (by omega)
              rw [show (t.length : Int) - 1 - ((t.length - 1 - j : Nat) : Int) = j from by omega, h2] at h4
              cases h4
              exact ha h5
      have hml : m.la ≤ t.length := by
        obtain ⟨a, h1, _⟩ := hz (m.la - 1) (by omega)
        have := at_nonneg h1
        omega
      have : tight t [m] = true := by
        unfold tight
        simp only [Bool.and_eq_true, decide_eq_true_eq, List.all_eq_true]
        refine ⟨⟨by omega, hml⟩, ?_⟩
        intro c hc
        obtain ⟨n, hn, rfl⟩ := List.mem_iff_getElem.1 hc
        rw [List.length_drop] at hn
        obtain ⟨a, h1, h2⟩ := hz (m.la - 1 - n) (by omega)
        rw [show (t.length : Int) - 1 - ((m.la - 1 - n : Nat) : Int) = ((t.length - m.la + n : Nat) : Int) from by omega] at h1
        unfold ActTab.at at h1
        rw [if_neg (by omega), Int.toNat_natCast, List.getD_eq_getElem?_getD, List.getElem?_eq_getElem (by omega), Option.getD_some] at h1
        rw [List.getElem_drop, h1]
        simp [h2]
      rw [this] at ht; cases ht

theorem insert_exact {t t' : ActTab} {row : List LaAct} {ofs : Int} (hs : row.Pairwise (fun a b => a.la < b.la)) (ht : tight t row = false)
    (h : t.insert row = some (t', ofs)) : (∀ la, t'.vis ofs la = wants row la) ∧ ((∀ la, t.vis ofs la = none) ∨ ∀ la, t.vis ofs la = wants row la) := by
  have hi := insert_spec (hs.imp (fun h => Nat.le_of_lt h)) h
  -- it is enough to look at the old table
  suffices H : (∀ la, t.vis ofs la = none) ∨ ∀ la, t.vis ofs la = wants row la by
    refine ⟨fun la => ?_, H⟩
    cases hw : wants row la with
    | some act =>
      rw [wants_eq_rowGet hs] at hw
      rw [vis_some]; exact hi.put la act hw
    | none =>
      cases hv : t'.vis ofs la with
      | none => rfl
      | some act =>
        rw [vis_some] at hv
        rcases hi.only _ _ hv with h1 | ⟨_, h1⟩
        · rw [← vis_some] at h1
          rcases H with H | H
          · rw [H] at h1; cases h1
          · rw [H, hw] at h1; cases h1
        · rw [← wants_eq_rowGet hs, hw] at h1; cases h1
  unfold ActTab.insert at h
  cases row with
  | nil => cases h
  | cons m row0 =>
    simp only at h
    rw [ite_eq_iff] at h
    rcases h with ⟨hall, h⟩ | ⟨_, h⟩
    · simp only [Option.some.injEq, Prod.mk.injEq] at h
      obtain ⟨_, rfl⟩ := h
      clear hall hi
      split
      · rename_i i' hf
        right
        have := List.find?_some hf
        unfold ActTab.matchAt at this
        simp only [Bool.and_eq_true, List.all_eq_true, beq_iff_eq] at this
        exact seen_exact hs this.1.2 this.2
      · left
        split
        · rename_i i' hf
          have := List.find?_some hf
          unfold ActTab.holeAt at this
          simp only [Bool.and_eq_true, List.all_eq_true, beq_iff_eq] at this
          exact seen_zero this.2
        · rename_i hf
          exact seen_zero (not_tight_hole hs ht hf)
    · cases h

theorem insert_total {t : ActTab} {row : List LaAct} (h : ProperRow row) : ∃ t' o, t.insert row = some (t', o) := by
  unfold ActTab.insert
  cases row with
  | nil => exact absurd rfl h.1
  | cons m row0 =>
    simp only
    rw [if_pos]
    · exact ⟨_, _, rfl⟩
    · rw [List.all_eq_true]
      intro a ha
      have : m.la ≤ a.la := by
        rcases List.mem_cons.1 ha with rfl | ha
        · exact Nat.le_refl _
        · exact Nat.le_of_lt ((List.pairwise_cons.1 h.2).1 a ha)
      rw [decide_eq_true_eq]
      have hnn : ∀ i : Nat, 0 ≤ (a.la : Int) + ((i : Int) - m.la) := by intro i; omega
      split
      · exact hnn _
      · split
        · exact hnn _
        · exact hnn _

/-- A tight row that is placed at the end of the table sees an entry for the number 0. -/
theorem tight_bad {t t' : ActTab} {a : LaAct} {ofs : Int} (ht : tight t [a] = true) (h : t.insert [a] = some (t', ofs)) (ho : ofs + a.la = t.length) :
    (t'.vis ofs 0).isSome = true := by
  have hi := insert_spec (List.pairwise_singleton _ _) h
  unfold tight at ht
  simp only [Bool.and_eq_true, decide_eq_true_eq, List.all_eq_true] at ht
  obtain ⟨⟨h1, h2⟩, h3⟩ := ht
  have hl : t.length - a.la < t.length := by omega
  have h4 := h3 (t[t.length - a.la]) (List.mem_iff_getElem.2 ⟨0, by rw [List.length_drop]; omega, by simp⟩)
  cases hc : t[t.length - a.la] with
  | none => rw [hc] at h4; cases h4
  | some b =>
    rw [hc] at h4
    simp only [beq_iff_eq] at h4
    have hat : t.at (ofs + (0 : Nat)) = some ⟨0, b.act⟩ := by
      unfold ActTab.at
      rw [if_neg (by omega), show (ofs + ((0 : Nat) : Int)).toNat = t.length - a.la from by omega, List.getD_eq_getElem?_getD,
        List.getElem?_eq_getElem hl, hc, Option.getD_some, ← h4]
    rw [vis_some.2 (hi.keep _ _ hat)]; rfl

theorem insertAll_total : ∀ {rows : List (List LaAct)} {t : ActTab}, (∀ row ∈ rows, ProperRow row) → ∃ t' os, insertAll t rows = some (t', os) := by
  intro rows
  induction rows with
  | nil => intro t _; exact ⟨t, [], rfl⟩
  | cons row rows ih =>
    intro t h
    obtain ⟨t1, o, h1⟩ := insert_total (t := t) (h row List.mem_cons_self)
    obtain ⟨t', os, h2⟩ := ih (t := t1) (fun r hr => h r (List.mem_cons_of_mem _ hr))
    exact ⟨t', o :: os, by simp [insertAll, h1, h2]⟩

theorem insertAll_found : ∀ {rows : List (List LaAct)} {t t' : ActTab} {os : List Int} {done : List (List LaAct × Int)}, (∀ row ∈ rows, ProperRow row) →
    insertAll t rows = some (t', os) → (∀ x ∈ done, ∀ a ∈ x.1, t.vis x.2 a.la = some a.act) →
    ∀ x ∈ done ++ rows.zip os, ∀ a ∈ x.1, t'.vis x.2 a.la = some a.act := by
  intro rows
  induction rows with
  | nil =>
    intro t t' os done _ h hd x hx
    cases h
    rw [List.zip_nil_left, List.append_nil] at hx
    exact hd x hx
  | cons row rows ih =>
    intro t t' os done hp h hd x hx
    unfold insertAll at h
    cases h1 : t.insert row with
    | none => rw [h1] at h; cases h
    | some q =>
      obtain ⟨t1, o⟩ := q
      rw [h1] at h
      obtain ⟨⟨t2, os2⟩, h2, h3⟩ := Option.map_eq_some_iff.1 h
      cases h3
      have hpr := hp row List.mem_cons_self
      have hi := insert_spec (hpr.2.imp (fun h => Nat.le_of_lt h)) h1
      refine ih (done := done ++ [(row, o)]) (fun r hr => hp r (List.mem_cons_of_mem _ hr)) h2 ?_ x (by simpa using hx)
      intro y hy a ha
      rcases List.mem_append.1 hy with hy | hy
      · rw [vis_some]; exact hi.keep _ _ (vis_some.1 (hd y hy a ha))
      · rw [List.mem_singleton] at hy
        subst hy
        rw [vis_some]
        exact hi.put _ _ (by rw [← wants_eq_rowGet hpr.2]; exact (wants_iff hpr.2).2 ha)

theorem insertAll_exact : ∀ {rows : List (List LaAct)} {t t' : ActTab} {os : List Int} {done : List (List LaAct × Int)}, (∀ row ∈ rows, ProperRow row) →
    noneTight t rows = true → insertAll t rows = some (t', os) → (∀ x ∈ done, x.1 ≠ [] ∧ ProperRow x.1 ∧ ∀ la, t.vis x.2 la = wants x.1 la) →
    ∀ x ∈ done ++ rows.zip os, ∀ la, t'.vis x.2 la = wants x.1 la := by
  intro rows
  induction rows with
  | nil =>
    intro t t' os done _ _ h hd x hx
    cases h
    rw [List.zip_nil_left, List.append_nil] at hx
    exact (hd x hx).2.2
  | cons row rows ih =>
    intro t t' os done hp ht h hd x hx
    unfold insertAll at h
    unfold noneTight at ht
    cases h1 : t.insert row with
    | none => rw [h1] at h; cases h
    | some q =>
      obtain ⟨t1, o⟩ := q
      rw [h1] at h ht
      simp only [Bool.and_eq_true, Bool.not_eq_true'] at ht
      obtain ⟨⟨t2, os2⟩, h2, h3⟩ := Option.map_eq_some_iff.1 h
      cases h3
      have hpr := hp row List.mem_cons_self
      have hi := insert_spec (hpr.2.imp (fun h => Nat.le_of_lt h)) h1
      obtain ⟨e1, e2⟩ := insert_exact hpr.2 ht.1 h1
      refine ih (done := done ++ [(row, o)]) (fun r hr => hp r (List.mem_cons_of_mem _ hr)) ht.2 h2 ?_ x (by simpa using hx)
      intro y hy
      rcases List.mem_append.1 hy with hy | hy
      · obtain ⟨d1, d2, d3⟩ := hd y hy
        refine ⟨d1, d2, fun la => ?_⟩
        by_cases ho : y.2 = o
        · rw [ho, e1]
          rcases e2 with e2 | e2
          · exfalso
            obtain ⟨m, hm⟩ := List.exists_mem_of_ne_nil _ d1
            have := d3 m.la
            rw [ho, e2, (wants_iff d2.2 (act := m.act)).2 hm] at this
            cases this
          · rw [← e2, ← ho, d3]
        · rw [hi.other ho, d3]
      · rw [List.mem_singleton] at hy
        subst hy
        exact ⟨hpr.1, hpr, e1⟩

end Pomelo
