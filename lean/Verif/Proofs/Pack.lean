import Verif.Proofs.Generate
/-! # The packed action table -/

namespace Pomelo

/-- What a row at offset `ofs` sees for the symbol number `la` -/
def ActTab.vis (t : ActTab) (ofs : Int) (la : Nat) : Option Nat :=
  match t.at (ofs + la) with
  | some a => if a.la = la then some a.act else none
  | none => none

/-- The action of a row for a symbol number: later entries win. -/
def rowGet (row : List LaAct) (la : Nat) : Option Nat := (row.reverse.find? (fun a => a.la == la)).map (·.act)

theorem rowGet_some {row : List LaAct} {la act : Nat} (h : rowGet row la = some act) : (⟨la, act⟩ : LaAct) ∈ row := by
  unfold rowGet at h
  obtain ⟨a, h1, rfl⟩ := Option.map_eq_some_iff.1 h
  have h2 := List.find?_some h1
  have h3 := List.mem_of_find?_eq_some h1
  simp only [beq_iff_eq] at h2
  subst h2
  exact List.mem_reverse.1 h3

theorem rowGet_isSome {row : List LaAct} {a : LaAct} (h : a ∈ row) : (rowGet row a.la).isSome = true := by
  unfold rowGet
  rw [Option.isSome_map, List.find?_isSome]
  exact ⟨a, List.mem_reverse.2 h, by simp⟩

theorem rowGet_none {row : List LaAct} {la : Nat} : rowGet row la = none ↔ ∀ a ∈ row, a.la ≠ la := by
  unfold rowGet
  rw [Option.map_eq_none_iff, List.find?_eq_none]
  simp

/-! ## One row -/

theorem getD_set {α : Type} (t : List α) (k j : Nat) (x d : α) (hk : k < t.length) :
    (t.set k x).getD j d = if j = k then x else t.getD j d := by
  rw [List.getD_eq_getElem?_getD, List.getD_eq_getElem?_getD, List.getElem?_set]
  by_cases h : k = j
  · subst h; simp [hk]
  · rw [if_neg h, if_neg (fun e => h e.symm)]

theorem at_put (t : ActTab) (k : Nat) (a : LaAct) (j : Int) : (t.put k a).at j = if j = (k : Int) then some a else t.at j := by
  unfold ActTab.at
  by_cases hj : j < 0
  · rw [if_pos hj, if_pos hj, if_neg (by omega)]
  · rw [if_neg hj, if_neg hj]
    unfold ActTab.put
    have hpad : ∀ n, (if t.length ≤ k then t ++ List.replicate (k + 1 - t.length) none else t).getD n none = t.getD n none := by
      intro n
      split
      · simp only [List.getD_eq_getElem?_getD, List.getElem?_append, List.getElem?_replicate]
        by_cases h : n < t.length
        · rw [if_pos h]
        · rw [if_neg h, List.getElem?_eq_none (Nat.le_of_not_lt h)]
          split <;> rfl
      · rfl
    rw [getD_set, hpad]
    · by_cases h : j = (k : Int)
      · rw [if_pos h, if_pos (by omega)]
      · rw [if_neg h, if_neg (by omega)]
    · split
      · simp; omega
      · omega

theorem at_foldl_put (res : Int) : ∀ (row : List LaAct) (t : ActTab) (j : Int), (∀ a ∈ row, 0 ≤ (a.la : Int) + res) →
    (row.foldl (fun t a => t.put ((a.la : Int) + res).toNat a) t).at j =
      match row.reverse.find? (fun a => decide ((a.la : Int) + res = j)) with
      | some a => some a
      | none => t.at j := by
  intro row
  induction row with
  | nil => intro t j _; rfl
  | cons a row ih =>
    intro t j h
    have ha := h a (by simp)
    rw [List.foldl_cons, ih _ _ (fun x hx => h x (by simp [hx])), List.reverse_cons, List.find?_append]
    cases row.reverse.find? (fun a => decide ((a.la : Int) + res = j)) with
    | some b => rfl
    | none =>
      simp only [Option.none_or, at_put]
      rw [Int.toNat_of_nonneg ha]
      by_cases hj : (a.la : Int) + res = j
      · rw [if_pos hj.symm]; simp [hj]
      · rw [if_neg (fun e => hj e.symm)]; simp [hj]

theorem at_len {t : ActTab} {k : Int} (h : (t.length : Int) ≤ k) : t.at k = none := by
  unfold ActTab.at
  split
  · rfl
  · rw [List.getD_eq_getElem?_getD, List.getElem?_eq_none (by omega)]; rfl

/-- What inserting a row does: nothing is overwritten, the row can be read back, and nothing else
appears.  Nothing is said about other rows at the same offset. -/
structure InsertSpec (t : ActTab) (row : List LaAct) (t' : ActTab) (ofs : Int) : Prop where
  nonneg : ∀ a ∈ row, 0 ≤ (a.la : Int) + ofs
  keep : ∀ k c, t.at k = some c → t'.at k = some c
  put : ∀ la act, rowGet row la = some act → t'.at (ofs + la) = some ⟨la, act⟩
  only : ∀ k c, t'.at k = some c → t.at k = some c ∨ (k = ofs + c.la ∧ rowGet row c.la = some c.act)

theorem insert_core {t : ActTab} {m : LaAct} {row : List LaAct} {i : Int}
    (hnn : ∀ a ∈ row, 0 ≤ (a.la : Int) + (i - m.la))
    (hcell : (∀ a ∈ row, t.at (a.la + (i - m.la)) = some a) ∨ (∀ a ∈ row, t.at (a.la + (i - m.la)) = none)) :
    InsertSpec t row (row.foldl (fun t a => t.put ((a.la : Int) + (i - m.la)).toNat a) t) (i - m.la) := by
  have hat := fun j => at_foldl_put (i - m.la) row t j hnn
  have hcomm : ∀ la : Nat, (fun a : LaAct => decide ((a.la : Int) + (i - m.la) = i - m.la + la)) = fun a => a.la == la := by
    intro la
    funext a
    rw [Bool.eq_iff_iff]
    simp only [decide_eq_true_eq, beq_iff_eq]
    omega
  refine ⟨hnn, ?_, ?_, ?_⟩
  · intro k c hc
    rw [hat]
    split
    · rename_i a ha
      have h1 := List.find?_some ha
      have h2 := List.mem_reverse.1 (List.mem_of_find?_eq_some ha)
      simp only [decide_eq_true_eq] at h1
      rcases hcell with h3 | h3
      · rw [← h1, h3 a h2] at hc; exact hc
      · rw [← h1, h3 a h2] at hc; cases hc
    · exact hc
  · intro la act hr
    rw [hat, hcomm]
    unfold rowGet at hr
    obtain ⟨a, h1, rfl⟩ := Option.map_eq_some_iff.1 hr
    rw [h1]
    have h2 := List.find?_some h1
    simp only [beq_iff_eq] at h2
    subst h2; rfl
  · intro k c hc
    rw [hat] at hc
    split at hc
    · rename_i a ha
      simp only [Option.some.injEq] at hc
      subst hc
      right
      have h1 := List.find?_some ha
      simp only [decide_eq_true_eq] at h1
      have hk : k = i - m.la + a.la := by omega
      refine ⟨hk, ?_⟩
      rw [hk, hcomm] at ha
      unfold rowGet
      rw [ha]; rfl
    · exact .inl hc

theorem insert_spec {t t' : ActTab} {row : List LaAct} {ofs : Int} (hs : row.Pairwise (fun a b => a.la ≤ b.la))
    (h : t.insert row = some (t', ofs)) : InsertSpec t row t' ofs := by
  unfold ActTab.insert at h
  cases row with
  | nil => cases h
  | cons m row0 =>
    simp only at h
    rw [ite_eq_iff] at h
    rcases h with ⟨hall, h⟩ | ⟨_, h⟩
    · simp only [Option.some.injEq, Prod.mk.injEq] at h
      obtain ⟨rfl, rfl⟩ := h
      rw [List.all_eq_true] at hall
      refine insert_core (fun a ha => by simpa using hall a ha) ?_
      clear hall
      split
      · rename_i i' hf
        left
        have := List.find?_some hf
        unfold ActTab.matchAt at this
        simp only [Bool.and_eq_true, List.all_eq_true, beq_iff_eq] at this
        intro a ha
        have h2 := this.1.2 a ha
        rw [← h2]; congr 1; omega
      · right
        split
        · rename_i i' hf
          have := List.find?_some hf
          unfold ActTab.holeAt at this
          simp only [Bool.and_eq_true, List.all_eq_true, beq_iff_eq] at this
          intro a ha
          have h2 := this.1 a ha
          rw [← h2]; congr 1; omega
        · intro a ha
          apply at_len
          have : m.la ≤ a.la := by
            rcases List.mem_cons.1 ha with rfl | ha
            · exact Nat.le_refl _
            · exact (List.pairwise_cons.1 hs).1 a ha
          omega
    · cases h

/-! ## All rows -/

/-- Row of the state at a position -/
def Grammar.rowOf (g : Grammar) (sts : List RState) (isTkn : Bool) (pos : Nat) : List LaAct :=
  g.row sts isTkn (sts.getD pos default).actions

/-- Offsets of the rows of a kind -/
def Packed.ofs (p : Packed) (isTkn : Bool) : List (Nat × Int) := if isTkn then p.tkn else p.nt

/-- The rows placed are `done`. -/
structure PackInv (g : Grammar) (sts : List RState) (p : Packed) (done : List Ax) : Prop where
  put : ∀ k pos ofs, (pos, ofs) ∈ p.ofs k → ∀ la act, rowGet (g.rowOf sts k pos) la = some act → p.tab.at (ofs + la) = some ⟨la, act⟩
  only : ∀ j c, p.tab.at j = some c → ∃ k pos, (pos, j - c.la) ∈ p.ofs k ∧ rowGet (g.rowOf sts k pos) c.la = some c.act
  keys : ∀ k pos, (∃ ofs, (pos, ofs) ∈ p.ofs k) ↔ ∃ a ∈ done, a.n ≠ 0 ∧ a.isTkn = k ∧ a.pos = pos
  nodup : ∀ k, ((p.ofs k).map Prod.fst).Nodup

/-- Rows are sorted by symbol number. -/
def SortedActs (g : Grammar) (acts : List Action) : Prop := acts.Pairwise (fun a b => (g.sym a.la).index ≤ (g.sym b.la).index)

theorem row_sorted {g : Grammar} {sts : List RState} {k : Bool} {acts : List Action} (h : SortedActs g acts) :
    (g.row sts k acts).Pairwise (fun a b => a.la ≤ b.la) := by
  unfold Grammar.row
  rw [List.pairwise_filterMap]
  refine h.imp ?_
  intro a b hab x hx y hy
  have key : ∀ {a : Action} {x : LaAct}, (let index := (g.sym a.la).index
      if k then
        if index ≥ g.numTerminals then none
        else (computeAction sts.length g.rules.length (stateNum sts) a.detail).map (⟨index, ·⟩)
      else
        if index < g.numTerminals then none
        else if index = g.defaultIndex then none
        else (computeAction sts.length g.rules.length (stateNum sts) a.detail).map (LaAct.mk index ·)) = some x → x.la = (g.sym a.la).index := by
    intro a x h
    simp only at h
    split at h <;> split at h
    · cases h
    · obtain ⟨y, _, rfl⟩ := Option.map_eq_some_iff.1 h; rfl
    · cases h
    · split at h
      · cases h
      · obtain ⟨y, _, rfl⟩ := Option.map_eq_some_iff.1 h; rfl
  rw [key hx, key hy]
  exact hab

theorem packOne_inv {g : Grammar} {sts : List RState} {p p' : Packed} {done : List Ax} {a : Ax} (hi : PackInv g sts p done)
    (hs : ∀ pos, SortedActs g (sts.getD pos default).actions)
    (hnew : a.n ≠ 0 → ¬ ∃ b ∈ done, b.n ≠ 0 ∧ b.isTkn = a.isTkn ∧ b.pos = a.pos)
    (h : g.packOne sts p a = some p') : PackInv g sts p' (done ++ [a]) := by
  unfold Grammar.packOne at h
  rw [ite_eq_iff] at h
  rcases h with ⟨h0, h⟩ | ⟨h0, h⟩
  · cases h
    refine ⟨hi.put, hi.only, ?_, hi.nodup⟩
    intro k pos
    rw [hi.keys]
    constructor
    · rintro ⟨b, h1, h2⟩; exact ⟨b, by simp [h1], h2⟩
    · rintro ⟨b, h1, h2⟩
      rcases List.mem_append.1 h1 with h1 | h1
      · exact ⟨b, h1, h2⟩
      · rw [List.mem_singleton] at h1; subst h1; exact absurd h0 h2.1
  · split at h
    · cases h
    · rename_i tab ofs hins
      have isp := insert_spec (row_sorted (hs a.pos)) hins
      have hofs : ∀ k, p'.ofs k = if a.isTkn = k then (a.pos, ofs) :: p.ofs k else p.ofs k := by
        intro k
        cases hk : a.isTkn <;> rw [hk] at h <;> simp only [if_true, Bool.false_eq_true, if_false] at h <;> cases h <;>
          cases k <;> simp [Packed.ofs]
      have htab : p'.tab = tab := by
        cases hk : a.isTkn <;> rw [hk] at h <;> simp only [if_true, Bool.false_eq_true, if_false] at h <;> cases h <;> rfl
      have hrow : g.rowOf sts a.isTkn a.pos = g.row sts a.isTkn (sts.getD a.pos default).actions := rfl
      refine ⟨?_, ?_, ?_, ?_⟩
      · intro k pos o hm la act hr
        rw [htab]
        rw [hofs] at hm
        split at hm
        · rename_i hk
          rcases List.mem_cons.1 hm with e | hm
          · cases e
            rw [← hk, hrow] at hr
            exact isp.put la act hr
          · exact isp.keep _ _ (hi.put k pos o hm la act hr)
        · exact isp.keep _ _ (hi.put k pos o hm la act hr)
      · intro j c hc
        rw [htab] at hc
        rcases isp.only j c hc with hc | ⟨h1, h2⟩
        · obtain ⟨k, pos, h3, h4⟩ := hi.only j c hc
          refine ⟨k, pos, ?_, h4⟩
          rw [hofs]; split
          · exact List.mem_cons_of_mem _ h3
          · exact h3
        · refine ⟨a.isTkn, a.pos, ?_, h2⟩
          rw [hofs, if_pos rfl]
          have : j - c.la = ofs := by omega
          rw [this]; simp
      · intro k pos
        rw [hofs]
        constructor
        · rintro ⟨o, hm⟩
          split at hm
          · rename_i hk
            rcases List.mem_cons.1 hm with e | hm
            · cases e; exact ⟨a, by simp, h0, hk, rfl⟩
            · obtain ⟨b, h1, h2⟩ := (hi.keys k pos).1 ⟨o, hm⟩
              exact ⟨b, by simp [h1], h2⟩
          · obtain ⟨b, h1, h2⟩ := (hi.keys k pos).1 ⟨o, hm⟩
            exact ⟨b, by simp [h1], h2⟩
        · rintro ⟨b, h1, h2, h3, h4⟩
          rcases List.mem_append.1 h1 with h1 | h1
          · obtain ⟨o, ho⟩ := (hi.keys k pos).2 ⟨b, h1, h2, h3, h4⟩
            refine ⟨o, ?_⟩
            split
            · exact List.mem_cons_of_mem _ ho
            · exact ho
          · rw [List.mem_singleton] at h1; subst h1
            rw [if_pos h3, ← h4]
            exact ⟨ofs, by simp⟩
      · intro k
        rw [hofs]
        split
        · rename_i hk
          rw [List.map_cons, List.nodup_cons]
          refine ⟨?_, hi.nodup k⟩
          intro hm
          obtain ⟨e, he, h5⟩ := List.mem_map.1 hm
          obtain ⟨b, h1, h2, h3, h4⟩ := (hi.keys k a.pos).1 ⟨e.2, by
            simp only at h5; rw [← h5]; exact he⟩
          exact hnew h0 ⟨b, h1, h2, by rw [h3, hk], h4⟩
        · exact hi.nodup k

theorem packFold_inv {g : Grammar} {sts : List RState} (hs : ∀ pos, SortedActs g (sts.getD pos default).actions) :
    ∀ {l : List Ax} {p p' : Packed} {done : List Ax}, PackInv g sts p done →
    (done ++ l).Pairwise (fun a b => a.n ≠ 0 → b.n ≠ 0 → ¬ (a.isTkn = b.isTkn ∧ a.pos = b.pos)) →
    l.foldlM (g.packOne sts) p = some p' → PackInv g sts p' (done ++ l) := by
  intro l
  induction l with
  | nil => intro p p' done hi _ h; cases h; simpa using hi
  | cons a l ih =>
    intro p p' done hi hp h
    rw [List.foldlM_cons] at h
    obtain ⟨p1, h1, h2⟩ := Option.bind_eq_some_iff.1 h
    have := packOne_inv hi hs (by
      rintro h0 ⟨b, hb, h3, h4, h5⟩
      rw [List.pairwise_append] at hp
      exact hp.2.2 b hb a (by simp) h3 h0 ⟨h4, h5⟩) h1
    have h3 := ih (done := done ++ [a]) this (by simpa using hp) h2
    simpa using h3

theorem pairwise_axSets (sts : List RState) : (axSets sts).Pairwise (fun a b => a.n ≠ 0 → b.n ≠ 0 → ¬ (a.isTkn = b.isTkn ∧ a.pos = b.pos)) := by
  have hnd : ((axSets sts).map (fun a => (a.isTkn, a.pos))).Nodup := by
    unfold axSets
    rw [List.map_reverse]
    refine ((List.reverse_perm _).nodup_iff).2 ?_
    refine (((perm_sortBy _ _).map _).nodup_iff).2 ?_
    have : ∀ (l : List RState) (k : Nat), ((l.zipIdx k).flatMap (fun (s, i) => [(⟨i, true, s.nTkn⟩ : Ax), ⟨i, false, s.nNt⟩])).map
        (fun a => (a.isTkn, a.pos)) = (List.range' k l.length).flatMap (fun i => [(true, i), (false, i)]) := by
      intro l
      induction l with
      | nil => intro k; rfl
      | cons s l ih =>
        intro k
        rw [List.zipIdx_cons, List.flatMap_cons, List.map_append, ih]
        rw [List.length_cons, List.range'_succ, List.flatMap_cons]
        rfl
    rw [this]
    have : ∀ (l : List Nat), l.Nodup → (l.flatMap (fun i => [(true, i), (false, i)])).Nodup := by
      intro l
      induction l with
      | nil => simp
      | cons a l ih =>
        intro h
        rw [List.nodup_cons] at h
        simp only [List.flatMap_cons, List.cons_append, List.nil_append, List.nodup_cons, List.mem_cons, List.mem_flatMap,
          List.not_mem_nil, or_false, Prod.mk.injEq]
        refine ⟨?_, ?_, ih h.2⟩
        · rintro (h1 | ⟨b, hb, h1 | h1⟩)
          · cases h1.1
          · exact h.1 (h1.2 ▸ hb)
          · cases h1.1
        · rintro ⟨b, hb, h1 | h1⟩
          · cases h1.1
          · exact h.1 (h1.2 ▸ hb)
    exact this _ List.nodup_range'
  have := List.pairwise_map.1 hnd
  refine this.imp ?_
  intro a b h _ _ h2
  exact h (Prod.ext h2.1 h2.2)

theorem pack_inv {g : Grammar} {sts : List RState} (hs : ∀ pos, SortedActs g (sts.getD pos default).actions) {p : Packed}
    (h : g.pack sts = some p) : PackInv g sts p (axSets sts) := by
  have := packFold_inv hs (done := []) (p := {}) (l := axSets sts) (p' := p) (by
    refine ⟨?_, ?_, ?_, ?_⟩
    · intro k pos ofs hm; cases k <;> cases hm
    · intro j c hc
      have : (ActTab.at [] j) = none := by unfold ActTab.at; split <;> rfl
      rw [this] at hc; cases hc
    · intro k pos; cases k <;> simp [Packed.ofs]
    · intro k; cases k <;> simp [Packed.ofs]) (by simpa using pairwise_axSets sts) h
  simpa using this

theorem mem_axSets {sts : List RState} {a : Ax} : a ∈ axSets sts ↔
    a.pos < sts.length ∧ a.n = if a.isTkn then (sts.getD a.pos default).nTkn else (sts.getD a.pos default).nNt := by
  unfold axSets
  rw [List.mem_reverse, mem_sortBy, List.mem_flatMap]
  constructor
  · rintro ⟨⟨s, i⟩, h1, h2⟩
    rw [List.mem_zipIdx_iff_getElem?] at h1
    simp only at h1
    obtain ⟨hlt, hs⟩ := List.getElem?_eq_some_iff.1 h1
    simp only [List.mem_cons, List.not_mem_nil, or_false] at h2
    rcases h2 with h2 | h2 <;> subst h2
    · exact ⟨hlt, by simp only [if_true]; rw [getD_of_lt hlt, hs]⟩
    · exact ⟨hlt, by simp only [Bool.false_eq_true, if_false]; rw [getD_of_lt hlt, hs]⟩
  · rintro ⟨h1, h2⟩
    refine ⟨(sts[a.pos], a.pos), ?_, ?_⟩
    · rw [List.mem_zipIdx_iff_getElem?]; simp [List.getElem?_eq_getElem h1]
    · rw [getD_of_lt h1] at h2
      obtain ⟨pos, k, n⟩ := a
      simp only at h1 h2
      cases k <;> simp [h2]

/-! ## Offsets -/

theorem minOfst_le : ∀ {l : List (Nat × Int)} {x : Nat × Int}, x ∈ l → minOfst l ≤ x.2 := by
  have : ∀ (l : List (Nat × Int)) (m : Int), l.foldl (fun m p => min p.2 m) m ≤ m ∧ ∀ x ∈ l, l.foldl (fun m p => min p.2 m) m ≤ x.2 := by
    intro l
    induction l with
    | nil => intro m; simp
    | cons a l ih =>
      intro m
      rw [List.foldl_cons]
      obtain ⟨h1, h2⟩ := ih (min a.2 m)
      refine ⟨by omega, ?_⟩
      intro x hx
      rcases List.mem_cons.1 hx with rfl | hx
      · omega
      · exact h2 x hx
  intro l x hx
  exact (this l 0).2 x hx

theorem lookup_of_mem : ∀ {l : List (Nat × Int)} {k : Nat} {v : Int}, (l.map Prod.fst).Nodup → (k, v) ∈ l → l.lookup k = some v := by
  intro l
  induction l with
  | nil => intro k v _ h; cases h
  | cons a l ih =>
    intro k v hn h
    rw [List.map_cons, List.nodup_cons] at hn
    obtain ⟨a1, a2⟩ := a
    rw [List.lookup_cons]
    rcases List.mem_cons.1 h with e | h'
    · cases e; simp
    · have : ¬ k = a1 := by
        rintro rfl
        exact hn.1 (List.mem_map.2 ⟨(k, v), h', rfl⟩)
      have h2 : (k == a1) = false := by simpa using this
      rw [h2]
      exact ih hn.2 h'

theorem lookup_none : ∀ {l : List (Nat × Int)} {k : Nat}, (∀ v, (k, v) ∉ l) → l.lookup k = none := by
  intro l k h
  rw [List.lookup_eq_none_iff]
  rintro ⟨a, b⟩ hp
  rw [bne_iff_ne]
  rintro rfl
  exact h b hp

theorem mem_of_lookup : ∀ {l : List (Nat × Int)} {k : Nat} {v : Int}, l.lookup k = some v → (k, v) ∈ l := by
  intro l
  induction l with
  | nil => intro k v h; cases h
  | cons a l ih =>
    intro k v h
    obtain ⟨a1, a2⟩ := a
    rw [List.lookup_cons] at h
    split at h
    · rename_i he
      simp only [beq_iff_eq] at he
      cases h; subst he; simp
    · exact List.mem_cons_of_mem _ (ih h)

/-- Entries of the offset tables -/
theorem ofstTable_get {n : Nat} {l : List (Nat × Int)} {tab : List Int} (h : ofstTable n l = some tab) (hn : (l.map Prod.fst).Nodup)
    {i : Nat} (hi : i < n) :
    (∀ ofs, (i, ofs) ∈ l → tab[i]? = some ofs ∧ ofs ≠ minOfst l - 1) ∧
    ((∀ ofs, (i, ofs) ∉ l) → tab[i]? = none ∨ tab[i]? = some (minOfst l - 1)) := by
  unfold ofstTable at h
  split at h
  · cases h
  · rename_i m hm
    cases h
    have hget : ∀ i, ((List.range (m + 1)).map (fun i => (l.lookup i).getD (minOfst l - 1)))[i]? =
        if i < m + 1 then some ((l.lookup i).getD (minOfst l - 1)) else none := by
      intro i
      rw [List.getElem?_map]
      split
      · rename_i h; rw [List.getElem?_range h]; rfl
      · rename_i h; rw [List.getElem?_eq_none (by simp; omega)]; rfl
    constructor
    · intro ofs ho
      have hl := lookup_of_mem hn ho
      have him : i < m + 1 := by
        by_contra hc
        have hfind := hm
        rw [List.find?_eq_some_iff_append] at hfind
        obtain ⟨_, as, bs, h1, h2⟩ := hfind
        have hmem : i ∈ (List.range n).reverse := by simp [hi]
        rw [h1] at hmem
        rcases List.mem_append.1 hmem with h3 | h3
        · have := h2 i h3
          rw [hl] at this; simp at this
        · have hsorted : ((List.range n).reverse).Pairwise (· > ·) := by
            rw [List.pairwise_reverse]; exact List.pairwise_lt_range
          rw [h1, List.pairwise_append] at hsorted
          rcases List.mem_cons.1 h3 with rfl | h3
          · omega
          · have := (List.pairwise_cons.1 hsorted.2.1).1 i h3
            omega
      rw [hget, if_pos him, hl]
      refine ⟨rfl, ?_⟩
      have := minOfst_le ho
      simp only at this
      omega
    · intro hno
      rw [hget]
      split
      · right; rw [lookup_none hno]; rfl
      · left; rfl

end Pomelo
