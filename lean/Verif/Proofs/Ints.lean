import Verif.Proofs.Never
import Verif.Proofs.Place
import Verif.Spec.Ints
/-! # Sizes of table entries -/

namespace Pomelo

open Spec

section
variable {ord : List (SymbolId × SymbolId) → List (SymbolId × SymbolId)} {ds : List Decl} {t : Tables}

theorem GInv.index_any {g : Grammar} (hi : GInv g) (x : SymbolId) : (g.sym x).index < g.syms.length := by
  by_cases hx : x < g.syms.length
  · exact (hi.perm x hx).1
  · have : g.sym x = default := by
      unfold Grammar.sym
      rw [List.getD_eq_getElem?_getD, List.getElem?_eq_none (Nat.le_of_not_lt hx)]; rfl
    rw [this]
    exact Nat.lt_of_lt_of_le (by decide) hi.two

theorem CSpec.rowsSorted (ho : OrdOk ord) (s : CSpec ord ds t) (pos : Nat) : SortedActs s.g ((s.g.resortStates s.acts').getD pos default).actions := by
  have hi := s.ginv ho
  have ha := automaton_auto ho s.decls s.auto
  obtain ⟨b⟩ := bridge ho s.decls s.auto
  have hsp := findActions_spec hi ha b.levels b.noStart s.actions
  obtain ⟨dflt, d1, d2, d3, d4, d5⟩ := compressTables_spec hi s.compress
  have hsl := (s.len' ho).1
  have hlen := resort_len (g := s.g) s.acts'
  by_cases hp : pos < s.acts'.length
  · obtain ⟨q, hq, rfl⟩ := stateNum_surj (g := s.g) s.acts' hp
    rw [getD_resort q hq]
    obtain ⟨d, ig, hc⟩ := d5 q (d4 ▸ hq)
    exact hc.sorted (hsp.sorted q (hsl ▸ hq)).le
  · rw [List.getD_eq_getElem?_getD, List.getElem?_eq_none (by omega)]
    exact List.Pairwise.nil

theorem CSpec.packed (s : CSpec ord ds t) : s.g.pack (s.g.resortStates s.acts') = some s.gen.p := by
  rw [← s.gen.shape.pack]; exact s.gen.pack

theorem CSpec.symbols (ho : OrdOk ord) (s : CSpec ord ds t) : t.noCode = s.g.syms.length := by
  rw [s.gen.noCode, s.gen.shape.symbols, (s.ginv ho).slen]

/-- Cells of the table hold symbol numbers and codes. -/
theorem CSpec.cell (ho : OrdOk ord) (s : CSpec ord ds t) {j : Int} {c : LaAct} (h : s.gen.p.tab.at j = some c) :
    c.la < s.g.syms.length ∧ c.act ≤ s.sts.length + s.g.rules.length + 1 := by
  have hi := s.ginv ho
  have hlen := resort_len (g := s.g) s.acts'
  have hsl := (s.len' ho).1
  have hpi := pack_inv (s.rowsSorted ho) s.packed
  obtain ⟨k, pos, h1, h2⟩ := hpi.only _ _ h
  obtain ⟨ax, ha1, _, _, ha4⟩ := (hpi.keys k pos).1 ⟨_, h1⟩
  have hp : pos < s.acts'.length := by rw [← ha4, ← hlen]; exact (mem_axSets.1 ha1).1
  obtain ⟨q, hq, rfl⟩ := stateNum_surj (g := s.g) s.acts' hp
  unfold Grammar.rowOf at h2
  rw [getD_resort q hq] at h2
  have hm := rowGet_some h2
  unfold Grammar.row at hm
  obtain ⟨x, hx, hf⟩ := List.mem_filterMap.1 hm
  have key : (computeAction (s.g.resortStates s.acts').length s.g.rules.length (stateNum (s.g.resortStates s.acts')) x.detail).map
      (LaAct.mk (s.g.sym x.la).index ·) = some (LaAct.mk c.la c.act) := by
    simp only at hf
    split at hf
    · split at hf
      · cases hf
      · exact hf
    · split at hf
      · cases hf
      · split at hf
        · cases hf
        · exact hf
  obtain ⟨a, hc1, hc2⟩ := Option.map_eq_some_iff.1 key
  simp only [LaAct.mk.injEq] at hc2
  obtain ⟨hc2, rfl⟩ := hc2
  refine ⟨hc2 ▸ hi.index_any _, ?_⟩
  rw [hlen, hsl] at hc1
  have ht := s.tame' ho (hsl ▸ hq) hx
  cases hd : x.detail with
  | shift k =>
    rw [hd] at hc1
    have h1 := Option.some.inj hc1
    have := s.num_lt ho k (ht.sh k hd)
    omega
  | reduce r =>
    rw [hd] at hc1
    have h1 := Option.some.inj hc1
    have : r < s.g.rules.length := (ht.red r hd).1
    rw [← h1]
    exact Nat.le_trans (Nat.add_le_add_right (Nat.le_of_lt this) s.sts.length) (by omega)
  | error => rw [hd] at hc1; have h1 := Option.some.inj hc1; omega
  | accept => rw [hd] at hc1; have h1 := Option.some.inj hc1; omega
  | _ => rw [hd] at hc1; cases hc1

/-- Every offset is that of a cell. -/
def Packed.Placed (p : Packed) : Prop := ∀ k pos ofs, (pos, ofs) ∈ p.ofs k → ∃ la act, p.tab.at (ofs + (la : Nat)) = some ⟨la, act⟩

theorem packOne_placed {g : Grammar} {sts : List RState} {p p' : Packed} {a : Ax} (hi : p.Placed) (hs : ∀ pos, SortedActs g (sts.getD pos default).actions)
    (h : g.packOne sts p a = some p') : p'.Placed := by
  unfold Grammar.packOne at h
  split at h
  · cases h; exact hi
  · split at h
    · cases h
    · rename_i tab ofs hin
      have hsp := insert_spec (row_sorted (hs a.pos)) hin
      have hrow : ∃ la act, rowGet (g.row sts a.isTkn (sts.getD a.pos default).actions) la = some act := by
        cases hr : g.row sts a.isTkn (sts.getD a.pos default).actions with
        | nil => rw [hr] at hin; cases hin
        | cons m row =>
          have := rowGet_isSome (row := m :: row) (a := m) (by simp)
          exact ⟨m.la, _, (Option.some_get this).symm⟩
      obtain ⟨la, act, hr⟩ := hrow
      have hnew := hsp.put la act hr
      have key : ∀ k pos o, (pos, o) ∈ p.ofs k → ∃ la act, tab.at (o + (la : Nat)) = some ⟨la, act⟩ := by
        intro k pos o h
        obtain ⟨la, act, h⟩ := hi k pos o h
        exact ⟨la, act, hsp.keep _ _ h⟩
      split at h
      · cases h
        intro k pos o ho
        cases k
        · exact key false pos o ho
        · rcases List.mem_cons.1 (show (pos, o) ∈ (a.pos, ofs) :: p.tkn from ho) with e | ho
          · cases e; exact ⟨la, act, hnew⟩
          · exact key true pos o ho
      · cases h
        intro k pos o ho
        cases k
        · rcases List.mem_cons.1 (show (pos, o) ∈ (a.pos, ofs) :: p.nt from ho) with e | ho
          · cases e; exact ⟨la, act, hnew⟩
          · exact key false pos o ho
        · exact key true pos o ho

theorem pack_placed {g : Grammar} {sts : List RState} {p : Packed} (hs : ∀ pos, SortedActs g (sts.getD pos default).actions) (h : g.pack sts = some p) :
    p.Placed := by
  unfold Grammar.pack at h
  have key : ∀ (l : List Ax) (p0 : Packed), p0.Placed → l.foldlM (g.packOne sts) p0 = some p → p.Placed := by
    intro l
    induction l with
    | nil => intro p0 h0 h; cases h; exact h0
    | cons a l ih =>
      intro p0 h0 h
      rw [List.foldlM_cons] at h
      cases h1 : g.packOne sts p0 a with
      | none => rw [h1] at h; cases h
      | some p1 => rw [h1] at h; exact ih p1 (packOne_placed h0 hs h1) h
  refine key _ _ ?_ h
  intro k pos ofs h
  cases k <;> cases h

theorem minOfst_cases (l : List (Nat × Int)) : minOfst l = 0 ∨ ∃ x ∈ l, minOfst l = x.2 := by
  have key : ∀ (l : List (Nat × Int)) (m : Int), l.foldl (fun m p => min p.2 m) m = m ∨ ∃ x ∈ l, l.foldl (fun m p => min p.2 m) m = x.2 := by
    intro l
    induction l with
    | nil => intro m; exact .inl rfl
    | cons a l ih =>
      intro m
      rw [List.foldl_cons]
      rcases ih (min a.2 m) with h | ⟨x, hx, h⟩
      · rw [h]
        by_cases hm : a.2 ≤ m
        · exact .inr ⟨a, by simp, by omega⟩
        · exact .inl (by omega)
      · exact .inr ⟨x, by simp [hx], h⟩
  exact key l 0

theorem minOfst_nonpos (l : List (Nat × Int)) : minOfst l ≤ 0 := by
  have key : ∀ (l : List (Nat × Int)) (m : Int), l.foldl (fun m p => min p.2 m) m ≤ m := by
    intro l
    induction l with
    | nil => intro m; exact Int.le_refl m
    | cons a l ih => intro m; rw [List.foldl_cons]; exact Int.le_trans (ih _) (by omega)
  exact key l 0

theorem le_maxEntry {l : List Int} {x : Int} (h : x ∈ l) : x ≤ maxEntry l := by
  have h1 : ∀ (l : List Int) (m : Int), m ≤ l.foldl max m := by
    intro l
    induction l with
    | nil => intro m; exact Int.le_refl m
    | cons a l ih => intro m; rw [List.foldl_cons]; exact Int.le_trans (by omega) (ih _)
  have h2 : ∀ (l : List Int) (m : Int), x ∈ l → x ≤ l.foldl max m := by
    intro l
    induction l with
    | nil => intro m h; cases h
    | cons a l ih =>
      intro m h
      rw [List.foldl_cons]
      rcases List.mem_cons.1 h with rfl | h
      · exact Int.le_trans (by omega) (h1 l (max m x))
      · exact ih _ h
  unfold maxEntry
  have := h2 l 0 h
  omega

theorem maxEntry_cases (l : List Int) : maxEntry l = 0 ∨ (maxEntry l : Int) ∈ l := by
  have key : ∀ (l : List Int) (m : Int), l.foldl max m = m ∨ l.foldl max m ∈ l := by
    intro l
    induction l with
    | nil => intro m; exact .inl rfl
    | cons a l ih =>
      intro m
      rw [List.foldl_cons]
      rcases ih (max m a) with h | h
      · rw [h]
        by_cases hm : a ≤ m
        · exact .inl (by omega)
        · exact .inr (by rw [Int.max_eq_right (by omega)]; simp)
      · exact .inr (by simp [h])
  unfold maxEntry
  by_cases h0 : l.foldl max 0 ≤ 0
  · exact .inl (by omega)
  · rcases key l 0 with h | h
    · omega
    · exact .inr (by rw [Int.toNat_of_nonneg (by omega)]; exact h)

theorem ofstTable_mem {n : Nat} {l : List (Nat × Int)} {tab : List Int} (h : ofstTable n l = some tab) {x : Int} (hx : x ∈ tab) :
    (∃ i, (i, x) ∈ l) ∨ x = minOfst l - 1 := by
  unfold ofstTable at h
  split at h
  · cases h
  · cases h
    obtain ⟨i, _, rfl⟩ := List.mem_map.1 hx
    cases hl : l.lookup i with
    | none => exact .inr rfl
    | some v => exact .inl ⟨i, mem_of_lookup hl⟩

/-- Offsets lie between the negated number of symbols and the length of the table. -/
theorem CSpec.offset (ho : OrdOk ord) (s : CSpec ord ds t) (k : Bool) {tab : List Int} (h : ofstTable (s.g.resortStates s.acts').length (s.gen.p.ofs k) = some tab)
    {x : Int} (hx : x ∈ tab) : - (t.noCode : Int) ≤ x ∧ x < (t.action.length : Int) := by
  have hpl := pack_placed (s.rowsSorted ho) s.packed
  have hn := s.symbols ho
  have hlen : t.action.length = s.gen.p.tab.length := by rw [s.gen.action, List.length_map]
  have key : ∀ i v, (i, v) ∈ s.gen.p.ofs k → - (t.noCode : Int) < v ∧ v < (t.action.length : Int) := by
    intro i v hv
    obtain ⟨la, act, hat⟩ := hpl k i v hv
    have h1 := at_nonneg hat
    have h2 := at_bound hat
    have h3 := (s.cell ho hat).1
    simp only at h3
    omega
  have hpos : 0 < (t.noCode : Int) := by
    have := (s.ginv ho).two
    omega
  rcases ofstTable_mem h hx with ⟨i, hi⟩ | rfl
  · have := key i x hi; omega
  · rcases minOfst_cases (s.gen.p.ofs k) with h1 | ⟨y, hy, h1⟩
    · rw [h1]; omega
    · have h2 := key y.1 y.2 hy
      have h3 := minOfst_nonpos (s.gen.p.ofs k)
      rw [← h1] at h2
      omega

/-- The code computes the largest offset while it places the rows. -/
theorem maxOfst_eq {n : Nat} {l : List (Nat × Int)} {tab : List Int} (h : ofstTable n l = some tab) (hn : (l.map Prod.fst).Nodup) (hk : ∀ x ∈ l, x.1 < n) :
    maxOfst l = maxEntry tab := by
  have h1 : ∀ (l : List (Nat × Int)) (m : Int), m ≤ l.foldl (fun m p => max p.2 m) m ∧ (∀ x ∈ l, x.2 ≤ l.foldl (fun m p => max p.2 m) m) ∧
      (l.foldl (fun m p => max p.2 m) m = m ∨ ∃ x ∈ l, l.foldl (fun m p => max p.2 m) m = x.2) := by
    intro l
    induction l with
    | nil => intro m; exact ⟨Int.le_refl m, by simp, .inl rfl⟩
    | cons a l ih =>
      intro m
      rw [List.foldl_cons]
      obtain ⟨i1, i2, i3⟩ := ih (max a.2 m)
      refine ⟨by omega, ?_, ?_⟩
      · intro x hx
        rcases List.mem_cons.1 hx with rfl | hx
        · omega
        · exact i2 x hx
      · rcases i3 with h | ⟨x, hx, h⟩
        · rw [h]
          by_cases hm : m ≤ a.2
          · exact .inr ⟨a, by simp, by omega⟩
          · exact .inl (by omega)
        · exact .inr ⟨x, by simp [hx], h⟩
  obtain ⟨a1, a2, a3⟩ := h1 l 0
  unfold maxOfst
  apply Int.le_antisymm
  · rcases a3 with e | ⟨x, hx, e⟩
    · rw [e]; omega
    · rw [e]
      have := ((ofstTable_get h hn (hk x hx)).1 x.2 hx).1
      exact le_maxEntry (List.mem_of_getElem? this)
  · rcases maxEntry_cases tab with e | e
    · rw [e]; exact a1
    · rcases ofstTable_mem h e with ⟨i, hi⟩ | e
      · exact a2 _ hi
      · have := minOfst_nonpos l; omega

end

end Pomelo
