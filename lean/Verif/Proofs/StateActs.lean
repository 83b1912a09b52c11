import Verif.Proofs.Groups
import Verif.Proofs.Lr1
/-! # The actions of the states after conflict resolution -/

namespace Pomelo

open Spec

variable {g : Grammar} {sts : List LState}

/-- State `q` goes to `k` over a symbol that stands for `s`. -/
def Grammar.CanShift (g : Grammar) (sts : List LState) (q : StateId) (s : SymbolId) (k : StateId) : Prop :=
  ∃ X, g.Trans sts q X k ∧ (⟨s, .shift k⟩ : Action) ∈ g.shiftActions X k

/-- Rule `r` is complete in state `q` and may be followed by the token `s`. -/
def Grammar.CanReduce (g : Grammar) (sts : List LState) (q : StateId) (s : SymbolId) (r : RuleId) : Prop :=
  s < g.syms.length ∧ (g.sym s).kind = .terminal ∧ g.LA sts q ⟨r, (g.rhsSyms r).length⟩ (g.sym s).index

theorem mem_shiftActions {X : SymbolId} {k : StateId} {a : Action} : a ∈ g.shiftActions X k ↔
    a.detail = .shift k ∧ (((g.sym X).kind = .multiTerminal ∧ a.la ∈ (g.sym X).subs) ∨ ((g.sym X).kind ≠ .multiTerminal ∧ a.la = X)) := by
  unfold Grammar.shiftActions
  split
  · rename_i h
    rw [List.mem_map]
    constructor
    · rintro ⟨m, hm, rfl⟩; exact ⟨rfl, .inl ⟨h, hm⟩⟩
    · rintro ⟨h1, ⟨_, h2⟩ | ⟨h2, _⟩⟩
      · exact ⟨a.la, h2, by cases a; simp only at h1; rw [h1]⟩
      · exact absurd h h2
  · rename_i h
    rw [List.mem_singleton]
    constructor
    · rintro rfl; exact ⟨rfl, .inr ⟨h, rfl⟩⟩
    · rintro ⟨h1, ⟨h2, _⟩ | ⟨_, h2⟩⟩
      · exact absurd h2 h
      · cases a; simp only at h1 h2; rw [h1, h2]

theorem Auto.item_rule (hi : GInv g) (ha : Auto g sts) {q : StateId} (hq : q < sts.length) {it : Item} (h : it ∈ items (cfgs sts q)) :
    it.rule < g.rules.length := by
  obtain ⟨γ, hp⟩ := ha.exists_path q hq
  exact ((path_items hi ha hp it).1 h).rule

theorem Grammar.Trans.rhs (hi : GInv g) (ha : Auto g sts) {q k : StateId} {X : SymbolId} (h : g.Trans sts q X k) :
    ∃ r, r < g.rules.length ∧ X ∈ g.rhsSyms r := by
  obtain ⟨c, hc, hn⟩ := h.some
  exact ⟨c.rule, ha.item_rule hi h.src hc, List.mem_of_getElem? hn⟩

theorem LA_item (hi : GInv g) (ha : Auto g sts) {q : StateId} {it : Item} {n : Nat} (h : g.LA sts q it n) :
    q < sts.length ∧ it ∈ items (cfgs sts q) := by
  obtain ⟨γ, hp, hA⟩ := (la_iff hi ha).1 h
  exact ⟨Path.lt ha hp, (path_items hi ha hp it).2 hA.viable⟩

theorem mem_rawActions (hi : GInv g) (ha : Auto g sts) {q : StateId} (hq : q < sts.length) (a : Action) :
    a ∈ g.rawActions q (sts.getD q default) ↔
      (∃ k, g.CanShift sts q a.la k ∧ a.detail = .shift k) ∨ (∃ r, g.CanReduce sts q a.la r ∧ a.detail = .reduce r) ∨
      (q = 0 ∧ a = ⟨g.start.getD 0, .accept⟩) := by
  unfold Grammar.rawActions
  rw [List.mem_append, List.mem_append]
  have h1 : a ∈ (sts.getD q default).actions ↔ ∃ k, g.CanShift sts q a.la k ∧ a.detail = .shift k := by
    have := ha.mem_acts hq a
    unfold actsOf at this
    rw [this]
    constructor
    · rintro ⟨X, k, h1, h2⟩
      have h3 := (mem_shiftActions.1 h2).1
      refine ⟨k, ⟨X, h1, ?_⟩, h3⟩
      rw [← h3]; exact h2
    · rintro ⟨k, ⟨X, h1, h2⟩, h3⟩
      rw [← h3] at h2
      exact ⟨X, k, h1, h2⟩
  have h2 : a ∈ g.reduceActions (sts.getD q default) ↔ ∃ r, g.CanReduce sts q a.la r ∧ a.detail = .reduce r := by
    unfold Grammar.reduceActions
    rw [List.mem_flatMap]
    constructor
    · rintro ⟨c, hc, h⟩
      split at h
      · rename_i hdot
        obtain ⟨j, hj, h⟩ := List.mem_filterMap.1 h
        split at h
        · rename_i hcon
          cases h
          rw [List.mem_range] at hj
          have hjl : j < g.syms.length := Nat.lt_of_lt_of_le hj (Nat.le_trans hi.nterm.2.1 (Nat.le_of_lt hi.nterm.2.2))
          obtain ⟨i1, i2⟩ := hi.index j hjl
          refine ⟨c.item.rule, ⟨i1, ?_, ?_⟩, rfl⟩
          · rw [hi.term _ i1, i2]; exact hj
          · show g.LA sts q _ (g.sym (g.symbols.getD j 0)).index
            rw [i2, ← hdot]
            apply (ha.fws q hq _ _).1
            exact ⟨c, hc, rfl, List.contains_iff_mem.1 hcon⟩
        · cases h
      · cases h
    · rintro ⟨r, ⟨i1, i2, i3⟩, h⟩
      obtain ⟨c, hc, he, hn⟩ := (ha.fws q hq _ _).2 i3
      refine ⟨c, hc, ?_⟩
      have hr : c.item.rule = r := by rw [he]
      rw [if_pos (by rw [he])]
      rw [List.mem_filterMap]
      refine ⟨(g.sym a.la).index, List.mem_range.2 ((hi.term _ i1).1 i2), ?_⟩
      rw [if_pos (List.contains_iff_mem.2 hn), (hi.perm _ i1).2, hr]
      cases a; simp only at h; rw [h]
  rw [h1, h2, or_assoc]
  constructor
  · rintro (h | h | h)
    · exact .inl h
    · exact .inr (.inl h)
    · split at h
      · rename_i h0
        exact .inr (.inr ⟨h0, List.mem_singleton.1 h⟩)
      · cases h
  · rintro (h | h | ⟨h, h'⟩)
    · exact .inl h
    · exact .inr (.inl h)
    · rw [if_pos h, h']; simp

theorem Grammar.CanShift.lt (hi : GInv g) (ha : Auto g sts) {q k : StateId} {s : SymbolId} (h : g.CanShift sts q s k) : s < g.syms.length := by
  obtain ⟨X, h1, h2⟩ := h
  obtain ⟨r, hr, hX⟩ := h1.rhs hi ha
  have hX := (hi.rhs r hr X hX).1
  rcases (mem_shiftActions.1 h2).2 with ⟨_, h3⟩ | ⟨_, h3⟩
  · exact (hi.subs X hX s h3).1
  · simp only at h3; rw [h3]; exact hX

/-- The start symbol is on no right-hand side -/
def Grammar.NoStart (g : Grammar) : Prop := ∀ r, r < g.rules.length → ∀ x ∈ g.rhsSyms r, some x ≠ g.start

theorem Grammar.CanShift.ne_start (hi : GInv g) (ha : Auto g sts) (hn : g.NoStart) {q k : StateId} {s : SymbolId} (h : g.CanShift sts q s k) :
    s ≠ g.start.getD 0 := by
  rintro rfl
  obtain ⟨X, h1, h2⟩ := h
  obtain ⟨r, hr, hX⟩ := h1.rhs hi ha
  have hX1 := (hi.rhs r hr X hX).1
  obtain ⟨s, hs1, hs2, hs3⟩ := hi.start
  rcases (mem_shiftActions.1 h2).2 with ⟨_, h3⟩ | ⟨_, h3⟩
  · have := (hi.subs X hX1 _ h3).2
    simp only [hs1, Option.getD_some] at this
    revert this hs3
    cases (g.sym s).name with
    | ident i => cases i <;> simp [SymName.isTok, SymName.isNt]
    | _ => simp [SymName.isTok, SymName.isNt]
  · apply hn r hr X hX
    simp only [hs1, Option.getD_some] at h3
    rw [hs1, h3]

theorem sorted_raw (hi : GInv g) (ha : Auto g sts) {q : StateId} (hq : q < sts.length) :
    g.Sorted (sortBy g.actionLt (g.rawActions q (sts.getD q default))) := by
  refine ⟨?_, ?_⟩
  · refine (sorted_actions _).imp ?_
    intro a b h; unfold Grammar.Before at h; omega
  · have hlt : ∀ a, a ∈ sortBy g.actionLt (g.rawActions q (sts.getD q default)) → a.la < g.syms.length := by
      intro a h
      rw [mem_sortBy, mem_rawActions hi ha hq] at h
      rcases h with ⟨k, h, _⟩ | ⟨r, h, _⟩ | ⟨_, rfl⟩
      · exact Grammar.CanShift.lt hi ha h
      · exact h.1
      · exact hi.start_kind.2.1
    intro a h1 b h2 he
    exact hi.index_inj (hlt a h1) (hlt b h2) he

/-- The resolved actions of all states, without conflicts -/
structure ActsSpec (g : Grammar) (sts : List LState) (acts : List (List Action)) : Prop where
  len : acts.length = sts.length
  sorted : ∀ q, q < sts.length → g.Sorted (acts.getD q [])
  out : ∀ q, q < sts.length → ∀ s, (q ≠ 0 ∨ s ≠ g.start.getD 0) → ∃ sh rd, (∀ k, k ∈ sh ↔ g.CanShift sts q s k) ∧
    (∀ r, r ∈ rd ↔ g.CanReduce sts q s r) ∧ g.Outcome s sh rd (lives (onSym s (acts.getD q [])))
  acc : onSym (g.start.getD 0) (acts.getD 0 []) = [⟨g.start.getD 0, .accept⟩]
  las : ∀ q, q < sts.length → ∀ a ∈ acts.getD q [], (∃ k, g.CanShift sts q a.la k) ∨ (∃ r, g.CanReduce sts q a.la r) ∨ (q = 0 ∧ a.la = g.start.getD 0)
  /-- every rule is reduced somewhere -/
  all : ∀ r, r < g.rules.length → ∃ q, q < sts.length ∧ ∃ a ∈ acts.getD q [], a.detail = .reduce r

theorem sum_eq_zero : ∀ {l : List Nat}, l.sum = 0 ↔ ∀ x ∈ l, x = 0 := by
  intro l
  induction l with
  | nil => simp
  | cons a l ih => rw [List.sum_cons, Nat.add_eq_zero_iff, ih]; simp

theorem findActions_get {acts : List (List Action)} {n : Nat} (h : g.findActions sts = .ok (acts, n)) :
    acts.length = sts.length ∧ (∀ q, q < sts.length → acts.getD q [] = (g.resolveState (g.rawActions q (sts.getD q default))).1) ∧
    (n = 0 ↔ ∀ q, q < sts.length → (g.resolveState (g.rawActions q (sts.getD q default))).2 = 0) ∧
    ∀ r, r < g.rules.length → ∃ q, q < sts.length ∧ ∃ a ∈ acts.getD q [], a.detail = .reduce r := by
  unfold Grammar.findActions at h
  simp only at h
  split at h
  · cases h
  split at h
  · rename_i hall
    simp only [Except.ok.injEq, Prod.mk.injEq] at h
    obtain ⟨rfl, rfl⟩ := h
    have hlen : (List.map (fun x => x.1) (List.map (fun x => g.resolveState (g.rawActions x.2 x.1)) sts.zipIdx)).length = sts.length := by
      simp
    have hget : ∀ q, q < sts.length → (List.map (fun x => x.1) (List.map (fun x => g.resolveState (g.rawActions x.2 x.1)) sts.zipIdx)).getD q [] =
        (g.resolveState (g.rawActions q (sts.getD q default))).1 := by
      intro q hq
      rw [List.getD_eq_getElem?_getD]
      simp only [List.getElem?_map, List.getElem?_zipIdx, List.getElem?_eq_getElem hq, Option.map_some, Option.getD_some, Nat.zero_add]
      rw [getD_of_lt hq]
    refine ⟨hlen, hget, ?_, ?_⟩
    · rw [sum_eq_zero]
      constructor
      · intro h q hq
        apply h
        rw [List.mem_map]
        refine ⟨g.resolveState (g.rawActions q (sts.getD q default)), ?_, rfl⟩
        rw [List.mem_map]
        refine ⟨(sts[q], q), ?_, by simp only; rw [getD_of_lt hq]⟩
        rw [List.mem_zipIdx_iff_getElem?]; simp [List.getElem?_eq_getElem hq]
      · intro h x hx
        obtain ⟨y, hy, rfl⟩ := List.mem_map.1 hx
        obtain ⟨⟨st, q⟩, hz, rfl⟩ := List.mem_map.1 hy
        rw [List.mem_zipIdx_iff_getElem?] at hz
        obtain ⟨hq, he⟩ := List.getElem?_eq_some_iff.1 hz
        simp only at hq he ⊢
        rw [← he]
        have := h q hq
        rw [getD_of_lt hq] at this
        exact this
    · intro r hr
      have h1 := List.all_eq_true.1 hall r (List.mem_range.2 hr)
      rw [List.any_eq_true] at h1
      obtain ⟨l, hl, h2⟩ := h1
      rw [List.any_eq_true] at h2
      obtain ⟨a, ha, h3⟩ := h2
      obtain ⟨q, hq, rfl⟩ := List.getElem_of_mem hl
      refine ⟨q, by rw [← hlen]; exact hq, a, ?_, by simpa using h3⟩
      rw [List.getD_eq_getElem?_getD, List.getElem?_eq_getElem hq]; exact ha
  · cases h

theorem Grammar.Sorted.of_la {l l' : List Action} (h : g.Sorted l) (he : l'.map (·.la) = l.map (·.la)) : g.Sorted l' := by
  have h1 : (l.map (·.la)).Pairwise (fun a b => (g.sym a).index ≤ (g.sym b).index) := List.pairwise_map.2 h.le
  rw [← he, List.pairwise_map] at h1
  refine ⟨h1, ?_⟩
  have hm : ∀ a ∈ l', ∃ b ∈ l, b.la = a.la := by
    intro a ha
    have : a.la ∈ l'.map (·.la) := List.mem_map.2 ⟨a, ha, rfl⟩
    rw [he] at this
    exact List.mem_map.1 this
  intro a ha b hb hab
  obtain ⟨x, hx, e1⟩ := hm a ha
  obtain ⟨y, hy, e2⟩ := hm b hb
  rw [← e1, ← e2] at hab ⊢
  exact h.inj x hx y hy hab

theorem findActions_spec (hi : GInv g) (ha : Auto g sts) (hl : g.Levels) (hn : g.NoStart) {acts : List (List Action)}
    (h : g.findActions sts = .ok (acts, 0)) : ActsSpec g sts acts := by
  obtain ⟨h1, h2, h3, h4⟩ := findActions_get h
  have h3 := h3.1 rfl
  have hL : ∀ q, g.resolveState (g.rawActions q (sts.getD q default)) = g.resolveL (sortBy g.actionLt (g.rawActions q (sts.getD q default))) :=
    fun q => rfl
  refine ⟨h1, ?_, ?_, ?_, ?_, h4⟩
  · intro q hq
    rw [h2 q hq, hL]
    exact (sorted_raw hi ha hq).of_la (resolveL_la _ _ rfl)
  · intro q hq s hs
    obtain ⟨a1, a2⟩ := resolveL_onSym (g := g) _ (Nat.le_refl _) (sorted_raw hi ha hq)
    have h5 := a2.1 (h3 q hq) s
    obtain ⟨sh, rd, e1, e2, e3⟩ := group_shape (g := g) (raw := g.rawActions q (sts.getD q default)) (s := s) (by
      intro a hm he
      rw [mem_rawActions hi ha hq] at hm
      rcases hm with ⟨k, _, h⟩ | ⟨r, _, h⟩ | ⟨h0, h⟩
      · exact .inl ⟨k, h⟩
      · exact .inr ⟨r, h⟩
      · rcases hs with hs | hs
        · exact absurd h0 hs
        · rw [h] at he; exact absurd he.symm hs)
    rw [e1] at h5
    have h6 := resolve_group hl h5
    refine ⟨sh, rd, ?_, ?_, ?_⟩
    · intro k
      rw [e2, mem_rawActions hi ha hq]
      constructor
      · rintro (⟨k', h, e⟩ | ⟨r, h, e⟩ | ⟨_, e⟩)
        · cases e; exact h
        · cases e
        · cases e
      · intro h; exact .inl ⟨k, h, rfl⟩
    · intro k
      rw [e3, mem_rawActions hi ha hq]
      constructor
      · rintro (⟨k', h, e⟩ | ⟨r, h, e⟩ | ⟨_, e⟩)
        · cases e
        · cases e; exact h
        · cases e
      · intro h; exact .inr (.inl ⟨k, h, rfl⟩)
    · rw [h2 q hq, hL, a1, e1]
      exact h6
  · rw [h2 0 ha.pos, hL]
    rw [(resolveL_onSym (g := g) _ (Nat.le_refl _) (sorted_raw hi ha ha.pos)).1]
    have hraw : onSym (g.start.getD 0) (g.rawActions 0 (sts.getD 0 default)) = [⟨g.start.getD 0, .accept⟩] := by
      have hnone : ∀ a ∈ g.rawActions 0 (sts.getD 0 default), a.la = g.start.getD 0 → a = ⟨g.start.getD 0, .accept⟩ := by
        intro a hm he
        rw [mem_rawActions hi ha ha.pos] at hm
        rcases hm with ⟨k, h, _⟩ | ⟨r, h, _⟩ | ⟨_, h⟩
        · exact absurd he (Grammar.CanShift.ne_start hi ha hn h)
        · have := h.2.1
          rw [he, hi.start_kind.1] at this; cases this
        · exact h
      unfold Grammar.rawActions at hnone ⊢
      rw [if_pos rfl] at hnone ⊢
      rw [onSym_append]
      have e1 : onSym (g.start.getD 0) ((sts.getD 0 default).actions ++ g.reduceActions (sts.getD 0 default)) = [] := by
        apply onSym_eq_nil
        intro y hy he
        have h5 := hnone y (List.mem_append_left _ hy) he
        have h6 : y ∈ g.rawActions 0 (sts.getD 0 default) := by
          unfold Grammar.rawActions; exact List.mem_append_left _ hy
        rcases List.mem_append.1 hy with hy | hy
        · obtain ⟨X, k, _, h8⟩ := (ha.mem_acts ha.pos y).1 hy
          have := (mem_shiftActions.1 h8).1
          rw [h5] at this; cases this
        · unfold Grammar.reduceActions at hy
          obtain ⟨c, _, h⟩ := List.mem_flatMap.1 hy
          split at h
          · obtain ⟨j, hj, h⟩ := List.mem_filterMap.1 h
            split at h
            · cases h; exact Detail.noConfusion (congrArg Action.detail h5)
            · cases h
          · cases h
      rw [e1]
      simp [onSym]
    have hperm : (onSym (g.start.getD 0) (sortBy g.actionLt (g.rawActions 0 (sts.getD 0 default)))).Perm [⟨g.start.getD 0, .accept⟩] := by
      rw [← hraw]
      exact (perm_sortBy _ _).filter _
    rw [List.perm_singleton.1 hperm]
    rfl
  · intro q hq a hm
    rw [h2 q hq, hL] at hm
    obtain ⟨z, hz, e⟩ := mem_resolveL_la hm
    rw [mem_sortBy, mem_rawActions hi ha hq] at hz
    rw [← e]
    rcases hz with ⟨k, h, _⟩ | ⟨r, h, _⟩ | ⟨h0, h⟩
    · exact .inl ⟨k, h⟩
    · exact .inr (.inl ⟨r, h⟩)
    · exact .inr (.inr ⟨h0, by rw [h]⟩)

end Pomelo
