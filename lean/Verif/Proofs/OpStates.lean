import Verif.Proofs.Stack
import Verif.Proofs.Conflicts
/-! # The states of grammars with operators -/

namespace Pomelo

open Spec

/-- The grammar of `Spec.operators`, numbered: start symbol `S` with the one rule `s0`, expressions `e` -/
structure OpG (g : Grammar) (S e : SymbolId) (s0 : RuleId) : Prop where
  start : g.start.getD 0 = S
  root : RuleOf g S s0
  only : ∀ {r}, RuleOf g S r → r = s0
  s0rhs : g.rhsSyms s0 = [e]
  ne : S ≠ e
  closed : ∀ {r r' X}, r = s0 ∨ RuleOf g e r → X ∈ g.rhsSyms r → RuleOf g X r' → X = e
  token : ∀ {r}, RuleOf g e r → ∃ X ∈ g.rhsSyms r, X ≠ e
  spaced : ∀ {r d}, RuleOf g e r → (g.rhsSyms r)[d]? = some e → (g.rhsSyms r)[d + 1]? ≠ some e
  clear0 : ∀ {r r' X}, RuleOf g e r → RuleOf g e r' → (g.rhsSyms r)[0]? = some X → X ≠ e → (g.rhsSyms r')[0]? = some X → r = r'
  clear1 : ∀ {r r' X}, RuleOf g e r → RuleOf g e r' → (g.rhsSyms r)[0]? = some e → (g.rhsSyms r)[1]? = some X →
    (g.rhsSyms r')[0]? = some e → (g.rhsSyms r')[1]? = some X → r = r'
  inner : ∀ {r r' d X}, RuleOf g e r → RuleOf g e r' → 1 ≤ d → (g.rhsSyms r)[d]? = some e → (g.rhsSyms r)[d + 1]? = some X →
    (g.rhsSyms r')[0]? = some e → (g.rhsSyms r')[1]? ≠ some X
  innerTok : ∀ {r r' d X Y a}, RuleOf g e r → RuleOf g e r' → 1 ≤ d → (g.rhsSyms r)[d]? = some e → (g.rhsSyms r)[d + 1]? = some X →
    (g.rhsSyms r')[0]? = some e → (g.rhsSyms r')[1]? = some Y → a < g.syms.length → (g.sym a).kind = .terminal → a ≠ 0 → Reads g X a → ¬ Reads g Y a

namespace OpG

variable {g : Grammar} {S e : SymbolId} {s0 : RuleId}

/-- Items are of the start rule and of the rules of `e`. -/
theorem viable_rule (G : OpG g S e s0) {γ : List SymbolId} {c : Item} (h : Viable g γ c) : c.rule = s0 ∨ RuleOf g e c.rule := by
  induction h with
  | start h => exact .inl (G.only (G.start ▸ h))
  | close _ h2 h3 ih =>
    have := G.closed ih (List.mem_of_getElem? h2) h3
    subst this
    exact .inr h3
  | shift _ _ ih => exact ih

/-- Only `e` has rules among the symbols of right-hand sides. -/
theorem next_e (G : OpG g S e s0) {γ : List SymbolId} {c : Item} (hc : Viable g γ c) {A : SymbolId} (hA : atDot g c = some A) {r : RuleId} (hr : RuleOf g A r) : A = e :=
  G.closed (G.viable_rule hc) (List.mem_of_getElem? hA) hr

theorem viable_nil (G : OpG g S e s0) {it : Item} (h : Viable g [] it) : it = ⟨s0, 0⟩ ∨ (RuleOf g e it.rule ∧ it.dot = 0) := by
  generalize hγ : ([] : List SymbolId) = γ at h
  cases h with
  | start h =>
    rw [G.start] at h
    rw [G.only h]
    exact .inl rfl
  | close h1 h2 h3 =>
    have := G.next_e h1 h2 h3
    subst this
    exact .inr ⟨h3, rfl⟩
  | shift => simp at hγ

/-- Items after one more symbol: a dot moved over it, or the rules of `e` if that is what comes next -/
theorem viable_snoc (G : OpG g S e s0) {γ : List SymbolId} {X : SymbolId} {it : Item} (h : Viable g (γ ++ [X]) it) :
    ∃ k, Viable g γ k ∧ atDot g k = some X ∧ (it = ⟨k.rule, k.dot + 1⟩ ∨ (atDot g ⟨k.rule, k.dot + 1⟩ = some e ∧ RuleOf g e it.rule ∧ it.dot = 0)) := by
  generalize hγ : γ ++ [X] = γ' at h
  induction h with
  | start h => simp at hγ
  | @close γ1 c A r h1 h2 h3 ih =>
    obtain ⟨k, a1, a2, a3⟩ := ih hγ
    have := G.next_e h1 h2 h3
    subst this
    refine ⟨k, a1, a2, .inr ⟨?_, h3, rfl⟩⟩
    rcases a3 with a3 | a3
    · rw [a3] at h2; exact h2
    · exact a3.1
  | @shift γ1 c Y h1 h2 _ =>
    obtain ⟨rfl, e2⟩ := List.append_inj' hγ rfl
    cases e2
    exact ⟨c, h1, h2, .inl rfl⟩

/-- `γ` ends where an expression comes next, `c` is the item of which it is a part. -/
inductive Ctx (g : Grammar) (e : SymbolId) (s0 : RuleId) : List SymbolId → Item → Prop
  | nil : Ctx g e s0 [] ⟨s0, 0⟩
  | inside {δ c m d} : Ctx g e s0 δ c → RuleOf g e m → 1 ≤ d → (g.rhsSyms m)[d]? = some e → Ctx g e s0 (δ ++ (g.rhsSyms m).take d) ⟨m, d⟩

theorem Ctx.item (G : OpG g S e s0) {δ : List SymbolId} {c : Item} (h : Ctx g e s0 δ c) :
    atDot g c = some e ∧ (c = ⟨s0, 0⟩ ∨ (RuleOf g e c.rule ∧ 1 ≤ c.dot)) := by
  cases h with
  | nil => exact ⟨by unfold atDot; rw [G.s0rhs]; rfl, .inl rfl⟩
  | inside _ h2 h3 h4 => exact ⟨h4, .inr ⟨h2, h3⟩⟩

/-- The items of the state are `c` and the rules of the expressions. -/
def At (g : Grammar) (e : SymbolId) (δ : List SymbolId) (c : Item) : Prop := ∀ it, Viable g δ it → it = c ∨ (RuleOf g e it.rule ∧ it.dot = 0)

/-- The state after an expression -/
theorem after_e (G : OpG g S e s0) {δ : List SymbolId} {c : Item} (hc : atDot g c = some e) (hr : c = ⟨s0, 0⟩ ∨ (RuleOf g e c.rule ∧ 1 ≤ c.dot))
    (h : At g e δ c) {it : Item} (hv : Viable g (δ ++ [e]) it) : it = ⟨c.rule, c.dot + 1⟩ ∨ (RuleOf g e it.rule ∧ it.dot = 1 ∧ (g.rhsSyms it.rule)[0]? = some e) := by
  obtain ⟨k, h1, h2, h3⟩ := G.viable_snoc hv
  rcases h k h1 with rfl | ⟨k1, k2⟩
  · rcases h3 with h3 | ⟨h3, _⟩
    · exact .inl h3
    · exfalso
      rcases hr with rfl | ⟨hr, _⟩
      · unfold atDot at h3; rw [G.s0rhs] at h3; cases h3
      · exact G.spaced hr hc h3
  · have hk : (g.rhsSyms k.rule)[0]? = some e := by
      have := h2
      unfold atDot at this
      rwa [k2] at this
    rcases h3 with rfl | ⟨h3, _⟩
    · exact .inr ⟨k1, by simp only [k2], hk⟩
    · exact absurd (by unfold atDot at h3; rwa [k2] at h3) (G.spaced k1 hk)

/-- The state after a token of the rule `m` -/
theorem after_tok (G : OpG g S e s0) {δ : List SymbolId} {c : Item} (hc : atDot g c = some e) (hr : c = ⟨s0, 0⟩ ∨ (RuleOf g e c.rule ∧ 1 ≤ c.dot))
    (h : At g e δ c) {m : RuleId} (hm : RuleOf g e m) : ∀ (d : Nat) {X : SymbolId}, (g.rhsSyms m)[d]? = some X → X ≠ e →
      ∀ {it : Item}, Viable g (δ ++ (g.rhsSyms m).take (d + 1)) it → it = ⟨m, d + 1⟩ ∨ ((g.rhsSyms m)[d + 1]? = some e ∧ RuleOf g e it.rule ∧ it.dot = 0) := by
  intro d
  induction d using Nat.strongRecOn with
  | ind d ih =>
    intro X hX hne it hv
    -- the item that moves over the token
    suffices key : ∀ k, Viable g (δ ++ (g.rhsSyms m).take d) k → atDot g k = some X → k = ⟨m, d⟩ by
      rw [List.take_add_one, hX] at hv
      simp only [Option.toList_some, ← List.append_assoc] at hv
      obtain ⟨k, h1, h2, h3⟩ := G.viable_snoc hv
      have := key k h1 h2
      subst this
      exact h3
    intro k h1 h2
    match d, ih, hX, h1 with
    | 0, _, hX, h1 =>
      simp only [List.take_zero, List.append_nil] at h1
      rcases h k h1 with rfl | ⟨k1, k2⟩
      · rw [hc] at h2; cases h2; exact absurd rfl hne
      · have h2' : (g.rhsSyms k.rule)[0]? = some X := by unfold atDot at h2; rwa [k2] at h2
        have := G.clear0 hm k1 hX hne h2'
        subst this
        cases k; simp only at k2; subst k2; rfl
    | d + 1, ih, hX, h1 =>
      have hd : d < (g.rhsSyms m).length := Nat.lt_of_succ_lt (List.getElem?_eq_some_iff.1 hX).1
      have hY : (g.rhsSyms m)[d]? = some (g.rhsSyms m)[d] := List.getElem?_eq_getElem hd
      by_cases hYe : (g.rhsSyms m)[d] = e
      · rw [hYe] at hY
        rw [List.take_add_one, hY] at h1
        simp only [Option.toList_some, ← List.append_assoc] at h1
        match d, ih, hX, hY, h1 with
        | 0, _, hX, hY, h1 =>
          simp only [List.take_zero, List.append_nil] at h1
          rcases G.after_e hc hr h h1 with rfl | ⟨k1, k2, k3⟩
          · exfalso
            rcases hr with rfl | ⟨hr, hr1⟩
            · unfold atDot at h2; rw [G.s0rhs] at h2; cases h2
            · exact G.inner hr hm hr1 hc h2 hY hX
          · have h2' : (g.rhsSyms k.rule)[1]? = some X := by unfold atDot at h2; rwa [k2] at h2
            have := G.clear1 hm k1 hY hX k3 h2'
            subst this
            cases k; simp only at k2; subst k2; rfl
        | d + 1, ih, hX, hY, h1 =>
          have hd' : d < (g.rhsSyms m).length := Nat.lt_of_succ_lt (List.getElem?_eq_some_iff.1 hY).1
          have hZ : (g.rhsSyms m)[d]? = some (g.rhsSyms m)[d] := List.getElem?_eq_getElem hd'
          have hZe : (g.rhsSyms m)[d] ≠ e := by
            intro hZe
            rw [hZe] at hZ
            exact G.spaced hm hZ hY
          have hAt : At g e (δ ++ (g.rhsSyms m).take (d + 1)) ⟨m, d + 1⟩ := by
            intro it hv
            rcases ih d (by omega) hZ hZe hv with h | ⟨_, h⟩
            · exact .inl h
            · exact .inr h
          rcases G.after_e (c := ⟨m, d + 1⟩) hY (.inr ⟨hm, by simp⟩) hAt h1 with rfl | ⟨k1, k2, k3⟩
          · rfl
          · exfalso
            have h2' : (g.rhsSyms k.rule)[1]? = some X := by unfold atDot at h2; rwa [k2] at h2
            exact G.inner hm k1 (d := d + 1) (by simp) hY hX k3 h2'
      · rcases ih d (by omega) hY hYe h1 with h | ⟨h, h'⟩
        · exact h
        · rw [hX] at h; cases h; exact absurd rfl hne

theorem Ctx.at (G : OpG g S e s0) {δ : List SymbolId} {c : Item} (h : Ctx g e s0 δ c) : At g e δ c := by
  induction h with
  | nil => intro it hv; exact G.viable_nil hv
  | @inside δ c m d h1 h2 h3 h4 ih =>
    obtain ⟨i1, i2⟩ := Ctx.item G h1
    obtain ⟨d, rfl⟩ : ∃ d', d = d' + 1 := ⟨d - 1, by omega⟩
    have hd : d < (g.rhsSyms m).length := Nat.lt_of_succ_lt (List.getElem?_eq_some_iff.1 h4).1
    have hY : (g.rhsSyms m)[d]? = some (g.rhsSyms m)[d] := List.getElem?_eq_getElem hd
    have hYe : (g.rhsSyms m)[d] ≠ e := by
      intro hYe
      rw [hYe] at hY
      exact G.spaced h2 hY h4
    intro it hv
    rcases G.after_tok i1 i2 ih h2 d hY hYe hv with h | ⟨_, h⟩
    · exact .inl h
    · exact .inr h

/-! ## What is complete, and what can be read -/

theorem reducesOn_viable {γ : List SymbolId} {a : SymbolId} {r : RuleId} (h : ReducesOn g γ a r) : Viable g γ ⟨r, (g.rhsSyms r).length⟩ := by
  obtain ⟨_, _, γ', h1, h2⟩ := h
  exact (h1 _).2 h2.viable

theorem rhs_pos (G : OpG g S e s0) {r : RuleId} (h : RuleOf g e r) : 0 < (g.rhsSyms r).length := by
  obtain ⟨X, hX, _⟩ := G.token h
  exact List.length_pos_of_mem hX

/-- A rule that begins with an operand has more than that. -/
theorem rhs_two (G : OpG g S e s0) {r : RuleId} (h : RuleOf g e r) (h0 : (g.rhsSyms r)[0]? = some e) : 1 < (g.rhsSyms r).length := by
  by_contra hc
  obtain ⟨X, hX, hne⟩ := G.token h
  obtain ⟨i, hi, rfl⟩ := List.mem_iff_getElem.1 hX
  have : i = 0 := by omega
  subst this
  rw [List.getElem?_eq_getElem hi] at h0
  exact hne (Option.some.inj h0)

/-- The start rule is reduced at the end of input only. -/
theorem start_ahead (G : OpG g S e s0) {γ : List SymbolId} {c : Item} {n : Nat} (h : Ahead g γ c n) (hc : c.rule = s0) : n = 0 := by
  induction h with
  | start => rfl
  | @first γ c A r n h1 h2 h3 h4 =>
    have := G.next_e h1 h2 h3
    simp only at hc
    subst hc this
    exact absurd (G.root.2.symm.trans h3.2) G.ne
  | @pass γ c A r n h1 h2 h3 h4 _ =>
    have := G.next_e h1.viable h2 h3
    simp only at hc
    subst hc this
    exact absurd (G.root.2.symm.trans h3.2) G.ne
  | shift _ _ ih => exact ih hc

/-- After an expression, only the rule around it can be complete. -/
theorem reduce_after_e (G : OpG g S e s0) {δ : List SymbolId} {c : Item} (h : Ctx g e s0 δ c) {a : SymbolId} {r : RuleId} (hr : ReducesOn g (δ ++ [e]) a r) :
    r = c.rule ∧ c.dot + 1 = (g.rhsSyms c.rule).length := by
  obtain ⟨i1, i2⟩ := Ctx.item G h
  rcases G.after_e i1 i2 (Ctx.at G h) (reducesOn_viable hr) with h' | ⟨h1, h2, h3⟩
  · cases c
    simp only [Item.mk.injEq] at h' ⊢
    obtain ⟨rfl, h'⟩ := h'
    exact ⟨rfl, h'.symm⟩
  · have := G.rhs_two h1 h3
    simp only at h2 this
    omega

/-- After a token of a rule that is not complete, nothing is. -/
theorem reduce_after_tok (G : OpG g S e s0) {δ : List SymbolId} {c : Item} (h : Ctx g e s0 δ c) {m : RuleId} (hm : RuleOf g e m) {d : Nat} {X : SymbolId}
    (hX : (g.rhsSyms m)[d]? = some X) (hne : X ≠ e) {a : SymbolId} {r : RuleId} (hr : ReducesOn g (δ ++ (g.rhsSyms m).take (d + 1)) a r) :
    r = m ∧ d + 1 = (g.rhsSyms m).length := by
  obtain ⟨i1, i2⟩ := Ctx.item G h
  rcases G.after_tok i1 i2 (Ctx.at G h) hm d hX hne (reducesOn_viable hr) with h' | ⟨_, h1, h2⟩
  · simp only [Item.mk.injEq] at h'
    obtain ⟨rfl, h'⟩ := h'
    exact ⟨rfl, h'.symm⟩
  · have := G.rhs_pos h1
    simp only at h2 this
    omega

theorem reduce_at (G : OpG g S e s0) {δ : List SymbolId} {c : Item} (h : Ctx g e s0 δ c) {a : SymbolId} {r : RuleId} : ¬ ReducesOn g δ a r := by
  intro hr
  obtain ⟨i1, i2⟩ := Ctx.item G h
  rcases Ctx.at G h _ (reducesOn_viable hr) with rfl | ⟨h1, h2⟩
  · unfold atDot at i1
    simp at i1
  · have := G.rhs_pos h1
    simp only at h2 this
    omega

/-- What can be read after an expression: the next symbol of the rule around it, or an operator -/
theorem shift_after_e (G : OpG g S e s0) {δ : List SymbolId} {c : Item} (h : Ctx g e s0 δ c) {a X : SymbolId} (hs : ShiftsOn g (δ ++ [e]) a X) :
    (g.rhsSyms c.rule)[c.dot + 1]? = some X ∨ ∃ m, RuleOf g e m ∧ (g.rhsSyms m)[0]? = some e ∧ (g.rhsSyms m)[1]? = some X := by
  obtain ⟨i1, i2⟩ := Ctx.item G h
  obtain ⟨it, h1, h2, _⟩ := hs
  rcases G.after_e i1 i2 (Ctx.at G h) h1 with rfl | ⟨k1, k2, k3⟩
  · exact .inl h2
  · refine .inr ⟨it.rule, k1, k3, ?_⟩
    unfold atDot at h2
    rwa [k2] at h2

/-- Nothing can be read after the last token of a rule. -/
theorem shift_after_last (G : OpG g S e s0) {δ : List SymbolId} {c : Item} (h : Ctx g e s0 δ c) {m : RuleId} (hm : RuleOf g e m) {d : Nat} {X : SymbolId}
    (hX : (g.rhsSyms m)[d]? = some X) (hne : X ≠ e) (hd : d + 1 = (g.rhsSyms m).length) {a Y : SymbolId} : ¬ ShiftsOn g (δ ++ g.rhsSyms m) a Y := by
  rintro ⟨it, h1, h2, _⟩
  obtain ⟨i1, i2⟩ := Ctx.item G h
  have ht : (g.rhsSyms m).take (d + 1) = g.rhsSyms m := by rw [hd, List.take_length]
  rcases G.after_tok i1 i2 (Ctx.at G h) hm d hX hne (by rw [ht]; exact h1) with rfl | ⟨h3, _⟩
  · unfold atDot at h2
    rw [hd] at h2
    simp at h2
  · rw [hd] at h3
    simp at h3

/-- The state in which a rule is complete: no other rule is, and it matters only to operators. -/
theorem reduce_ok (G : OpG g S e s0) {δ : List SymbolId} {c : Item} (h : Ctx g e s0 δ c) {m : RuleId} (hm : RuleOf g e m) {b : SymbolId} :
    (∀ r, ReducesOn g (δ ++ g.rhsSyms m) b r → r = m) ∧
    (∀ X, ShiftsOn g (δ ++ g.rhsSyms m) b X → (∃ α, α ≠ [] ∧ g.rhsSyms m = α ++ [e]) ∧ ∃ m', RuleOf g e m' ∧ (g.rhsSyms m')[0]? = some e ∧ (g.rhsSyms m')[1]? = some X) := by
  obtain ⟨d, hd⟩ : ∃ d, d + 1 = (g.rhsSyms m).length := ⟨(g.rhsSyms m).length - 1, by have := G.rhs_pos hm; omega⟩
  have hlt : d < (g.rhsSyms m).length := by omega
  have hX : (g.rhsSyms m)[d]? = some (g.rhsSyms m)[d] := List.getElem?_eq_getElem hlt
  have ht : (g.rhsSyms m).take (d + 1) = g.rhsSyms m := by rw [hd, List.take_length]
  by_cases he : (g.rhsSyms m)[d] = e
  · rw [he] at hX
    have h1 : 1 ≤ d := by
      rcases Nat.eq_zero_or_pos d with rfl | h
      · have := G.rhs_two hm hX
        omega
      · exact h
    have hC := Ctx.inside h hm h1 hX
    have heq : g.rhsSyms m = (g.rhsSyms m).take d ++ [e] := by
      conv_lhs => rw [← ht, List.take_add_one, hX]
      rfl
    have hγ : δ ++ g.rhsSyms m = (δ ++ (g.rhsSyms m).take d) ++ [e] := by rw [List.append_assoc, ← heq]
    constructor
    · intro r hr
      rw [hγ] at hr
      exact (G.reduce_after_e hC hr).1
    · intro X hs
      refine ⟨⟨(g.rhsSyms m).take d, ?_, heq⟩, ?_⟩
      · intro h0
        have := congrArg List.length h0
        rw [List.length_take, List.length_nil] at this
        omega
      · rw [hγ] at hs
        rcases G.shift_after_e hC hs with h2 | h2
        · simp only [hd] at h2
          simp at h2
        · exact h2
  · constructor
    · intro r hr
      rw [← ht] at hr
      exact (G.reduce_after_tok h hm hX he hr).1
    · intro X hs
      exact absurd hs (G.shift_after_last h hm hX he hd)

end OpG

end Pomelo
