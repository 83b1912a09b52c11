import Verif.Proofs.Twin
/-! # The rules of the optional symbols that compete in a state -/

namespace Pomelo

open Spec

variable {ord : List (SymbolId × SymbolId) → List (SymbolId × SymbolId)} {ds : List Decl} {g : Grammar} {sts : List LState}

/-- The rules of the optional symbols are different. -/
theorem optRules_nodup (ho : OrdOk ord) (b : BridgeP ord ds) : ((ord b.gD.optionals).flatMap optRules).Nodup := by
  have hk : ((ord b.gD.optionals).map Prod.fst).Nodup := ((ho b.gD.optionals).map Prod.fst).nodup_iff.2 b.dinv.optKeys
  have hmem : ∀ o ∈ ord b.gD.optionals, o ∈ b.gD.optionals := fun o h => (ho b.gD.optionals).mem_iff.1 h
  apply nodup_flatMap'
  · intro o _
    simp [optRules]
  · have h1 : (ord b.gD.optionals).Pairwise (fun a b => a.1 ≠ b.1) := List.pairwise_map.1 hk
    refine h1.imp_of_mem (fun {a c} ha hc hne x hx hx' => hne ?_)
    have h2 : ∀ o, x ∈ optRules o → x.lhs = o.2 := by
      intro o h
      simp only [optRules, List.mem_cons, List.not_mem_nil, or_false] at h
      rcases h with rfl | rfl <;> rfl
    rw [b.opt_inj (hmem a ha) (hmem c hc) ((h2 a hx).symm.trans (h2 c hx'))]

theorem sub_cancel' {n a b : Nat} (h1 : n ≤ a) (h2 : n ≤ b) (h : a - n = b - n) : a = b := by omega

/-- An unwritten rule is known by its left-hand side and its right-hand side. -/
theorem unwritten_inj (ho : OrdOk ord) (b : Bridge0 ord ds g) {r r' : RuleId} (hr : r < g.rules.length) (hr' : r' < g.rules.length)
    (hn : (rulesOf ds).length ≤ r) (hn' : (rulesOf ds).length ≤ r') (h1 : (g.rule r).lhs = (g.rule r').lhs) (h2 : g.rhsSyms r = g.rhsSyms r') : r = r' := by
  have key : ∀ r, r < g.rules.length → (rulesOf ds).length ≤ r → ∃ a o, ((ord b.gD.optionals).flatMap optRules)[r - b.gD.rules.length]? = some a ∧
      a ∈ optRules o ∧ a.lhs = (g.rule r).lhs ∧ a.rhs.map (·.sym) = g.rhsSyms r := by
    intro r hr hn
    have hlen := b.rules.length_eq
    have hr' : r < b.gP.rules.length := by rw [hlen]; exact hr
    obtain ⟨a, h⟩ : ∃ a, b.gP.rules[r]? = some a := ⟨_, List.getElem?_eq_getElem hr'⟩
    have hn' : b.gD.rules.length ≤ r := by rw [b.nrules]; exact hn
    have h0 := h
    rw [b.rulesP, List.getElem?_append_right hn'] at h
    obtain ⟨o, h1, h2⟩ := Bridge0.mem_optRules_get h
    obtain ⟨c, c1, c2, _⟩ := b.rules_get h0
    refine ⟨a, o, h, h2, ?_, ?_⟩
    · rw [c2]
      exact ((normalizeRule_keeps c1).1.trans (rulePrec_keeps _ _).1).symm
    · unfold Grammar.rhsSyms
      rw [c2]
      simp only
      rw [(normalizeRule_keeps c1).2.1, (rulePrec_keeps _ _).2.1]
  obtain ⟨a, o, a1, a2, a3, a4⟩ := key r hr hn
  obtain ⟨c, p, c1, c2, c3, c4⟩ := key r' hr' hn'
  have hac : a = c := by
    simp only [optRules, List.mem_cons, List.not_mem_nil, or_false] at a2 c2
    have e1 : a.lhs = c.lhs := by rw [a3, c3, h1]
    have e2 : a.rhs.map (·.sym) = c.rhs.map (·.sym) := by rw [a4, c4, h2]
    rcases a2 with rfl | rfl <;> rcases c2 with rfl | rfl
    · simp only at e1; rw [e1]
    · simp at e2
    · simp at e2
    · simp only [List.map_cons, List.map_nil, List.cons.injEq, and_true] at e1 e2; rw [e1, e2]
  have hn1 : b.gD.rules.length ≤ r := by rw [b.nrules]; exact hn
  have hn2 : b.gD.rules.length ≤ r' := by rw [b.nrules]; exact hn'
  rw [← hac] at c1
  have hb1 := (List.getElem?_eq_some_iff.1 a1).1
  have := (List.getElem?_inj hb1 (optRules_nodup ho b.toBridgeP)).1 (a1.trans c1.symm)
  exact sub_cancel' hn1 hn2 this

/-- The empty rule of an optional symbol has no precedence. -/
theorem unwritten_prec (b : Bridge0 ord ds g) {r : RuleId} (hr : r < g.rules.length) (hn : (rulesOf ds).length ≤ r) (h : g.rhsSyms r = []) :
    (g.rule r).precedence = none := by
  have hlen := b.rules.length_eq
  have hr' : r < b.gP.rules.length := by rw [hlen]; exact hr
  obtain ⟨a, h0⟩ : ∃ a, b.gP.rules[r]? = some a := ⟨_, List.getElem?_eq_getElem hr'⟩
  have hn' : b.gD.rules.length ≤ r := by rw [b.nrules]; exact hn
  have h1 := h0
  rw [b.rulesP, List.getElem?_append_right hn'] at h1
  obtain ⟨o, _, h2⟩ := Bridge0.mem_optRules_get h1
  obtain ⟨c, c1, c2, _⟩ := b.rules_get h0
  have e : (c.rhs.map (·.sym)) = [] := by
    unfold Grammar.rhsSyms at h
    rw [c2] at h
    exact h
  rw [(normalizeRule_keeps c1).2.1, (rulePrec_keeps _ _).2.1] at e
  rw [c2]
  simp only
  rw [(normalizeRule_keeps c1).2.2.1]
  simp only [optRules, List.mem_cons, List.not_mem_nil, or_false] at h2
  rcases h2 with rfl | rfl
  · rfl
  · simp at e

/-- Of the rules of optional symbols at most one is complete with one look-ahead in a state without conflicts. -/
theorem unwritten_alone (ho : OrdOk ord) (b : Bridge ord ds g) (hi : GInv g) (ha : Auto g sts) {acts : List (List Action)} (hs : ActsSpec g sts acts)
    {q : StateId} {s : SymbolId} {r r' : RuleId} (h : g.CanReduce sts q s r) (h' : g.CanReduce sts q s r')
    (hq : q < sts.length) (hn : (rulesOf ds).length ≤ r) (hn' : (rulesOf ds).length ≤ r') : r = r' := by
  by_contra hne
  have hr : r < g.rules.length := ha.item_rule hi hq (LA_item hi ha h.2.2).2
  have hr' : r' < g.rules.length := ha.item_rule hi hq (LA_item hi ha h'.2.2).2
  have hst : s ≠ g.start.getD 0 := by
    rintro rfl
    have := h.2.1
    rw [hi.start_kind.1] at this; cases this
  obtain ⟨sh, rd, _, e2, hout⟩ := hs.out q hq s (.inr hst)
  obtain ⟨p, hp⟩ := hout.precs ((e2 r).2 h) ((e2 r').2 h') hne
  obtain ⟨p', hp'⟩ := hout.precs ((e2 r').2 h') ((e2 r).2 h) (Ne.symm hne)
  obtain ⟨o, o1, o2, o3⟩ := b.unwritten ho hr hn
  obtain ⟨o', o1', o2', o3'⟩ := b.unwritten ho hr' hn'
  have e : g.rhsSyms r = [o.1] := by
    rcases o3 with ⟨o3, _⟩ | ⟨o3, _⟩
    · rw [unwritten_prec b.toBridge0 hr hn (by unfold Grammar.rhsSyms; rw [o3]; rfl)] at hp; cases hp
    · unfold Grammar.rhsSyms; rw [o3]; rfl
  have e' : g.rhsSyms r' = [o'.1] := by
    rcases o3' with ⟨o3', _⟩ | ⟨o3', _⟩
    · rw [unwritten_prec b.toBridge0 hr' hn' (by unfold Grammar.rhsSyms; rw [o3']; rfl)] at hp'; cases hp'
    · unfold Grammar.rhsSyms; rw [o3']; rfl
  obtain ⟨γ, hpath⟩ := ha.exists_path q hq
  have v := (path_items hi ha hpath _).1 (LA_item hi ha h.2.2).2
  have v' := (path_items hi ha hpath _).1 (LA_item hi ha h'.2.2).2
  obtain ⟨γ0, a1, _⟩ := viable_prefix v
  obtain ⟨γ1, a2, _⟩ := viable_prefix v'
  simp only [e, e', List.length_singleton, List.take_succ_cons, List.take_zero] at a1 a2
  rw [a1] at a2
  have h1 : o.1 = o'.1 := by
    have := congrArg List.getLast? a2
    simpa using this
  have h2 : o = o' := by
    have := b.dinv.optKeys
    exact List.inj_on_of_nodup_map this o1 o1' h1
  exact hne (unwritten_inj ho b.toBridge0 hr hr' hn hn' (by rw [o2, o2', h2]) (by rw [e, e', h1]))

end Pomelo
