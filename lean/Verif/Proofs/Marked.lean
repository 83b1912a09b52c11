import Verif.Proofs.Sound
/-! # Only the rules of the start symbol are marked -/

namespace Pomelo

open Spec

theorem markStart_only {g : Grammar} {sp : SymbolId} {r : RuleId} (h : ((g.markStart sp).rule r).lhsStart = true) :
    (g.rule r).lhsStart = true ∨ ((g.sym sp).kind = .nonTerminal ∧ r ∈ (g.sym sp).rules) := by
  unfold Grammar.markStart at h
  split at h
  · rename_i hk
    simp only [Grammar.rule] at h ⊢
    have key : ∀ (R : List RuleId) (rs : List Rule),
        ((R.foldl (fun rs rp => rs.modify rp (fun r => { r with lhsStart := true })) rs).getD r default).lhsStart = true →
        (rs.getD r default).lhsStart = true ∨ r ∈ R := by
      intro R
      induction R with
      | nil => intro rs h; exact .inl h
      | cons a R ih =>
        intro rs h
        rw [List.foldl_cons] at h
        rcases ih _ h with h | h
        · by_cases har : a = r
          · exact .inr (by rw [har]; simp)
          · left
            rw [List.getD_eq_getElem?_getD, List.getElem?_modify] at h
            rw [List.getD_eq_getElem?_getD]
            simpa [har] using h
        · exact .inr (List.mem_cons_of_mem _ h)
    rcases key _ _ h with h | h
    · exact .inl h
    · exact .inr ⟨hk, h⟩
  · exact .inl h

theorem start_of_lhsStart {ord : List (SymbolId × SymbolId) → List (SymbolId × SymbolId)} {ds : List Decl} (ho : OrdOk ord)
    {g0 g : Grammar} {sts : List LState} (h0 : newFromDecls ds = .ok g0) (h : g0.automaton ord = .ok (g, sts)) {r : RuleId}
    (hs : (g.rule r).lhsStart = true) : (g.rule r).lhs = g.start.getD 0 := by
  have hi := GInv.automaton h0 ho h
  obtain ⟨b⟩ := bridge ho h0 h
  obtain ⟨s⟩ := automaton_spec h
  have hmk := s.marked
  have hsh : Shape s.gF g := Eq.mpr (congrArg (Shape s.gF) hmk) (markStart_shape _ _)
  have hst : s.gF.start.getD 0 = g.start.getD 0 := by rw [hsh.start]
  rw [hmk] at hs
  rcases markStart_only hs with h1 | ⟨h1, h2⟩
  · exfalso
    -- no rule is marked before
    obtain ⟨gD, hp, hd, hrec, hne, rfl⟩ := newFromDecls_spec h0
    obtain ⟨rulesN, hgN, hfN⟩ := normalizeRules_spec s.norm
    obtain ⟨hgF, _⟩ := findFirstSets_only s.first
    have hrulesF : s.gF.rules = rulesN := by rw [hgF, hgN]
    generalize hgP : (gD.pushSym { name := .dflt, kind := .nonTerminal }).prepare ord = gP at hfN
    have hrulesP : gP.rules = gD.rules ++ (ord gD.optionals).flatMap optRules := by
      rw [← hgP, prepare_eq, rules_addOptionals, (addExtraToken_fields _).1, (addExtraToken_fields _).2.1,
        (indexed_fields _).2.1, (indexed_fields _).2.2.2.2.1]
      rfl
    have hfN2 : List.Forall₂ (fun a b => gP.normalizeRule (gP.rulePrec a) = .ok b) gP.rules rulesN := by
      have : List.Forall₂ (fun a b => gP.normalizeRule a = .ok b) (gP.rules.map gP.rulePrec) rulesN := hfN
      rw [List.forall₂_map_left_iff] at this
      exact this
    have hall : ∀ a ∈ gP.rules, a.lhsStart = false := by
      intro a ha
      rw [hrulesP, List.mem_append] at ha
      rcases ha with ha | ha
      · obtain ⟨k, hk, rfl⟩ := List.mem_iff_getElem.1 ha
        have := (hd.fresh k hk).2.1
        unfold Grammar.rule at this
        rw [getD_of_lt hk] at this
        exact this
      · obtain ⟨o, _, ha⟩ := List.mem_flatMap.1 ha
        simp only [optRules, List.mem_cons, List.not_mem_nil, or_false] at ha
        rcases ha with rfl | rfl <;> rfl
    have h2 : s.gF.rule r = rulesN.getD r default := by unfold Grammar.rule; rw [hrulesF]
    rw [h2] at h1
    rcases forall₂_getElem? hfN2 r with ⟨_, h3⟩ | ⟨a, c, h3, h4, h5⟩
    · rw [List.getD_eq_getElem?_getD, h3] at h1; cases h1
    · rw [List.getD_eq_getElem?_getD, h4] at h1
      have h6 := hall a (List.mem_of_getElem? h3)
      have e1 : (gP.rulePrec a).lhsStart = a.lhsStart := by
        unfold Grammar.rulePrec
        split
        · rfl
        · split <;> rfl
      have e2 : c.lhsStart = (gP.rulePrec a).lhsStart := by
        unfold Grammar.normalizeRule at h5
        split at h5
        · split at h5
          · cases h5; rfl
          · cases h5
        · cases h5; rfl
      simp only [Option.getD_some] at h1
      rw [e2, e1, h6] at h1; cases h1
  · rw [hst, ← hsh.rules] at h2
    exact ((hi.mem_rules hi.start_kind.2.1).1 h2).2

end Pomelo
