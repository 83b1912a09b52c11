import Verif.Proofs.OptSrc
import Verif.Proofs.Root
import Verif.Proofs.Errors
import Verif.Spec.Causes
/-! # The errors before the automaton is complete -/

namespace Pomelo

open Spec

/-! ## Rules without code -/

theorem mapM_except_ok {α β ε : Type} {f : α → Except ε β} : ∀ {l : List α}, (∀ a ∈ l, ∃ b, f a = .ok b) → ∃ bs, l.mapM f = .ok bs := by
  intro l
  induction l with
  | nil => intro _; exact ⟨[], rfl⟩
  | cons a l ih =>
    intro h
    obtain ⟨b, hb⟩ := h a List.mem_cons_self
    obtain ⟨bs, hbs⟩ := ih (fun x hx => h x (List.mem_cons_of_mem _ hx))
    refine ⟨b :: bs, ?_⟩
    rw [List.mapM_cons, hb, hbs]
    rfl

namespace BridgeP
variable {ord : List (SymbolId × SymbolId) → List (SymbolId × SymbolId)} {ds : List Decl}

theorem rec_mem (b : BridgeP ord ds) {a : Rule} (ha : a ∈ b.gD.rules) :
    ∃ u ∈ rulesOf ds, RuleRec b.gD u.lhs u.rhs u.code u.prec a := by
  have h := b.recs
  unfold RulesRec at h
  rw [filterMap_rule?, List.forall₂_map_left_iff] at h
  obtain ⟨i, hi, rfl⟩ := List.getElem_of_mem ha
  have hlen := h.length_eq
  exact ⟨(rulesOf ds)[i], List.getElem_mem _, h.get (hlen ▸ hi) hi⟩

theorem mem_rec (b : BridgeP ord ds) {u : URule} (hu : u ∈ rulesOf ds) :
    ∃ a ∈ b.gD.rules, RuleRec b.gD u.lhs u.rhs u.code u.prec a := by
  have h := b.recs
  unfold RulesRec at h
  rw [filterMap_rule?, List.forall₂_map_left_iff] at h
  obtain ⟨i, hi, rfl⟩ := List.getElem_of_mem hu
  have hlen := h.length_eq
  exact ⟨b.gD.rules[i], List.getElem_mem _, h.get hi (hlen ▸ hi)⟩

/-- Whether a recorded rule is refused for want of a block -/
theorem normalize_rec (ho : OrdOk ord) (b : BridgeP ord ds) {a : Rule} (ha : a ∈ b.gD.rules) {u : URule}
    (hr : RuleRec b.gD u.lhs u.rhs u.code u.prec a) :
    b.gP.normalizeRule (b.gP.rulePrec a) = .error .typedNoCode ↔
      (u.code = none ∧ typedSym ds u.lhs = true ∧ ((∃ e ∈ u.rhs, e.alias = true) ∨ (u.rhs.filter (typedElem ds)).length ≠ 1)) := by
  obtain ⟨r1, r2, r3, _⟩ := hr
  obtain ⟨i, hi, hia⟩ := List.getElem_of_mem ha
  have hai : b.gD.rule i = a := by rw [← hia]; simp [Grammar.rule, List.getElem?_eq_getElem hi]
  have hl := (b.dinv.lhs i hi).1
  have hrhs := b.dinv.rhs i hi
  rw [hai] at hl hrhs
  have hp := rulePrec_keeps b.gP a
  have htl : b.gP.typed a.lhs = typedSym ds u.lhs := b.typed_ident ho hl r1
  have htyped : a.rhs.map (fun x => b.gP.typed x.sym) = u.rhs.map (typedElem ds) := by
    generalize u.rhs = es at r2
    generalize a.rhs = xs at r2 hrhs
    clear * - r2 hrhs ho
    induction r2 with
    | nil => rfl
    | cons h _ ih =>
      simp only [List.map_cons]
      rw [ih (fun x hx => hrhs x (List.mem_cons_of_mem _ hx)), b.typed_elem ho (hrhs _ List.mem_cons_self).1 h]
  have halias : a.rhs.map (·.alias) = u.rhs.map (·.alias) := by
    generalize u.rhs = es at r2
    generalize a.rhs = xs at r2
    clear * - r2
    induction r2 with
    | nil => rfl
    | cons h _ ih => simp only [List.map_cons]; rw [ih, h.1]
  have hlen : (a.rhs.filter (fun s => b.gP.typed s.sym)).length = (u.rhs.filter (typedElem ds)).length := by
    have h1 : (u.rhs.filter (typedElem ds)).length = ((u.rhs.map (typedElem ds)).filter id).length := by
      rw [List.filter_map, List.length_map]; rfl
    have h2 : (a.rhs.filter (fun s => b.gP.typed s.sym)).length = ((a.rhs.map (fun x => b.gP.typed x.sym)).filter id).length := by
      rw [List.filter_map, List.length_map]; rfl
    rw [h1, h2, htyped]
  have hall : a.rhs.all (fun s => !s.alias) = u.rhs.all (fun s => !s.alias) := by
    have e1 : a.rhs.all (fun s => !s.alias) = (a.rhs.map (·.alias)).all (fun x => !x) := by rw [List.all_map]; rfl
    have e2 : u.rhs.all (fun s => !s.alias) = (u.rhs.map (·.alias)).all (fun x => !x) := by rw [List.all_map]; rfl
    rw [e1, e2, halias]
  unfold Grammar.normalizeRule
  rw [hp.1, hp.2.1, hp.2.2, htl, r3, hlen, hall]
  cases hc : u.code with
  | some n => simp
  | none =>
    cases ht : typedSym ds u.lhs with
    | false => simp
    | true =>
      simp only [Option.map_none, Option.isNone_none, Bool.and_true, if_true, true_and]
      have hcond : (u.rhs.all (fun s => !s.alias) && (u.rhs.filter (typedElem ds)).length == 1) = false ↔
          ((∃ e ∈ u.rhs, e.alias = true) ∨ (u.rhs.filter (typedElem ds)).length ≠ 1) := by
        rw [Bool.and_eq_false_iff, List.all_eq_false, beq_eq_false_iff_ne]
        simp
      rw [← hcond]
      cases hb : (u.rhs.all (fun s => !s.alias) && (u.rhs.filter (typedElem ds)).length == 1) with
      | true => simp
      | false => simp

theorem normalize_opt (b : BridgeP ord ds) {o : SymbolId × SymbolId} {a : Rule} (h : a ∈ optRules o) :
    ∃ c, b.gP.normalizeRule (b.gP.rulePrec a) = .ok c := by
  unfold Grammar.normalizeRule
  have hp := rulePrec_keeps b.gP a
  have : (b.gP.rulePrec a).code.isNone = false := by
    rw [hp.2.2]
    simp only [optRules, List.mem_cons, List.not_mem_nil, or_false] at h
    rcases h with rfl | rfl <;> rfl
  rw [this]
  simp

/-- The rules can be normalized unless a rule lacks its block. -/
theorem uncoded (ho : OrdOk ord) (b : BridgeP ord ds) :
    b.gP.findRulePrecedences.normalizeRules = .error .typedNoCode ↔ Uncoded ds := by
  have hnr : b.gP.findRulePrecedences.rules.mapM b.gP.findRulePrecedences.normalizeRule
      = b.gP.rules.mapM (fun a => b.gP.normalizeRule (b.gP.rulePrec a)) := by
    unfold Grammar.findRulePrecedences
    simp only
    rw [List.mapM_map]
    rfl
  constructor
  · intro h
    unfold Grammar.normalizeRules at h
    rw [hnr] at h
    split at h
    · rename_i h1
      cases h
      obtain ⟨a, ha, h2⟩ := mapM_except_err h1
      rw [b.rulesP] at ha
      rcases List.mem_append.1 ha with ha | ha
      · obtain ⟨u, hu, hr⟩ := b.rec_mem ha
        exact ⟨u, hu, (b.normalize_rec ho ha hr).1 h2⟩
      · obtain ⟨o, _, ho⟩ := List.mem_flatMap.1 ha
        obtain ⟨c, hc⟩ := b.normalize_opt ho
        rw [hc] at h2; cases h2
    · cases h
  · rintro ⟨u, hu, h⟩
    obtain ⟨a, ha, hr⟩ := b.mem_rec hu
    have h2 := (b.normalize_rec ho ha hr).2 h
    unfold Grammar.normalizeRules
    rw [hnr]
    cases hm : b.gP.rules.mapM (fun a => b.gP.normalizeRule (b.gP.rulePrec a)) with
    | error e =>
      obtain ⟨r, _, hr⟩ := mapM_except_err hm
      have : e = .typedNoCode := by
        unfold Grammar.normalizeRule at hr
        split at hr
        · split at hr
          · cases hr
          · cases hr; rfl
        · cases hr
      rw [this]
    | ok bs =>
      exfalso
      have := mapM_except_forall₂ hm
      have hmem : a ∈ b.gP.rules := by rw [b.rulesP]; exact List.mem_append_left _ ha
      obtain ⟨i, hi, rfl⟩ := List.getElem_of_mem hmem
      have h3 := this.get hi (this.length_eq ▸ hi)
      simp only [List.get_eq_getElem] at h3
      rw [h2] at h3; cases h3

end BridgeP

end Pomelo
