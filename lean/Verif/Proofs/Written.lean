import Verif.Proofs.Types
import Verif.Proofs.Parse
/-! # Trees over the numbered rules and trees over the written rules -/

namespace Pomelo

open Spec

/-- How an element of a right-hand side is recorded, without its alias -/
def ElemSym (g : Grammar) (e : RhsElem) (X : SymbolId) : Prop :=
  (∃ tok, e.toks = [tok] ∧ e.optional = false ∧ (g.sym X).name = .ident tok) ∨
  (∃ tok symR, e.toks = [tok] ∧ e.optional = true ∧ symR < g.syms.length ∧ (symR, X) ∈ g.optionals ∧
    (g.sym symR).name = .ident tok) ∨
  ((∀ tok, e.toks ≠ [tok]) ∧ (g.sym X).name = .anon ∧
    List.Forall₂ (fun s id => s < g.syms.length ∧ (g.sym s).name = .ident id) (g.sym X).subs e.toks)

namespace Bridge0
variable {ord : List (SymbolId × SymbolId) → List (SymbolId × SymbolId)} {ds : List Decl} {g : Grammar}

theorem nrules (b : Bridge0 ord ds g) : b.gD.rules.length = (rulesOf ds).length := by
  have := b.recs.length_eq
  rw [filterMap_rule?] at this
  simpa using this.symm

/-- A written rule in the final grammar -/
theorem written (ho : OrdOk ord) (b : Bridge0 ord ds g) {r : RuleId} {u : URule} (hu : (rulesOf ds)[r]? = some u) :
    r < g.rules.length ∧ (g.rule r).lhs < b.gD.syms.length ∧ (b.gD.sym (g.rule r).lhs).name = .ident u.lhs ∧
    List.Forall₂ (ElemSym b.gD) u.rhs (g.rhsSyms r) ∧ (∀ x ∈ g.rhsSyms r, x < b.gD.syms.length) ∧
    ((∃ n, u.code = some n ∧ (g.rule r).code = some (.user n) ∧ (g.rule r).rhs.map (·.alias) = u.rhs.map (·.alias)) ∨
     (u.code = none ∧ typedSym ds u.lhs = false ∧ (g.rule r).code = none ∧ (g.rule r).rhs.map (·.alias) = u.rhs.map (·.alias)) ∨
     (u.code = none ∧ typedSym ds u.lhs = true ∧ (g.rule r).code = some .forward ∧ (g.rule r).rhs.map (·.alias) = u.rhs.map (typedElem ds) ∧
       (u.rhs.filter (typedElem ds)).length = 1 ∧ ∀ e ∈ u.rhs, e.alias = false)) := by
  obtain ⟨a, c, h1, _, h3, ⟨r1, r2, r3, _⟩, h5, h6⟩ := b.rule_rec hu
  have hr : r < b.gD.rules.length := (List.getElem?_eq_some_iff.1 h1).1
  have ha : b.gD.rule r = a := by unfold Grammar.rule; rw [List.getD_eq_getElem?_getD, h1]; rfl
  have hl := (b.dinv.lhs r hr).1
  have hrhs := b.dinv.rhs r hr
  rw [ha] at hl hrhs
  have hk := normalizeRule_keeps h5
  have hp := rulePrec_keeps b.gP a
  have hsy : g.rhsSyms r = a.rhs.map (·.sym) := by
    unfold Grammar.rhsSyms; rw [h6]; simp only; rw [hk.2.1, hp.2.1]
  have hlhs : (g.rule r).lhs = a.lhs := by rw [h6]; simp only; rw [hk.1, hp.1]
  have hgr : r < g.rules.length := (List.getElem?_eq_some_iff.1 h3).1
  have hcode : (g.rule r).code = c.code := by rw [h6]
  have hrh : (g.rule r).rhs = c.rhs := by rw [h6]
  have htl : b.gP.typed a.lhs = typedSym ds u.lhs := b.typed_ident ho hl r1
  have htyped : a.rhs.map (fun x => b.gP.typed x.sym) = u.rhs.map (typedElem ds) := by
    generalize u.rhs = es at r2
    generalize a.rhs = xs at r2 hrhs
    clear * - r2 hrhs ho
    induction r2 with
    | nil => rfl
    | cons h _ ih =>
      simp only [List.map_cons]
      rw [ih (fun x hx => hrhs x (List.mem_cons_of_mem _ hx)), b.typed_elem ho (hrhs _ List.mem_cons_self).1 h]
  have halias : a.rhs.map (·.alias) = u.rhs.map (·.alias) := by
    generalize u.rhs = es at r2
    generalize a.rhs = xs at r2
    clear * - r2
    induction r2 with
    | nil => rfl
    | cons h _ ih => simp only [List.map_cons]; rw [ih, h.1]
  refine ⟨hgr, by rw [hlhs]; exact hl, by rw [hlhs]; exact r1, ?_, ?_, ?_⟩
  · rw [hsy]
    generalize u.rhs = es at r2
    generalize a.rhs = xs at r2
    clear * - r2
    induction r2 with
    | nil => exact .nil
    | cons h _ ih => exact .cons h.2 ih
  · rw [hsy]
    intro x hx
    obtain ⟨y, hy, rfl⟩ := List.mem_map.1 hx
    exact (hrhs y hy).1
  · rw [hcode, hrh]
    unfold Grammar.normalizeRule at h5
    rw [hp.1, hp.2.1, hp.2.2, htl, r3] at h5
    cases hc : u.code with
    | some n =>
      rw [hc] at h5
      simp only [Option.map_some, Option.isNone_some, Bool.and_false, Bool.false_eq_true, if_false, Except.ok.injEq] at h5
      left
      refine ⟨n, rfl, ?_, ?_⟩
      · rw [← h5, hp.2.2, r3, hc]; rfl
      · rw [← h5, hp.2.1]; exact halias
    | none =>
      rw [hc] at h5
      simp only [Option.map_none, Option.isNone_none, Bool.and_true] at h5
      right
      cases ht : typedSym ds u.lhs with
      | false =>
        rw [ht] at h5
        simp only [Bool.false_eq_true, if_false, Except.ok.injEq] at h5
        left
        refine ⟨rfl, rfl, ?_, ?_⟩
        · rw [← h5, hp.2.2, r3, hc]; rfl
        · rw [← h5, hp.2.1]; exact halias
      | true =>
        rw [ht] at h5
        simp only [if_true] at h5
        right
        split at h5
        · rename_i hcond
          simp only [Except.ok.injEq] at h5
          rw [Bool.and_eq_true, List.all_eq_true] at hcond
          obtain ⟨hal, hlen⟩ := hcond
          have hal' : ∀ e ∈ u.rhs, e.alias = false := by
            intro e he
            have : e.alias ∈ u.rhs.map (·.alias) := List.mem_map.2 ⟨e, he, rfl⟩
            rw [← halias] at this
            obtain ⟨y, hy, hya⟩ := List.mem_map.1 this
            rw [← hya]; simpa using hal y hy
          refine ⟨rfl, rfl, by rw [← h5], ?_, ?_, hal'⟩
          · rw [← h5, ← htyped]
            simp only [List.map_map]
            apply List.map_congr_left
            intro x hx
            simp only [Function.comp]
            cases b.gP.typed x.sym with
            | true => rfl
            | false => simpa using hal x hx
          · have h1 : (u.rhs.filter (typedElem ds)).length = ((u.rhs.map (typedElem ds)).filter id).length := by
              rw [List.filter_map, List.length_map]; rfl
            have h2 : (a.rhs.filter (fun s => b.gP.typed s.sym)).length = ((a.rhs.map (fun x => b.gP.typed x.sym)).filter id).length := by
              rw [List.filter_map, List.length_map]; rfl
            rw [h1, ← htyped, ← h2]
            simpa using hlen
        · cases h5

theorem mem_optRules_get {l : List (SymbolId × SymbolId)} {i : Nat} {a : Rule} (h : (l.flatMap optRules)[i]? = some a) :
    ∃ o ∈ l, a ∈ optRules o := List.mem_flatMap.1 (List.mem_of_getElem? h)

theorem rules_get (b : Bridge0 ord ds g) {r : RuleId} {a : Rule} (h : b.gP.rules[r]? = some a) :
    ∃ c, b.gP.normalizeRule (b.gP.rulePrec a) = .ok c ∧ g.rule r = { c with lhsStart := (g.rule r).lhsStart } ∧ r < g.rules.length := by
  rcases forall₂_getElem? b.rules r with ⟨h1, _⟩ | ⟨a', c', h1, h2, h3⟩
  · rw [h] at h1; cases h1
  · rw [h] at h1
    cases h1
    obtain ⟨c, hc1, hc2⟩ := h3
    have hg : g.rule r = c' := by unfold Grammar.rule; rw [List.getD_eq_getElem?_getD, h2]; rfl
    exact ⟨c, hc1, by rw [hg]; exact hc2, (List.getElem?_eq_some_iff.1 h2).1⟩

/-- The generated rules of the optional symbols in the final grammar -/
theorem opt_final (b : Bridge0 ord ds g) {r : RuleId} {o : SymbolId × SymbolId} {a : Rule} (h : b.gP.rules[r]? = some a) (ho : a ∈ optRules o) :
    (g.rule r).lhs = o.2 ∧ r < g.rules.length ∧ (((g.rule r).rhs = [] ∧ (g.rule r).code = some .optNone) ∨
      ((g.rule r).rhs = [⟨o.1, true⟩] ∧ (g.rule r).code = some .optSome)) := by
  obtain ⟨c, h1, h2, h3⟩ := b.rules_get h
  have hp := rulePrec_keeps b.gP a
  have hc : c = b.gP.rulePrec a := by
    unfold Grammar.normalizeRule at h1
    rw [hp.2.2] at h1
    have : a.code.isNone = false := by
      simp only [optRules, List.mem_cons, List.not_mem_nil, or_false] at ho
      rcases ho with rfl | rfl <;> rfl
    rw [this] at h1
    simp only [Bool.and_false, Bool.false_eq_true, if_false, Except.ok.injEq] at h1
    exact h1.symm
  have e1 : (g.rule r).lhs = a.lhs := by rw [h2, hc]; exact hp.1
  have e2 : (g.rule r).rhs = a.rhs := by rw [h2, hc]; exact hp.2.1
  have e3 : (g.rule r).code = a.code := by rw [h2, hc]; exact hp.2.2
  rw [e1, e2, e3]
  simp only [optRules, List.mem_cons, List.not_mem_nil, or_false] at ho
  rcases ho with rfl | rfl
  · exact ⟨rfl, h3, .inl ⟨rfl, rfl⟩⟩
  · exact ⟨rfl, h3, .inr ⟨rfl, rfl⟩⟩

/-- A rule that was not written -/
theorem unwritten (ho : OrdOk ord) (b : Bridge0 ord ds g) {r : RuleId} (hr : r < g.rules.length) (hn : (rulesOf ds).length ≤ r) :
    ∃ o ∈ b.gD.optionals, (g.rule r).lhs = o.2 ∧ (((g.rule r).rhs = [] ∧ (g.rule r).code = some .optNone) ∨
      ((g.rule r).rhs = [⟨o.1, true⟩] ∧ (g.rule r).code = some .optSome)) := by
  have hlen := b.rules.length_eq
  have hr' : r < b.gP.rules.length := by rw [hlen]; exact hr
  obtain ⟨a, h⟩ : ∃ a, b.gP.rules[r]? = some a := ⟨_, List.getElem?_eq_getElem hr'⟩
  rw [b.rulesP] at h
  have hn' : b.gD.rules.length ≤ r := by rw [b.nrules]; exact hn
  rw [List.getElem?_append_right hn'] at h
  obtain ⟨o, h1, h2⟩ := mem_optRules_get h
  rw [← List.getElem?_append_right hn', ← b.rulesP] at h
  obtain ⟨h3, _, h4⟩ := b.opt_final h h2
  exact ⟨o, (ho b.gD.optionals).mem_iff.1 h1, h3, h4⟩

/-- The two rules of an optional symbol -/
theorem opt_rules (ho : OrdOk ord) (b : Bridge0 ord ds g) {o : SymbolId × SymbolId} (h : o ∈ b.gD.optionals) :
    (∃ r, r < g.rules.length ∧ (rulesOf ds).length ≤ r ∧ (g.rule r).lhs = o.2 ∧ (g.rule r).rhs = [] ∧ (g.rule r).code = some .optNone) ∧
    (∃ r, r < g.rules.length ∧ (rulesOf ds).length ≤ r ∧ (g.rule r).lhs = o.2 ∧ (g.rule r).rhs = [⟨o.1, true⟩] ∧ (g.rule r).code = some .optSome) := by
  have key : ∀ a ∈ optRules o, ∃ r, b.gP.rules[r]? = some a ∧ (rulesOf ds).length ≤ r := by
    intro a ha
    have : a ∈ (ord b.gD.optionals).flatMap optRules := List.mem_flatMap.2 ⟨o, (ho b.gD.optionals).mem_iff.2 h, ha⟩
    obtain ⟨i, hi⟩ := List.mem_iff_getElem?.1 this
    refine ⟨b.gD.rules.length + i, ?_, by rw [b.nrules]; omega⟩
    rw [b.rulesP, List.getElem?_append_right (by omega), Nat.add_sub_cancel_left, hi]
  constructor
  · obtain ⟨r, h1, h2⟩ := key { lhs := o.2, rhs := [], code := some .optNone, precSym := none } (by simp [optRules])
    obtain ⟨c, c1, c2, c3⟩ := b.rules_get h1
    obtain ⟨h3, _, h4⟩ := b.opt_final h1 (o := o) (by simp [optRules])
    rcases h4 with h4 | h4
    · exact ⟨r, c3, h2, h3, h4⟩
    · have := (normalizeRule_keeps c1).2.1
      rw [(rulePrec_keeps _ _).2.1] at this
      rw [c2] at h4
      simp only at h4
      rw [h4.1] at this
      cases this
  · obtain ⟨r, h1, h2⟩ := key { lhs := o.2, rhs := [⟨o.1, true⟩], code := some .optSome, precSym := none } (by simp [optRules])
    obtain ⟨c, c1, c2, c3⟩ := b.rules_get h1
    obtain ⟨h3, _, h4⟩ := b.opt_final h1 (o := o) (by simp [optRules])
    rcases h4 with h4 | h4
    · have := (normalizeRule_keeps c1).2.1
      rw [(rulePrec_keeps _ _).2.1] at this
      rw [c2] at h4
      simp only at h4
      rw [h4.1] at this
      cases this
    · exact ⟨r, c3, h2, h3, h4⟩

/-! ## Tokens -/

theorem dropped (b : Bridge0 ord ds g) (hi : GInv g) {x : SymbolId} (hx : x < g.syms.length) (hn : (g.sym x).name ≠ .dflt) : x < b.gD.syms.length := by
  rw [b.len] at hx
  rcases Nat.lt_succ_iff_lt_or_eq.1 hx with h | h
  · exact h
  · exfalso
    obtain ⟨d, d1, d2, _⟩ := hi.dflt
    rw [b.len] at d1
    rcases Nat.lt_succ_iff_lt_or_eq.1 d1 with d1 | d1
    · have h2 : (g.sym d).name = (b.gD.sym d).name := b.name d1
      exact b.dinv.noDflt d d1 (h2.symm.trans d2)
    · rw [d1, ← h] at d2
      exact hn d2

/-- Names of what a token stands for -/
theorem stands_name (b : Bridge0 ord ds g) {a c : SymbolId} (h : Stands g a c) : a < b.gD.syms.length → ∀ {i}, (b.gD.sym a).name = .ident i →
    c < b.gD.syms.length ∧ ∃ j, (b.gD.sym c).name = .ident j ∧ TakenFor ds i j := by
  induction h with
  | self => intro ha i hn; exact ⟨ha, i, hn, .self⟩
  | @fallback a f c hf _ ih =>
    intro ha i hn
    rw [b.fallback ha] at hf
    have h1 := (b.decl.sym b.dinv ha hn).2.2.2.1
    rw [hf] at h1
    obtain ⟨hfl, _, _⟩ := b.dinv.fb a ha f hf
    cases hfo : fallbackOf ds i with
    | none => rw [hfo] at h1; cases h1
    | some j =>
      rw [hfo] at h1
      simp only [Option.map_some, Option.some.injEq] at h1
      obtain ⟨h2, k, h3, h4⟩ := ih hfl h1
      exact ⟨h2, k, h3, .fallback hfo h4⟩
  | @wildcard a w hw _ =>
    intro ha i hn
    rw [b.wildcard] at hw
    have h1 := b.decl.wildcard
    rw [hw] at h1
    cases hwo : wildcardOf ds with
    | none => rw [hwo] at h1; cases h1
    | some j =>
      rw [hwo] at h1
      simp only [Option.map_some, Option.some.injEq] at h1
      exact ⟨(b.dinv.wild w hw).1, j, h1, .wildcard hwo⟩

theorem taken_stands (b : Bridge0 ord ds g) {i j : Ident} (h : TakenFor ds i j) : ∀ {a}, a < b.gD.syms.length → (b.gD.sym a).name = .ident i →
    ∃ c, c < b.gD.syms.length ∧ (b.gD.sym c).name = .ident j ∧ Stands g a c ∧ ((b.gD.sym a).name.isTok = true → (b.gD.sym c).name.isTok = true) := by
  induction h with
  | self => intro a ha hn; exact ⟨a, ha, hn, .self, id⟩
  | @fallback i f j hf _ ih =>
    intro a ha hn
    have h1 := (b.decl.sym b.dinv ha hn).2.2.2.1
    rw [hf] at h1
    cases hfa : (b.gD.sym a).fallback with
    | none => rw [hfa] at h1; cases h1
    | some m =>
      rw [hfa] at h1
      simp only [Option.map_some, Option.some.injEq] at h1
      obtain ⟨m1, m2, _⟩ := b.dinv.fb a ha m hfa
      obtain ⟨c, h2, h3, h4, h5⟩ := ih m1 h1
      exact ⟨c, h2, h3, .fallback (by rw [b.fallback ha]; exact hfa) h4, fun _ => h5 m2⟩
  | @wildcard i w hw =>
    intro a ha hn
    have h1 := b.decl.wildcard
    rw [hw] at h1
    cases hwa : b.gD.wildcard with
    | none => rw [hwa] at h1; cases h1
    | some m =>
      rw [hwa] at h1
      simp only [Option.map_some, Option.some.injEq] at h1
      obtain ⟨m1, m2⟩ := b.dinv.wild m hwa
      exact ⟨m, m1, h1, .wildcard (by rw [b.wildcard]; exact hwa) (by
        rintro rfl
        rw [b.dinv.dollar] at hn; cases hn), fun _ => m2⟩

theorem forall₂_subs {G : Grammar} {ss : List SymbolId} {ids : List Ident}
    (h : List.Forall₂ (fun s id => s < G.syms.length ∧ (G.sym s).name = .ident id) ss ids) :
    (∀ s ∈ ss, ∃ id ∈ ids, (G.sym s).name = .ident id) ∧ (∀ id ∈ ids, ∃ s ∈ ss, s < G.syms.length ∧ (G.sym s).name = .ident id) := by
  induction h with
  | nil => simp
  | cons h1 _ ih =>
    constructor
    · intro s hs
      rcases List.mem_cons.1 hs with rfl | hs
      · exact ⟨_, List.mem_cons_self, h1.2⟩
      · obtain ⟨id, hid, hn⟩ := ih.1 s hs
        exact ⟨id, List.mem_cons_of_mem _ hid, hn⟩
    · intro id hid
      rcases List.mem_cons.1 hid with rfl | hid
      · exact ⟨_, List.mem_cons_self, h1⟩
      · obtain ⟨s, hs, hn⟩ := ih.2 id hid
        exact ⟨s, List.mem_cons_of_mem _ hs, hn⟩

/-- Reading a token with a symbol of a right-hand side -/
theorem reads_matches (b : Bridge0 ord ds g) {e : RhsElem} {Y c : SymbolId} (hY : Y < b.gD.syms.length) (he : ElemSym b.gD e Y)
    {j : Ident} (hc : c < b.gD.syms.length) (hn : (b.gD.sym c).name = .ident j) (ht : (b.gD.sym c).name.isTok = true) : Reads g Y c ↔ Matches ds e j := by
  have hk := b.dinv.kinds Y hY
  unfold Reads Matches
  rw [b.kind hY, b.subs hY]
  rcases he with ⟨tok, h1, h2, h3⟩ | ⟨tok, symR, h1, h2, h3, h4, h5⟩ | ⟨h1, h2, h3⟩
  · rw [h1, h2]
    simp only [true_and]
    obtain ⟨_, hm, hs, _, _⟩ := b.decl.sym b.dinv hY h3
    by_cases hcl : isClass ds tok = true
    · rw [hm.2 hcl, if_pos hcl]
      simp only
      have : (c ∈ (b.gD.sym Y).subs) ↔ SymName.ident j ∈ (b.gD.sym Y).subs.map (fun m => (b.gD.sym m).name) := by
        rw [List.mem_map]
        constructor
        · intro h; exact ⟨c, h, hn⟩
        · rintro ⟨m, hm, hmn⟩
          have := b.dinv.names m c (b.dinv.subs Y hY m hm).1 hc (by rw [hmn, hn]) (by rw [hmn]; simp)
          rw [← this]; exact hm
      rw [this, hs]
      simp
    · have hne : (b.gD.sym Y).kind ≠ .multiTerminal := fun e => hcl (hm.1 e)
      rw [if_neg hcl]
      have hsame : j = tok ↔ c = Y := by
        constructor
        · rintro rfl
          exact b.dinv.names c Y hc hY (by rw [hn, h3]) (by rw [hn]; simp)
        · rintro rfl
          rw [hn] at h3; cases h3; rfl
      rw [hsame]
      split
      · exact Iff.rfl
      · rename_i e; exact absurd e hne
      · rename_i e
        constructor
        · exact False.elim
        · rintro rfl
          rw [e] at hk
          revert hk ht
          cases (b.gD.sym c).name with
          | ident i => cases i <;> simp [kindOk, SymName.isTok]
          | _ => simp [SymName.isTok]
  · rw [h1, h2]
    simp only [Bool.true_eq_false, false_and, iff_false]
    obtain ⟨_, _, _, k, _, hb⟩ := b.opt_name h4
    simp only at hb
    rw [hb] at hk
    have : (b.gD.sym Y).kind = .nonTerminal := by
      revert hk; cases (b.gD.sym Y).kind <;> simp [kindOk]
    rw [this]; simp
  · rw [h2] at hk
    have : (b.gD.sym Y).kind = .multiTerminal := by
      revert hk; cases (b.gD.sym Y).kind <;> simp [kindOk]
    rw [this]
    obtain ⟨s1, s2⟩ := forall₂_subs h3
    show c ∈ (b.gD.sym Y).subs ↔ _
    split
    · rename_i i he; exact absurd he (h1 i)
    constructor
    · intro h
      obtain ⟨id, hid, he⟩ := s1 c h
      rw [hn] at he; cases he; exact hid
    · intro h
      obtain ⟨m, hm, hml, hmn⟩ := s2 j h
      have := b.dinv.names m c hml hc (by rw [hmn, hn]) (by rw [hmn]; simp)
      rw [← this]; exact hm

end Bridge0

end Pomelo
