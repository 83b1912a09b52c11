import Verif.Props.Complete
/-!
# C26, C40: optional symbols, rules without code

What an optional symbol derives and its value; what a rule without a block does, and which ones are refused.
-/

namespace Pomelo

open Spec

variable {ord : List (SymbolId × SymbolId) → List (SymbolId × SymbolId)} {ds : List Decl} {t : Tables} {V X E : Type}

/-- A reduction by a written rule, on any stack: if it succeeds, the values of the right-hand side are replaced by what
the rule makes of them, or that is the value of the start symbol and the parser has accepted. -/
theorem reduce_written (ho : OrdOk ord) (hc : compile ord ds = .ok t) (sem : Sem V X E) {n : Nat} {u : URule} (hu : (rulesOf ds)[n]? = some u)
    {p p' : Parser V X} (h : reduce t sem p n = .ok p' ()) :
    u.rhs.length ≤ p.stack.length ∧
    ∃ v, ruleValue ds sem u ((p.stack.take u.rhs.length).reverse.map (·.minor.val)) p.extra = (.ok v, p'.extra) ∧
      ((p'.status = p.status ∧ ∃ top, p'.stack = top :: p.stack.drop u.rhs.length ∧ top.minor.val = v) ∨
       (p'.stack = [] ∧ (p'.status = .accepted v ∨ (t.rootDt = none ∧ p'.status = .accepted sem.unit)))) := by
  obtain ⟨s⟩ := compile_cspec hc
  obtain ⟨b⟩ := bridge ho s.decls s.auto
  obtain ⟨w0, _, _, w3, _, w5⟩ := b.written ho hu
  obtain ⟨rc', hrc', htc⟩ := s.ruleCode_get w0
  rcases reduce_cases t sem p n with ⟨w, h1⟩ | ⟨rc, vs, hrc, hlen, hm, h2⟩
  · rw [h1] at h; cases h
  · have e : rc' = rc := by rw [hrc'] at hrc; exact Option.some.inj hrc
    subst e
    have hp := translateCode_pats htc
    have hplen : rc'.pats.length = u.rhs.length := by
      rw [hp]
      simp only [List.length_map]
      have := w3.length_eq
      unfold Grammar.rhsSyms at this
      rw [List.length_map] at this
      exact this.symm
    have hvs := matchPats_pick hm
    have hcode : ruleValue ds sem u ((p.stack.take u.rhs.length).reverse.map (·.minor.val)) p.extra = runCode sem rc'.code vs p.extra := by
      rw [hvs, hplen, hp]
      simp only [pickArgs_select]
      unfold ruleValue
      rcases w5 with ⟨k, c1, c2, c3⟩ | ⟨c1, c2, c3, c4⟩ | ⟨c1, c2, c3, c4, _⟩
      · rw [c1, c2, c3]; rfl
      · rw [c1, c2, c3]; rfl
      · rw [c1, c2, c3, c4]; rfl
    rw [hplen] at hlen h2
    refine ⟨hlen, ?_⟩
    rw [hcode]
    rcases h2 with ⟨e, x, h3, h4⟩ | ⟨v, x, lhs, top, rest, act, h3, h4, h5, h6, h7⟩
    · rw [h4] at h; cases h
    · refine ⟨v, ?_⟩
      rcases h7 with ⟨h8, h9⟩ | ⟨_, h8, h9⟩
      · rw [h9] at h
        rcases shift_cases t sem { p with stack := p.stack.drop u.rhs.length, extra := x, trace := .reduce n vs :: p.trace } act lhs ⟨rc'.lhsDt, v⟩ with ⟨_, _, h10⟩ | ⟨_, h10⟩
        · rw [h10] at h; cases h
        · rw [h10] at h
          cases h
          exact ⟨h3, .inl ⟨rfl, _, rfl, rfl⟩⟩
      · rw [h9] at h
        unfold accept at h
        split at h
        · split at h
          · cases h; exact ⟨h3, .inr ⟨rfl, .inl rfl⟩⟩
          · cases h
        · rename_i hn
          cases h; exact ⟨h3, .inr ⟨rfl, .inr ⟨hn, rfl⟩⟩⟩

/-- The rule may do without a block: no alias, exactly one element with a type. -/
def forwards (ds : List Decl) (u : URule) : Bool := u.rhs.all (fun e => !e.alias) && u.rhs.countP (typedElem ds) == 1

/-- C40, the refused rules: a typed left side, no block, and not exactly one typed element, or an alias -/
theorem C40_refused (ho : OrdOk ord) {u : URule} (hu : u ∈ rulesOf ds) (hcode : u.code = none) (ht : typedSym ds u.lhs = true)
    (hn : forwards ds u = false) : ∃ e, compile ord ds = .error e := by
  rcases hc : compile ord ds with e | t
  · exact ⟨e, rfl⟩
  · exfalso
    obtain ⟨s⟩ := compile_cspec hc
    obtain ⟨b⟩ := bridge ho s.decls s.auto
    obtain ⟨n, hn'⟩ := List.mem_iff_getElem?.1 hu
    obtain ⟨_, _, _, _, _, w5⟩ := b.written ho hn'
    rcases w5 with ⟨k, c1, _⟩ | ⟨_, c2, _⟩ | ⟨_, _, _, _, c5, c6⟩
    · rw [hcode] at c1; cases c1
    · rw [ht] at c2; cases c2
    · have : forwards ds u = true := by
        unfold forwards
        rw [List.countP_eq_length_filter, c5, Bool.and_eq_true, List.all_eq_true]
        exact ⟨fun e he => by rw [c6 e he]; rfl, rfl⟩
      rw [hn] at this; cases this

theorem select_one {α : Type} (f : α → Bool) : ∀ {l l' : List α} {e : α} {vs ws : List V} {v : V}, (∀ y ∈ l, f y = false) → f e = true →
    vs.length = l.length → select ((l ++ e :: l').map f) (vs ++ v :: ws) = v :: select (l'.map f) ws := by
  intro l
  induction l with
  | nil =>
    intro l' e vs ws v _ he hlen
    cases vs with
    | nil => simp [select, he]
    | cons => simp at hlen
  | cons a l ih =>
    intro l' e vs ws v hl he hlen
    cases vs with
    | nil => simp at hlen
    | cons w vs =>
      simp only [List.length_cons, Nat.add_right_cancel_iff] at hlen
      simp only [List.cons_append, List.map_cons, hl a List.mem_cons_self, select]
      exact ih (fun y hy => hl y (List.mem_cons_of_mem _ hy)) he hlen

/-- C40, the others: in an accepted grammar such a rule has one element with a type, and reducing by it leaves the value
of that element (counted from the right on the stack) and the extra argument as they are. -/
theorem C40_forwards (ho : OrdOk ord) (hc : compile ord ds = .ok t) (sem : Sem V X E) {n : Nat} {u : URule} (hu : (rulesOf ds)[n]? = some u)
    (hcode : u.code = none) (ht : typedSym ds u.lhs = true) :
    ∃ l e l', u.rhs = l ++ e :: l' ∧ typedElem ds e = true ∧ (∀ y ∈ l ++ l', typedElem ds y = false) ∧ (∀ y ∈ u.rhs, y.alias = false) ∧
      ∀ {p p' : Parser V X}, reduce t sem p n = .ok p' () → p'.extra = p.extra ∧ ∃ w, p.stack[l'.length]? = some w ∧
        ((p'.status = p.status ∧ ∃ top, p'.stack = top :: p.stack.drop u.rhs.length ∧ top.minor.val = w.minor.val) ∨
         (p'.stack = [] ∧ (p'.status = .accepted w.minor.val ∨ (t.rootDt = none ∧ p'.status = .accepted sem.unit)))) := by
  obtain ⟨l, e, l', h1, h2, h3, h4⟩ : ∃ l e l', u.rhs = l ++ e :: l' ∧ typedElem ds e = true ∧ (∀ y ∈ l ++ l', typedElem ds y = false) ∧
      (∀ y ∈ u.rhs, y.alias = false) := by
    have hf : forwards ds u = true := by
      by_contra hne
      obtain ⟨e, he⟩ := C40_refused (ord := ord) ho (List.mem_of_getElem? hu) hcode ht (by simpa using hne)
      rw [hc] at he; cases he
    unfold forwards at hf
    rw [Bool.and_eq_true, List.all_eq_true] at hf
    obtain ⟨ha, hcnt⟩ := hf
    have hcnt : u.rhs.countP (typedElem ds) = 1 := by simpa using hcnt
    obtain ⟨e, he, het⟩ := List.countP_pos_iff.1 (by rw [hcnt]; exact Nat.one_pos)
    obtain ⟨l, l', hl⟩ := List.append_of_mem he
    refine ⟨l, e, l', hl, het, ?_, fun y hy => by simpa using ha y hy⟩
    intro y hy
    rw [hl, List.countP_append, List.countP_cons, het] at hcnt
    simp only [if_true] at hcnt
    have hz : (l ++ l').countP (typedElem ds) = 0 := by rw [List.countP_append]; omega
    rw [List.countP_eq_zero] at hz
    simpa using hz y hy
  refine ⟨l, e, l', h1, h2, h3, h4, ?_⟩
  intro p p' h
  obtain ⟨hlen, v, h5, h6⟩ := reduce_written ho hc sem hu h
  have hlt : l'.length < p.stack.length := by rw [h1] at hlen; simp at hlen; omega
  obtain ⟨w, hw⟩ : ∃ w, p.stack[l'.length]? = some w := ⟨_, List.getElem?_eq_getElem hlt⟩
  have hv : v = w.minor.val ∧ p'.extra = p.extra := by
    unfold ruleValue at h5
    rw [hcode, ht] at h5
    simp only [if_true, Prod.mk.injEq, Except.ok.injEq] at h5
    obtain ⟨h5, h7⟩ := h5
    refine ⟨?_, h7.symm⟩
    have hsplit : (p.stack.take u.rhs.length).reverse.map (·.minor.val) =
        ((p.stack.drop (l'.length + 1)).take l.length).reverse.map (·.minor.val) ++ w.minor.val :: (p.stack.take l'.length).reverse.map (·.minor.val) := by
      have e1 : u.rhs.length = l'.length + 1 + l.length := by rw [h1]; simp; omega
      rw [e1, List.take_add (l := p.stack) (i := l'.length + 1), List.take_add_one, hw]
      simp
    rw [hsplit, h1, select_one (typedElem ds) (fun y hy => h3 y (List.mem_append_left _ hy)) h2 (by
      simp only [List.length_map, List.length_reverse, List.length_take, List.length_drop]
      rw [h1] at hlen; simp at hlen; omega)] at h5
    simpa using h5.symm
  refine ⟨hv.2, w, hw, ?_⟩
  rw [hv.1] at h6
  exact h6

/-- C40, untyped left sides: a rule without a block leaves `()`. -/
theorem C40_unit (ho : OrdOk ord) (hc : compile ord ds = .ok t) (sem : Sem V X E) {n : Nat} {u : URule} (hu : (rulesOf ds)[n]? = some u)
    (hcode : u.code = none) (ht : typedSym ds u.lhs = false) {p p' : Parser V X} (h : reduce t sem p n = .ok p' ()) :
    p'.extra = p.extra ∧ ((p'.status = p.status ∧ ∃ top, p'.stack = top :: p.stack.drop u.rhs.length ∧ top.minor.val = sem.unit) ∨
         (p'.stack = [] ∧ p'.status = .accepted sem.unit)) := by
  obtain ⟨_, v, h5, h6⟩ := reduce_written ho hc sem hu h
  unfold ruleValue at h5
  rw [hcode, ht] at h5
  simp only [Bool.false_eq_true, if_false, Prod.mk.injEq, Except.ok.injEq] at h5
  obtain ⟨rfl, h7⟩ := h5
  refine ⟨h7.symm, ?_⟩
  rcases h6 with h6 | ⟨h6, h8 | ⟨_, h8⟩⟩
  · exact .inl h6
  · exact .inr ⟨h6, h8⟩
  · exact .inr ⟨h6, h8⟩

/-! ## C26 -/

/-- C26 in full: an element with `?` derives the empty string and what its symbol derives, and nothing else. -/
def C26_statement : Prop :=
  ∀ (ord : List (SymbolId × SymbolId) → List (SymbolId × SymbolId)), OrdOk ord → ∀ (ds : List Decl) (t : Tables), compile ord ds = .ok t →
    ∀ (R : Run ord ds) (n k : Nat) (u : URule) (e : RhsElem), (rulesOf ds)[n]? = some u → u.rhs[k]? = some e → e.optional = true →
      ∃ X, (R.g.rhsSyms n)[k]? = some X ∧ Derives R.g [X] []

theorem derives_one {g : Grammar} {X S : SymbolId} (h1 : ∃ r, r < g.rules.length ∧ (g.rule r).lhs = X ∧ g.rhsSyms r = [])
    (h2 : ∃ r, r < g.rules.length ∧ (g.rule r).lhs = X ∧ g.rhsSyms r = [S])
    (h3 : ∀ r, r < g.rules.length → (g.rule r).lhs = X → g.rhsSyms r = [] ∨ g.rhsSyms r = [S]) (w : List SymbolId) :
    Derives g [X] w ↔ w = [X] ∨ w = [] ∨ Derives g [S] w := by
  constructor
  · intro h
    rcases Relation.ReflTransGen.cases_head h with h | ⟨β, ⟨a, b, r, hr, e1, e2⟩, h⟩
    · exact .inl h.symm
    · have hab : a = [] ∧ b = [] ∧ (g.rule r).lhs = X := by
        cases a with
        | nil => simp only [List.nil_append, List.cons.injEq] at e1; exact ⟨rfl, e1.2.symm, e1.1.symm⟩
        | cons x a => simp at e1
      obtain ⟨rfl, rfl, hl⟩ := hab
      simp only [List.nil_append, List.append_nil] at e2
      right
      rcases h3 r hr hl with h4 | h4
      · left
        rw [e2, h4] at h
        rcases Relation.ReflTransGen.cases_head h with h | ⟨γ, ⟨a, b, r, _, e1, _⟩, _⟩
        · exact h.symm
        · simp at e1
      · right; rw [e2, h4] at h; exact h
  · rintro (rfl | rfl | h)
    · exact Relation.ReflTransGen.refl
    · obtain ⟨r, hr, hl, h0⟩ := h1
      exact .single ⟨[], [], r, hr, by rw [hl]; rfl, by rw [h0]; rfl⟩
    · obtain ⟨r, hr, hl, h0⟩ := h2
      exact .head ⟨[], [], r, hr, by rw [hl]; rfl, by rw [h0]; rfl⟩ h

theorem forall₂_get {α β : Type} {R : α → β → Prop} {l : List α} {l' : List β} (h : List.Forall₂ R l l') {k : Nat} {a : α} (hk : l[k]? = some a) :
    ∃ b, l'[k]? = some b ∧ R a b := by
  induction h generalizing k with
  | nil => simp at hk
  | cons h1 _ ih =>
    cases k with
    | zero => simp only [List.getElem?_cons_zero, Option.some.injEq] at hk; subst hk; exact ⟨_, rfl, h1⟩
    | succ k => simp only [List.getElem?_cons_succ] at hk ⊢; exact ih hk

/-- C26: a single symbol with `?` derives the empty string or what the symbol derives, and nothing else.
Missing: `?` after a compound of tokens; there it is false, see `C26_false`. -/
theorem C26_partial (ho : OrdOk ord) (R : Run ord ds) {n k : Nat} {u : URule} {i : Ident} {al : Bool}
    (hu : (rulesOf ds)[n]? = some u) (hk : u.rhs[k]? = some ⟨[i], true, al⟩) :
    ∃ X S, (R.g.rhsSyms n)[k]? = some X ∧ (R.g.sym S).name = .ident i ∧ ∀ w, Derives R.g [X] w ↔ w = [X] ∨ w = [] ∨ Derives R.g [S] w := by
  obtain ⟨b⟩ := bridge ho R.decls R.auto
  obtain ⟨_, _, _, w3, _, _⟩ := b.written ho hu
  obtain ⟨X, hX, he⟩ := forall₂_get w3 hk
  rcases he with ⟨_, _, h2, _⟩ | ⟨tok, S, h1, _, h3, h4, h5⟩ | ⟨h1, _⟩
  · cases h2
  · simp only [List.cons.injEq, and_true] at h1
    subst h1
    refine ⟨X, S, hX, by rw [b.name h3]; exact h5, ?_⟩
    obtain ⟨⟨r1, a1, _, a3, a4, _⟩, r2, c1, _, c3, c4, _⟩ := b.opt_rules ho h4
    refine derives_one ⟨r1, a1, a3, by unfold Grammar.rhsSyms; rw [a4]; rfl⟩ ⟨r2, c1, c3, by unfold Grammar.rhsSyms; rw [c4]; rfl⟩ ?_
    intro r hr hl
    obtain ⟨_, _, _, kk, _, hn⟩ := b.opt_name h4
    by_cases hlt : r < (rulesOf ds).length
    · obtain ⟨_, _, w2, _⟩ := b.written ho (List.getElem?_eq_getElem hlt)
      rw [hl] at w2
      rw [w2] at hn
      cases hn
    · obtain ⟨o, o1, o2, o3⟩ := b.unwritten ho hr (Nat.le_of_not_lt hlt)
      have : o = (S, X) := b.opt_inj o1 h4 (by rw [← o2, hl])
      subst this
      rcases o3 with ⟨o3, _⟩ | ⟨o3, _⟩
      · left; unfold Grammar.rhsSyms; rw [o3]; rfl
      · right; unfold Grammar.rhsSyms; rw [o3]; rfl
  · exact absurd rfl (h1 i)

/-- C26, the values: a reduction by a rule that was not written replaces nothing by `None`, or a value `v` by `Some(v)`. -/
theorem C26_values (ho : OrdOk ord) (hc : compile ord ds = .ok t) (R : Run ord ds) (sem : Sem V X E) {r : Nat} (hr : (rulesOf ds).length ≤ r)
    {p p' : Parser V X} (h : reduce t sem p r = .ok p' ()) :
    p'.extra = p.extra ∧ p'.status = p.status ∧
    ((R.g.rhsSyms r = [] ∧ ∃ top, p'.stack = top :: p.stack ∧ top.minor.val = sem.none) ∨
     (∃ S, R.g.rhsSyms r = [S] ∧ ∃ e rest top, p.stack = e :: rest ∧ p'.stack = top :: rest ∧ top.minor.val = sem.some e.minor.val)) := by
  obtain ⟨b⟩ := bridge ho (R.cspec hc).decls (R.cspec hc).auto
  rcases reduce_cases t sem p r with ⟨w, h1⟩ | ⟨rc, vs, hrc, hlen, hm, h2⟩
  · rw [h1] at h; cases h
  · have hrl : r < R.g.rules.length := by
      have hl := (R.cspec hc).gen.ruleCode
      have h3 := (List.getElem?_eq_some_iff.1 hrc).1
      rw [hl] at h3
      have h4 := (mapM_except_forall₂ (R.cspec hc).gen.rcEq).length_eq
      rw [← h4, show (R.cspec hc).gen.gT.rules = R.g.rules from (assignTypes_shape (R.cspec hc).gen.assign).2.1] at h3
      exact h3
    obtain ⟨rc', hrc', htc⟩ := (R.cspec hc).ruleCode_get hrl
    have e : rc' = rc := by rw [hrc'] at hrc; exact Option.some.inj hrc
    subst e
    have hp := translateCode_pats htc
    obtain ⟨o, o1, o2, o3⟩ := b.unwritten ho hrl hr
    obtain ⟨_, _, _, kk, _, hon⟩ := b.opt_name o1
    have hvs := matchPats_pick hm
    have hshape : ∀ v, runCode sem rc'.code vs p.extra = (.ok v, p.extra) → p'.extra = p.extra ∧ p'.status = p.status ∧
        ∃ top, p'.stack = top :: p.stack.drop rc'.pats.length ∧ top.minor.val = v := by
      intro v hv
      rcases h2 with ⟨e, x, h3, h4⟩ | ⟨v', x, lhs, top, rest, act, h3, h4, h5, h6, h7⟩
      · rw [h4] at h; cases h
      · rw [hv] at h3
        cases h3
        rcases h7 with ⟨h8, h9⟩ | ⟨_, h8, h9⟩
        · rw [h9] at h
          rcases shift_cases t sem { p with stack := p.stack.drop rc'.pats.length, extra := p.extra, trace := .reduce r vs :: p.trace } act lhs ⟨rc'.lhsDt, v⟩ with ⟨_, _, h10⟩ | ⟨_, h10⟩
          · rw [h10] at h; cases h
          · rw [h10] at h
            cases h
            exact ⟨rfl, rfl, _, rfl, rfl⟩
        · exfalso
          obtain ⟨st, i, g1, g2, g3, g4, g5⟩ := b.start_name ((R.cspec hc).ginv ho)
          have hlhs : ((R.cspec hc).g.rule r).lhs = (R.cspec hc).g.start.getD 0 := by
            by_contra hne
            obtain ⟨_, n2⟩ := (R.cspec hc).nStates ho
            rcases (R.cspec hc).findReduce_harmless ho (by rw [n2]; exact hrl) hne h4 h6 with h | h | ⟨r', h, h', _⟩
            · omega
            · omega
            · omega
          rw [g1, Option.getD_some, o2] at hlhs
          rw [hlhs, g3] at hon
          cases hon
    rcases o3 with ⟨o3, o4⟩ | ⟨o3, o4⟩
    · have hpl : rc'.pats.length = 0 := by rw [hp]; simp only [List.length_map]; rw [o3]; rfl
      obtain ⟨a1, a2, top, a3, a4⟩ := hshape sem.none (by rw [hp]; simp only; rw [o4]; rfl)
      rw [hpl] at a3
      exact ⟨a1, a2, .inl ⟨by show List.map _ ((R.cspec hc).g.rule r).rhs = _; rw [o3]; rfl, top, a3, a4⟩⟩
    · have hpl : rc'.pats.length = 1 := by rw [hp]; simp only [List.length_map]; rw [o3]; rfl
      rw [hpl] at hlen hvs
      cases hst : p.stack with
      | nil => rw [hst] at hlen; simp at hlen
      | cons e rest =>
        rw [hst, hp] at hvs
        simp only [o3] at hvs
        obtain ⟨a1, a2, top, a3, a4⟩ := hshape (sem.some e.minor.val) (by
          rw [hvs, hp]; simp only; rw [o4]; simp [runCode, pickArgs])
        rw [hpl, hst] at a3
        exact ⟨a1, a2, .inr ⟨o.1, by show List.map _ ((R.cspec hc).g.rule r).rhs = _; rw [o3]; rfl, e, rest, top, rfl, a3, a4⟩⟩

/-! ## Where C26 fails, and where the hypotheses are met -/

namespace Codex
open Tests (U L s r logSem)
open Examples

/-- `s ::= A|B? C` -/
def compound : List Decl := [r (L 0) [⟨[U 1, U 2], true, false⟩, s (U 3)]]

/-- No rule of the grammar of the run has the symbol at position `k` of rule `n` on its left. -/
def noRuleFor (n k : Nat) (R : Run id ds) : Bool :=
  match (R.g.rhsSyms n)[k]? with
  | some X => (List.range R.g.rules.length).all (fun r => (R.g.rule r).lhs != X)
  | none => true

theorem noRuleFor_iff {n k : Nat} (R : Run id ds) (h : noRuleFor n k R = true) : ¬ ∃ X, (R.g.rhsSyms n)[k]? = some X ∧ Derives R.g [X] [] := by
  rintro ⟨X, hX, hd⟩
  unfold noRuleFor at h
  rw [hX] at h
  simp only [List.all_eq_true, List.mem_range, bne_iff_ne] at h
  rcases Relation.ReflTransGen.cases_head hd with h1 | ⟨β, ⟨a, b, r, hr, e1, _⟩, _⟩
  · cases h1
  · cases a with
    | nil => simp only [List.nil_append, List.cons.injEq] at e1; exact h r hr e1.1.symm
    | cons x a => simp at e1

end Codex

open Codex in
/-- C26 fails: `?` after a compound of tokens has no effect. -/
theorem C26_false : ¬ C26_statement := by
  intro h
  have hc : compile id compound = .ok (Examples.tablesOf compound) := Examples.compiles_iff (by decide +kernel)
  obtain ⟨R⟩ := run_exists hc
  exact (run_of_test (by decide +kernel) (noRuleFor_iff (n := 0) (k := 0))) R
    (h id OrdOk.id compound _ hc R 0 0 _ _ rfl rfl rfl)

namespace Codex
open Tests (U L s r logSem)
open Examples

-- the parser of `s ::= A|B? C` takes `A C` but not `C`
example : C01ex.acceptedB (tablesOf compound) logSem (tk [1, 3]) 0 [] = true ∧ C01ex.outcome (tablesOf compound) logSem (tk [3]) = none := by
  decide +kernel

/-- `%type Num i; %type s i; %type e i; s ::= e; e ::= LP e RP; e ::= Num Minus?`;
refused because of `Minus?`, which has a type -/
def twoTyped : List Decl :=
  [ .type false (U 1) (some (.named 0)), .type false (L 0) (some (.named 0)), .type false (L 1) (some (.named 0))
  , r (L 0) [s (L 1)], r (L 1) [s (U 2), s (L 1), s (U 3)], r (L 1) [s (U 1), s (U 4) false true] ]

-- the hypotheses of `C40_refused` are met
example : ∃ e, compile id twoTyped = .error e :=
  C40_refused (u := ⟨L 1, [s (U 1), s (U 4) false true], none, none⟩) OrdOk.id (by decide) rfl (by decide) (by decide)
-- an alias is refused as well, and so is a rule without a typed element
example : compiles [.type false (L 0) (some (.named 0)), .type false (U 1) (some (.named 0)), r (L 0) [s (U 1)]] = true ∧
    compiles [.type false (L 0) (some (.named 0)), .type false (U 1) (some (.named 0)), r (L 0) [s (U 1) true]] = false ∧
    compiles [.type false (L 0) (some (.named 0)), r (L 0) [s (U 1)]] = false := by decide +kernel

/-- `%type Num i; %type s i; %type e i; %type o Option<i>; s ::= e; e ::= LP e RP; e ::= Num; e ::= Neg o(A) { 0 }; o ::= Num?; `;
numbers: Num 1, LP 2, RP 3, Neg 4 -/
def nested : List Decl :=
  [ .type false (U 1) (some (.named 0)), .type false (L 0) (some (.named 0)), .type false (L 1) (some (.named 0)), .type false (L 2) (some (.named 1))
  , r (L 0) [s (L 1)], r (L 1) [s (U 2), s (L 1), s (U 3)], r (L 1) [s (U 1)], r (L 1) [s (U 4), s (L 2) true, s (U 3)] (some 0)
  , r (L 2) [s (U 1) false true] ]

/-- The block returns its argument; `Some(v)` is `v + 1`, `None` is 1000. -/
def nestedSem : Sem Int (List Nat) Unit :=
  { Tests.sem (fun n vs x => (.ok (vs.headD (-1)), x ++ [n])) (fun _ _ x => (.error (), x)) with some := fun v => v + 1 }

-- `LP LP Num(7) RP RP` gives 7, forwarded five times; `LP Neg Num(7) RP RP` gives `Some(7)`; `Neg RP` gives `None`
example : C01ex.acceptedB (tablesOf nested) nestedSem [⟨2, 0⟩, ⟨2, 0⟩, ⟨1, 7⟩, ⟨3, 0⟩, ⟨3, 0⟩] 7 [] = true ∧
    C01ex.acceptedB (tablesOf nested) nestedSem [⟨2, 0⟩, ⟨4, 0⟩, ⟨1, 7⟩, ⟨3, 0⟩, ⟨3, 0⟩] 8 [0] = true ∧
    C01ex.acceptedB (tablesOf nested) nestedSem [⟨4, 0⟩, ⟨3, 0⟩] 1000 [0] = true := by decide +kernel

/-- A parser that has read some tokens and then reduces by rule `r`, with a test of the result -/
def reduceB (t : Tables) (m : Sem Int (List Nat) Unit) (toks : List (Tok Int)) (r : Nat) (f : Parser Int (List Nat) → Bool) : Bool :=
  match feed t m 1000 (Parser.new m []) toks with
  | some (.ok p ()) => match reduce t m p r with
    | .ok p' () => f p'
    | _ => false
  | _ => false

-- the reductions of the theorems happen: rule 2 after `LP Num(7)` leaves 7,
-- the rules of `Num?` leave `None` and `Some(7)`
example : reduceB (tablesOf nested) nestedSem [⟨2, 0⟩, ⟨1, 7⟩] 2 (fun p => p.stack.map (·.minor.val) == [7, 0, 0]) = true ∧
    reduceB (tablesOf nested) nestedSem [⟨4, 0⟩] 5 (fun p => p.stack.map (·.minor.val) == [1000, 0, 0]) = true ∧
    reduceB (tablesOf nested) nestedSem [⟨4, 0⟩, ⟨1, 7⟩] 6 (fun p => p.stack.map (·.minor.val) == [8, 0, 0]) = true := by decide +kernel

-- `Num?` in `o ::= Num?`
example (R : Run id nested) : ∃ X S, (R.g.rhsSyms 4)[0]? = some X ∧ (R.g.sym S).name = .ident (U 1) ∧
    ∀ w, Derives R.g [X] w ↔ w = [X] ∨ w = [] ∨ Derives R.g [S] w :=
  C26_partial (u := ⟨L 2, [⟨[U 1], true, false⟩], none, none⟩) (al := false) OrdOk.id R rfl rfl
example : Nonempty (Run id nested) := run_exists (compiles_iff (by decide +kernel) : compile id nested = .ok _)

end Codex

end Pomelo
