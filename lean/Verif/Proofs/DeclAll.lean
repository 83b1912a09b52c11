import Verif.Proofs.DeclInv
/-! # The declarations keep the invariant: rules and whole declaration lists -/

namespace Pomelo

theorem askOk_tok {tok : Ident} {k : SymKind}
    (h : (if tok.isTerminal then some SymKind.terminal
      else if tok.isNonTerminal then some SymKind.nonTerminal else none) = some k) :
    askOk (.ident tok) k = true ∧ (SymName.isTok (.ident tok) = true ∨ SymName.isNt (.ident tok) = true) := by
  cases tok <;> simp [Ident.isTerminal, Ident.isNonTerminal] at h <;> subst h <;> simp [askOk, SymName.isTok, SymName.isNt]

theorem DInv.declElem {g g' : Grammar} {e : RhsElem} {x : RhsSym} (h : DInv g)
    (he : g.declElem e = .ok (g', x)) :
    DInv g' ∧ DLe g g' ∧ g'.rules = g.rules ∧ x.sym < g'.syms.length ∧ (g'.sym x.sym).name ≠ .dollar ∧
    ElemRec g' e x := by
  unfold Grammar.declElem at he
  split at he
  · rename_i tok htoks
    rcases hk : (if tok.isTerminal then some SymKind.terminal
      else if tok.isNonTerminal then some SymKind.nonTerminal else none) with _ | k
    · simp only [hk] at he
      cases he
    · simp only [hk] at he
      obtain ⟨ha, hn⟩ := askOk_tok hk
      obtain ⟨h1, h2, h3, h4, h5⟩ := h.symbolNew ha
      rcases hs : g.symbolNew (.ident tok) k with ⟨g1, s⟩
      rw [hs] at he h1 h2 h3 h4 h5
      simp only at he h1 h2 h3 h4 h5
      split at he
      · rename_i hopt
        split at he
        · -- the optional symbol exists
          rename_i symL hl
          simp only [Except.ok.injEq, Prod.mk.injEq] at he
          obtain ⟨rfl, rfl⟩ := he
          obtain ⟨l1, l2, hl1, hl2⟩ := List.lookup_eq_some_iff.1 hl
          have hmem : (s, symL) ∈ g1.optionals := by rw [hl1]; simp
          obtain ⟨i, hi, hi'⟩ := List.getElem_of_mem hmem
          have ho := h1.opts i s symL (by rw [List.getElem?_eq_getElem hi, hi'])
          refine ⟨h1, h2, h5.rules, ho.2.1, ?_, rfl, .inr (.inl ⟨tok, s, htoks, hopt, h3, hmem, h4⟩)⟩
          rw [ho.2.2.2]; intro hh; cases hh
        · rename_i hl
          obtain ⟨a1, a2, a3⟩ := h1.addOpt h3 (by rw [h4]; exact hn) hl
          rw [a1] at he
          simp only [Except.ok.injEq, Prod.mk.injEq] at he
          obtain ⟨rfl, rfl⟩ := he
          refine ⟨a2, h2.trans a3, h5.rules, ?_, ?_, rfl, .inr (.inl ⟨tok, s, htoks, hopt, ?_, ?_, ?_⟩)⟩
          · show g1.syms.length < (g1.pushSym _).syms.length
            simp
          · show ((g1.pushSym _).sym g1.syms.length).name ≠ _
            rw [sym_pushSym_last]; intro hh; cases hh
          · show s < (g1.pushSym _).syms.length
            rw [length_pushSym]; exact Nat.lt_succ_of_lt h3
          · show (s, g1.syms.length) ∈ g1.optionals ++ [(s, g1.syms.length)]
            simp
          · show ((g1.pushSym _).sym s).name = _
            rw [sym_pushSym_lt h3, h4]
      · rename_i hopt
        simp only [Except.ok.injEq, Prod.mk.injEq] at he
        obtain ⟨rfl, rfl⟩ := he
        refine ⟨h1, h2, h5.rules, h3, ?_, rfl, .inl ⟨tok, htoks, by simpa using hopt, h4⟩⟩
        rw [h4]; intro hh; cases hh
  · rename_i hns
    obtain ⟨h1, h2, h3, h4, h5⟩ := h.symbolNew (name := .anon) (k := .multiTerminal) rfl
    have hnew : g.symbolNew .anon .multiTerminal = (g.pushSym { name := .anon, kind := .multiTerminal }, g.syms.length) := by
      unfold Grammar.symbolNew Grammar.pushSym; simp
    rw [hnew] at he h1 h2 h3 h4 h5
    simp only at he h1 h2 h3 h4 h5
    split at he
    · cases he
    · rename_i g2 ss hd
      simp only [Except.ok.injEq, Prod.mk.injEq] at he
      obtain ⟨rfl, rfl⟩ := he
      obtain ⟨i1, i2, i3, i4⟩ := h1.declTokens hd
      have hlt : g.syms.length < g2.syms.length := Nat.lt_of_lt_of_le h3 i2.len
      have hname : (g2.sym g.syms.length).name = .anon := by rw [i2.name _ h3, h4]
      have hsub0 : (g2.sym g.syms.length).subs = [] := by
        rw [i2.subs _ h3 (by rw [h4]; rfl), sym_pushSym_last]
      have hkind : (g2.sym g.syms.length).kind = .multiTerminal := by
        have := i1.kinds _ hlt
        rw [hname] at this
        revert this
        cases (g2.sym g.syms.length).kind <;> simp [kindOk]
      have hss : ∀ m ∈ ss, m < g2.syms.length ∧ (g2.sym m).name.isTok = true := by
        intro m hm
        obtain ⟨id, _, hh⟩ := forall₂_exists_right i4 hm
        exact ⟨hh.1, hh.2.2⟩
      have k1 : DInv (g2.modifySym g.syms.length (fun b => { b with subs := b.subs ++ ss })) := by
        refine i1.modify (fun _ => rfl) (fun _ => rfl) (fun _ => rfl) (fun _ => rfl) ?_ ?_ ?_ ?_
        · exact i1.kinds _
        · intro hl m hm
          rw [hsub0] at hm
          exact hss m (by simpa using hm)
        · intro _ _; exact hkind
        · exact i1.fb _
      have hle : DLe g (g2.modifySym g.syms.length (fun b => { b with subs := b.subs ++ ss })) := by
        have h02 := h2.trans i2
        have hne : ∀ s, s < g.syms.length → (g2.modifySym g.syms.length (fun b => { b with subs := b.subs ++ ss })).sym s = g2.sym s :=
          fun s hs => sym_modifySym_ne (Nat.ne_of_lt hs)
        refine ⟨by simpa using h02.len, ?_, ?_, ?_, ?_, h02.rules, h02.opts⟩
        · intro s hs; rw [hne s hs]; exact h02.name s hs
        · intro s hs; rw [hne s hs]; exact h02.kind s hs
        · intro s hs; rw [hne s hs]; exact h02.subs s hs
        · intro s hs; rw [hne s hs]; exact h02.subsPre s hs
      have hn' : ∀ x, ((g2.modifySym g.syms.length (fun b => { b with subs := b.subs ++ ss })).sym x).name = (g2.sym x).name :=
        fun x => proj_modifySym Symbol.name (g := g2) (f := fun b => { b with subs := b.subs ++ ss }) (fun _ => rfl) x
      refine ⟨k1, hle, ?_, by simpa using hlt, ?_, rfl, .inr (.inr ⟨hns, ?_, ?_⟩)⟩
      · show g2.rules = g.rules
        rw [i3.rules]; rfl
      · show ((g2.modifySym _ _).sym g.syms.length).name ≠ _
        rw [hn', hname]; intro hh; cases hh
      · show ((g2.modifySym _ _).sym g.syms.length).name = _
        rw [hn', hname]
      · show List.Forall₂ _ ((g2.modifySym _ _).sym g.syms.length).subs e.toks
        rw [sym_modifySym_same hlt]
        simp only [hsub0, List.nil_append]
        refine List.Forall₂.imp ?_ i4
        intro s id ⟨a, b, c⟩
        exact ⟨by simpa using a, by rw [hn']; exact b⟩

theorem DInv.declRhs : ∀ {es : List RhsElem} {g g' : Grammar} {xs : List RhsSym}, DInv g →
    g.declRhs es = .ok (g', xs) →
    DInv g' ∧ DLe g g' ∧ g'.rules = g.rules ∧
    (∀ x ∈ xs, x.sym < g'.syms.length ∧ (g'.sym x.sym).name ≠ .dollar) ∧
    List.Forall₂ (ElemRec g') es xs := by
  intro es
  induction es with
  | nil =>
    intro g g' xs h he
    simp only [Grammar.declRhs, Except.ok.injEq, Prod.mk.injEq] at he
    obtain ⟨rfl, rfl⟩ := he
    exact ⟨h, DLe.refl _, rfl, by simp, .nil⟩
  | cons e es ih =>
    intro g g' xs h he
    unfold Grammar.declRhs at he
    split at he
    · cases he
    · rename_i g1 x h1
      split at he
      · cases he
      · rename_i g2 xs' h2
        simp only [Except.ok.injEq, Prod.mk.injEq] at he
        obtain ⟨rfl, rfl⟩ := he
        obtain ⟨a1, a2, a3, a4, a5, a6⟩ := h.declElem h1
        obtain ⟨b1, b2, b3, b4, b5⟩ := ih a1 h2
        refine ⟨b1, a2.trans b2, b3.trans a3, ?_, .cons (b2.elemRec a4 a6) b5⟩
        intro y hy
        rcases List.mem_cons.1 hy with rfl | hy
        · exact ⟨Nat.lt_of_lt_of_le a4 b2.len, by rw [b2.name _ a4]; exact a5⟩
        · exact b4 y hy

/-! ## Rules -/

theorem rule_createRule_lt {g : Grammar} {l : SymbolId} {rs : List RhsSym} {c : Option Code} {p : Option SymbolId}
    {r : RuleId} (h : r < g.rules.length) : (g.createRule l rs c p).rule r = g.rule r := by
  simp [Grammar.createRule, Grammar.modifySym, Grammar.rule, List.getElem?_append_left h]

theorem rule_createRule_last {g : Grammar} {l : SymbolId} {rs : List RhsSym} {c : Option Code} {p : Option SymbolId} :
    (g.createRule l rs c p).rule g.rules.length = { lhs := l, rhs := rs, code := c, precSym := p } := by
  simp [Grammar.createRule, Grammar.modifySym, Grammar.rule]

theorem rules_createRule {g : Grammar} {l : SymbolId} {rs : List RhsSym} {c : Option Code} {p : Option SymbolId} :
    (g.createRule l rs c p).rules = g.rules ++ [{ lhs := l, rhs := rs, code := c, precSym := p }] := rfl

theorem length_createRule {g : Grammar} {l : SymbolId} {rs : List RhsSym} {c : Option Code} {p : Option SymbolId} :
    (g.createRule l rs c p).syms.length = g.syms.length := by
  simp [Grammar.createRule, Grammar.modifySym]

/-- `create_rule` changes nothing of a symbol but its list of rules. -/
theorem sym_createRule {g : Grammar} {l : SymbolId} {rs : List RhsSym} {c : Option Code} {p : Option SymbolId}
    (x : SymbolId) : (g.createRule l rs c p).sym x =
      if x = l ∧ l < g.syms.length then { g.sym x with rules := (g.sym x).rules ++ [g.rules.length] } else g.sym x := by
  unfold Grammar.createRule
  simp only
  rw [sym_modifySym]
  rfl

theorem proj_createRule {β : Type} (π : Symbol → β) {g : Grammar} {l : SymbolId} {rs : List RhsSym} {c : Option Code}
    {p : Option SymbolId} (hπ : ∀ (b : Symbol) rs, π { b with rules := rs } = π b) (x : SymbolId) :
    π ((g.createRule l rs c p).sym x) = π (g.sym x) := by
  rw [sym_createRule]; split
  · exact hπ _ _
  · rfl

theorem rulesOf_createRule {g : Grammar} {l : SymbolId} {rs : List RhsSym} {c : Option Code} {p : Option SymbolId}
    (hl : l < g.syms.length) {s : SymbolId}
    (h : (g.sym s).rules = (List.range g.rules.length).filter (fun r => (g.rule r).lhs == s)) :
    ((g.createRule l rs c p).sym s).rules =
      (List.range (g.createRule l rs c p).rules.length).filter (fun r => ((g.createRule l rs c p).rule r).lhs == s) := by
  have hf : (List.range g.rules.length).filter (fun r => ((g.createRule l rs c p).rule r).lhs == s)
      = (List.range g.rules.length).filter (fun r => (g.rule r).lhs == s) := by
    apply List.filter_congr
    intro r hr
    rw [rule_createRule_lt (List.mem_range.1 hr)]
  rw [rules_createRule, List.length_append, List.length_singleton, List.range_succ, List.filter_append, hf, ← h,
    sym_createRule]
  by_cases hs : s = l
  · subst hs
    rw [if_pos ⟨rfl, hl⟩]
    simp [rule_createRule_last]
  · rw [if_neg (fun hh => hs hh.1)]
    have : ¬ l = s := fun e => hs e.symm
    simp [rule_createRule_last, this]

/-- How a rule declaration is recorded -/
def RuleRec (g : Grammar) (lhs : Ident) (rhs : List RhsElem) (action : Option Nat) (prec : Option Ident) (r : Rule) : Prop :=
  (g.sym r.lhs).name = .ident lhs ∧ List.Forall₂ (ElemRec g) rhs r.rhs ∧ r.code = action.map Code.user ∧
  (match prec, r.precSym with
   | none, none => True
   | some id, some p => (g.sym p).name = .ident id
   | _, _ => False)

theorem DInv.createRule {g : Grammar} (h : DInv g) {l : SymbolId} {rs : List RhsSym} {n : Option Nat} {p : Option SymbolId}
    (hl : l < g.syms.length ∧ (g.sym l).name.isNt = true)
    (hrs : ∀ x ∈ rs, x.sym < g.syms.length ∧ (g.sym x.sym).name ≠ .dollar)
    (hp : ∀ x, p = some x → x < g.syms.length ∧ (g.sym x).name.isTok = true) :
    DInv (g.createRule l rs (n.map Code.user) p) ∧ DLe g (g.createRule l rs (n.map Code.user) p) := by
  have hn : ∀ x, ((g.createRule l rs (n.map Code.user) p).sym x).name = (g.sym x).name :=
    fun x => proj_createRule Symbol.name (fun _ _ => rfl) x
  have hk : ∀ x, ((g.createRule l rs (n.map Code.user) p).sym x).kind = (g.sym x).kind :=
    fun x => proj_createRule Symbol.kind (fun _ _ => rfl) x
  have hsub : ∀ x, ((g.createRule l rs (n.map Code.user) p).sym x).subs = (g.sym x).subs :=
    fun x => proj_createRule Symbol.subs (fun _ _ => rfl) x
  have hfb : ∀ x, ((g.createRule l rs (n.map Code.user) p).sym x).fallback = (g.sym x).fallback :=
    fun x => proj_createRule Symbol.fallback (fun _ _ => rfl) x
  have hfs : ∀ x, ((g.createRule l rs (n.map Code.user) p).sym x).firstSet = (g.sym x).firstSet :=
    fun x => proj_createRule Symbol.firstSet (fun _ _ => rfl) x
  have hla : ∀ x, ((g.createRule l rs (n.map Code.user) p).sym x).lambda = (g.sym x).lambda :=
    fun x => proj_createRule Symbol.lambda (fun _ _ => rfl) x
  have hlen : (g.createRule l rs (n.map Code.user) p).syms.length = g.syms.length := length_createRule
  have hrl : (g.createRule l rs (n.map Code.user) p).rules.length = g.rules.length + 1 := by
    rw [rules_createRule]; simp
  have hr : ∀ r, r < g.rules.length + 1 →
      (r < g.rules.length ∧ (g.createRule l rs (n.map Code.user) p).rule r = g.rule r) ∨
      (r = g.rules.length ∧ (g.createRule l rs (n.map Code.user) p).rule r =
        { lhs := l, rhs := rs, code := n.map Code.user, precSym := p }) := by
    intro r hr
    by_cases e : r < g.rules.length
    · exact .inl ⟨e, rule_createRule_lt e⟩
    · have : r = g.rules.length := by omega
      subst this; exact .inr ⟨rfl, rule_createRule_last⟩
  refine ⟨?_, ?_⟩
  · constructor
    · rw [hlen]; exact h.symbols
    · rw [hlen]; exact h.two
    · rw [hn]; exact h.dollar
    · rw [hn]; exact h.errName
    · exact h.errSym
    · rw [hlen]; intro i j; rw [hn, hn]; exact h.names i j
    · rw [hlen]; intro x; rw [hn, hk]; exact h.kinds x
    · rw [hlen]; intro x; rw [hn]; exact h.noDflt x
    · rw [hlen]; intro x; rw [hfs, hla]; exact h.plain x
    · rw [hlen]; intro x hx m; rw [hsub, hn]; exact h.subs x hx m
    · rw [hlen]; intro x; rw [hsub, hk]; exact h.subsKind x
    · rw [hlen]; intro x hx y; rw [hfb, hn, hn]; exact h.fb x hx y
    · rw [hlen]; intro x hx
      exact rulesOf_createRule hl.1 (h.rulesOf x hx)
    · rw [hrl, hlen]; intro r hr'
      rcases hr r hr' with ⟨a, e⟩ | ⟨a, e⟩ <;> rw [e, hn]
      · exact h.lhs r a
      · exact hl
    · rw [hrl, hlen]; intro r hr' x hx
      rw [hn]
      rcases hr r hr' with ⟨a, e⟩ | ⟨a, e⟩ <;> rw [e] at hx
      · exact h.rhs r a x hx
      · exact hrs x hx
    · rw [hrl, hlen]; intro r hr' x hx
      rw [hn]
      rcases hr r hr' with ⟨a, e⟩ | ⟨a, e⟩ <;> rw [e] at hx
      · exact h.precSym r a x hx
      · exact hp x hx
    · rw [hrl]; intro r hr'
      rcases hr r hr' with ⟨a, e⟩ | ⟨a, e⟩ <;> rw [e]
      · exact h.fresh r a
      · refine ⟨rfl, rfl, ?_⟩
        intro c hc
        cases n with
        | none => cases hc
        | some n => exact ⟨n, by simpa using hc.symm⟩
    · rw [hlen]; intro x hx; rw [hn]; exact h.start x hx
    · rw [hlen]; intro x hx; rw [hn]; exact h.wild x hx
    · exact h.optKeys
    · rw [hlen]; intro k a b; rw [hn, hn]; exact h.opts k a b
    · rw [hlen]; intro x hx k; rw [hn]; exact h.optNames x hx k
  · constructor
    · rw [hlen]; exact Nat.le_refl _
    · intro x _; rw [hn]
    · intro x _; rw [hk]; exact .inl rfl
    · intro x _ _; rw [hsub]
    · intro x _; rw [hsub]; exact List.prefix_refl _
    · exact List.prefix_append _ _
    · exact List.prefix_refl _

/-- Setting the start symbol -/
theorem DInv.setStart {g : Grammar} (h : DInv g) {s : SymbolId}
    (hs : s < g.syms.length ∧ (g.sym s).name.isNt = true) : DInv { g with start := some s } := by
  obtain ⟨a1, a2, a3, a4, a5, a6, a7, a8, a9, a10, a11, a12, a13, a14, a15, a16, a17, a18, a19, a20, a21, a22⟩ := h
  refine ⟨a1, a2, a3, a4, a5, a6, a7, a8, a9, a10, a11, a12, a13, a14, a15, a16, a17, ?_, a19, a20, a21, a22⟩
  intro x hx
  cases hx
  exact hs

theorem DInv.setWild {g : Grammar} (h : DInv g) {s : SymbolId}
    (hs : s < g.syms.length ∧ (g.sym s).name.isTok = true) : DInv { g with wildcard := some s } := by
  obtain ⟨a1, a2, a3, a4, a5, a6, a7, a8, a9, a10, a11, a12, a13, a14, a15, a16, a17, a18, a19, a20, a21, a22⟩ := h
  refine ⟨a1, a2, a3, a4, a5, a6, a7, a8, a9, a10, a11, a12, a13, a14, a15, a16, a17, a18, ?_, a20, a21, a22⟩
  intro x hx
  cases hx
  exact hs

/-- The rule declarations, as tuples -/
def Decl.rule? : Decl → Option (Ident × List RhsElem × Option Nat × Option Ident)
  | .rule l r a p => some (l, r, a, p)
  | _ => none

/-- What one declaration does to the list of rules -/
def RulesStep (g g' : Grammar) (d : Decl) : Prop :=
  match d with
  | .rule l rhs a p => ∃ r, g'.rules = g.rules ++ [r] ∧ RuleRec g' l rhs a p r
  | _ => g'.rules = g.rules

theorem DInv.parseOneDecl {g g' : Grammar} {d : Decl} (h : DInv g) (he : g.parseOneDecl d = .ok g') :
    DInv g' ∧ DLe g g' ∧ RulesStep g g' d := by
  unfold Grammar.parseOneDecl at he
  have trivialCase : ∀ g'' : Grammar, g''.syms = g.syms → g''.symbols = g.symbols →
    g''.rules = g.rules → g''.errorSymbol = g.errorSymbol → g''.start = g.start →
    g''.wildcard = g.wildcard → g''.optionals = g.optionals → DInv g'' ∧ DLe g g'' ∧ g''.rules = g.rules :=
    fun g'' h1 h2 h3 h4 h5 h6 h7 => ⟨h.congr h1 h2 h3 h4 h5 h6 h7, DLe.congr h1 h3 h7, h3⟩
  split at he
  · cases he; exact ⟨h, DLe.refl _, rfl⟩
  · cases he; exact ⟨h, DLe.refl _, rfl⟩
  · cases he; exact ⟨h, DLe.refl _, rfl⟩
  · split at he
    · cases he
    · cases he; exact trivialCase _ rfl rfl rfl rfl rfl rfl rfl
  · split at he
    · cases he
    · cases he; exact trivialCase _ rfl rfl rfl rfl rfl rfl rfl
  · split at he
    · cases he
    · cases he; exact trivialCase _ rfl rfl rfl rfl rfl rfl rfl
  · -- type
    rename_i attrs id ty
    simp only at he
    split at he
    · cases he
    · rename_i k hk
      have ha : askOk (.ident id) k = true := by
        cases id <;> cases attrs <;> simp [Ident.isTerminal, Ident.isNonTerminal] at hk <;> subst hk <;> rfl
      obtain ⟨h1, h2, h3, h4, h5⟩ := h.symbolNew ha
      rcases hs : g.symbolNew (.ident id) k with ⟨g1, s⟩
      rw [hs] at he h1 h2 h3 h4 h5
      simp only at he h1 h2 h3 h4 h5
      split at he
      · cases he
      · cases he
        refine ⟨?_, h2.trans (DLe.modify_other (fun _ => rfl) (fun _ => rfl) (fun _ => rfl)), h5.rules⟩
        exact h1.modify_other (fun _ => rfl) (fun _ => rfl) (fun _ => rfl) (fun _ => rfl) (fun _ => rfl)
            (fun _ => rfl) (fun _ => rfl)
  · -- assoc
    simp only at he
    obtain ⟨i1, i2, i3⟩ := DInv.declAssoc (h.congr (g' := { g with prec := g.prec + 1 }) rfl rfl rfl rfl rfl rfl rfl) he
    exact ⟨i1, DLe.trans (b := { g with prec := g.prec + 1 }) (DLe.congr rfl rfl rfl) i2, i3.rules⟩
  · split at he
    · cases he
    · cases he; exact trivialCase _ rfl rfl rfl rfl rfl rfl rfl
  · split at he
    · cases he
    · cases he; exact trivialCase _ rfl rfl rfl rfl rfl rfl rfl
  · split at he
    · cases he
    · cases he; exact trivialCase _ rfl rfl rfl rfl rfl rfl rfl
  · -- start
    split at he
    · cases he
    · split at he
      · cases he
      · rename_i hid
        obtain ⟨h1, h2, h3, h4, h5⟩ := h.symbolNew (askOk_lower hid)
        rename_i id _
        rcases hs : g.symbolNew (.ident id) .nonTerminal with ⟨g1, s⟩
        rw [hs] at he h1 h2 h3 h4 h5
        simp only at he h1 h2 h3 h4 h5
        cases he
        refine ⟨h1.setStart ⟨h3, by rw [h4]; exact isNt_lower hid⟩, h2.trans (DLe.congr rfl rfl rfl), h5.rules⟩
  · -- fallback
    split at he
    · cases he
    · rename_i g1 ss hd
      obtain ⟨i1, i2, i3, i4⟩ := h.declTokens hd
      split at he
      · cases he
      · rename_i hid
        obtain ⟨h1, h2, h3, h4, h5⟩ := i1.symbolNew (askOk_upper hid)
        simp only at he
        split at he
        · cases he
        · have hf := DInv.setFallbacks h1 ⟨h3, by rw [h4]; exact isTok_upper hid⟩ (by
            intro s hs
            obtain ⟨id, _, hh⟩ := forall₂_exists_right i4 hs
            exact h2.isTok hh.1 hh.2.2) he
          refine ⟨hf.1, (i2.trans h2).trans hf.2, ?_⟩
          have : ∀ (ss : List SymbolId) (g g' : Grammar) (f : SymbolId), g.setFallbacks f ss = .ok g' → g'.rules = g.rules := by
            intro ss
            induction ss with
            | nil => intro g g' f he; simp only [Grammar.setFallbacks, Except.ok.injEq] at he; subst he; rfl
            | cons s ss ih =>
              intro g g' f he
              unfold Grammar.setFallbacks at he
              split at he
              · cases he
              · rw [ih _ _ _ he]; rfl
          show _ = g.rules
          rw [this _ _ _ _ he, h5.rules, i3.rules]
  · -- wildcard
    split at he
    · cases he
    · split at he
      · cases he
      · rename_i hid
        obtain ⟨h1, h2, h3, h4, h5⟩ := h.symbolNew (askOk_upper hid)
        rename_i id _
        rcases hs : g.symbolNew (.ident id) .terminal with ⟨g1, s⟩
        rw [hs] at he h1 h2 h3 h4 h5
        simp only at he h1 h2 h3 h4 h5
        cases he
        refine ⟨h1.setWild ⟨h3, by rw [h4]; exact isTok_upper hid⟩, h2.trans (DLe.congr rfl rfl rfl), h5.rules⟩
  · -- token class
    split at he
    · cases he
    · rename_i tk ids hid
      have ha : askOk (.ident tk) .multiTerminal = true := by
        cases tk <;> first | rfl | simp [Ident.isTerminal] at hid
      obtain ⟨h1, h2, h3, h4, h5⟩ := h.symbolNew ha
      have ht : SymName.isTok (.ident tk) = true := isTok_upper hid
      have hk : ((g.symbolNew (.ident tk) .multiTerminal).1.sym (g.symbolNew (.ident tk) .multiTerminal).2).kind = .multiTerminal := by
        rcases symbolNew_cases h.symbols (.ident tk) .multiTerminal with ⟨s, hs, hn, _, he⟩ | ⟨_, he⟩ <;> rw [he]
        · show ((g.modifySym s (touch .multiTerminal)).sym s).kind = _
          rw [sym_modifySym_same hs]
          have := h.kinds s hs
          rw [hn] at this
          unfold touch
          cases tk <;> simp [SymName.isTok] at ht
          revert this
          cases (g.sym s).kind <;> simp [kindOk]
        · show ((g.pushSym _).sym g.syms.length).kind = _
          rw [sym_pushSym_last]
      obtain ⟨i1, i2, i3⟩ := DInv.declClass h1 h3 (by rw [h4]; exact ht) hk he
      exact ⟨i1, h2.trans i2, i3.rules.trans h5.rules⟩
  · split at he
    · cases he
    · cases he; exact trivialCase _ rfl rfl rfl rfl rfl rfl rfl
  · split at he
    · cases he
    · cases he; exact trivialCase _ rfl rfl rfl rfl rfl rfl rfl
  · split at he
    · cases he
    · cases he; exact trivialCase _ rfl rfl rfl rfl rfl rfl rfl
  · split at he
    · cases he
    · cases he; exact trivialCase _ rfl rfl rfl rfl rfl rfl rfl
  · -- rule
    split at he
    · cases he
    · rename_i lhs rhs action prec hid
      obtain ⟨h1, h2, h3, h4, h5⟩ := h.symbolNew (askOk_lower hid)
      rcases hs : g.symbolNew (.ident lhs) .nonTerminal with ⟨g1, l⟩
      rw [hs] at he h1 h2 h3 h4 h5
      simp only at he h1 h2 h3 h4 h5
      split at he
      · cases he
      · rename_i g2 rs hrs
        obtain ⟨i1, i2, i3, i4, i5⟩ := h1.declRhs hrs
        have hl2 : l < g2.syms.length := Nat.lt_of_lt_of_le h3 i2.len
        have hln2 : (g2.sym l).name = .ident lhs := by rw [i2.name _ h3, h4]
        split at he
        · cases he
          obtain ⟨c1, c2⟩ := i1.createRule (l := l) (rs := rs) (n := action) (p := none)
            ⟨hl2, by rw [hln2]; exact isNt_lower hid⟩ i4 (by intro x hx; cases hx)
          refine ⟨c1, (h2.trans i2).trans c2, { lhs := l, rhs := rs, code := action.map Code.user, precSym := none }, ?_, ?_, ?_, rfl, trivial⟩
          · rw [rules_createRule, i3, h5.rules]
          · show ((g2.createRule _ _ _ _).sym l).name = _
            rw [c2.name _ hl2, hln2]
          · exact forall₂_imp_mem i5 (fun e _ x hx hh => c2.elemRec (i4 x hx).1 hh)
        · rename_i id
          split at he
          · cases he
          · rename_i hid2
            obtain ⟨p1, p2, p3, p4, p5⟩ := i1.symbolNew (askOk_upper hid2)
            rcases hps : g2.symbolNew (.ident id) .terminal with ⟨g3, ps⟩
            rw [hps] at he p1 p2 p3 p4 p5
            simp only at he p1 p2 p3 p4 p5
            cases he
            have hl3 : l < g3.syms.length := Nat.lt_of_lt_of_le hl2 p2.len
            have hln3 : (g3.sym l).name = .ident lhs := by rw [p2.name _ hl2, hln2]
            have hrs3 : ∀ x ∈ rs, x.sym < g3.syms.length ∧ (g3.sym x.sym).name ≠ .dollar := fun x hx =>
              ⟨Nat.lt_of_lt_of_le (i4 x hx).1 p2.len, by rw [p2.name _ (i4 x hx).1]; exact (i4 x hx).2⟩
            obtain ⟨c1, c2⟩ := p1.createRule (l := l) (rs := rs) (n := action) (p := some ps)
              ⟨hl3, by rw [hln3]; exact isNt_lower hid⟩ hrs3 (by
                intro x hx
                cases hx
                exact ⟨p3, by rw [p4]; exact isTok_upper hid2⟩)
            refine ⟨c1, ((h2.trans i2).trans p2).trans c2, { lhs := l, rhs := rs, code := action.map Code.user, precSym := some ps }, ?_, ?_, ?_, rfl, ?_⟩
            · rw [rules_createRule, p5.rules, i3, h5.rules]
            · show ((g3.createRule _ _ _ _).sym l).name = _
              rw [c2.name _ hl3, hln3]
            · exact forall₂_imp_mem i5 (fun e _ x hx hh => c2.elemRec (hrs3 x hx).1 (p2.elemRec (i4 x hx).1 hh))
            · show ((g3.createRule _ _ _ _).sym ps).name = _
              rw [c2.name _ p3, p4]

theorem DLe.ruleRec {g g' : Grammar} (hd : DInv g) (h : DLe g g') {r : RuleId} (hr : r < g.rules.length) {l : Ident}
    {rhs : List RhsElem} {a : Option Nat} {p : Option Ident} (hrec : RuleRec g l rhs a p (g.rule r)) :
    RuleRec g' l rhs a p (g.rule r) := by
  obtain ⟨h1, h2, h3, h4⟩ := hrec
  refine ⟨by rw [h.name _ (hd.lhs r hr).1]; exact h1, ?_, h3, ?_⟩
  · exact forall₂_imp_mem h2 (fun e _ x hx hh => h.elemRec (hd.rhs r hr x hx).1 hh)
  · rcases p with _ | id <;> rcases hps : (g.rule r).precSym with _ | ps <;> rw [hps] at h4 <;> simp only at h4 ⊢
    rw [h.name _ (hd.precSym r hr ps hps).1]; exact h4

/-- The rules of the grammar are those declared, in order. -/
def RulesRec (g : Grammar) (ds : List Decl) : Prop :=
  List.Forall₂ (fun d r => RuleRec g d.1 d.2.1 d.2.2.1 d.2.2.2 r) (ds.filterMap Decl.rule?) g.rules

theorem RulesRec.le {g g' : Grammar} {ds : List Decl} (hd : DInv g) (h : DLe g g')
    (hr : RulesRec g ds) : List.Forall₂ (fun d r => RuleRec g' d.1 d.2.1 d.2.2.1 d.2.2.2 r) (ds.filterMap Decl.rule?) g.rules := by
  refine forall₂_imp_mem hr ?_
  intro d _ r hrm hh
  obtain ⟨i, hi, rfl⟩ := List.getElem_of_mem hrm
  have : g.rules[i] = g.rule i := by simp [Grammar.rule, List.getElem?_eq_getElem hi]
  rw [this] at hh ⊢
  exact h.ruleRec hd hi hh

theorem DInv.parseDecls : ∀ {ds : List Decl} {g g' : Grammar}, DInv g → g.parseDecls ds = .ok g' →
    DInv g' ∧ DLe g g' ∧ ∀ ds0, RulesRec g ds0 → RulesRec g' (ds0 ++ ds) := by
  intro ds
  induction ds with
  | nil =>
    intro g g' h he
    simp only [Grammar.parseDecls, Except.ok.injEq] at he
    subst he
    exact ⟨h, DLe.refl _, fun ds0 hr => by simpa using hr⟩
  | cons d ds ih =>
    intro g g' h he
    unfold Grammar.parseDecls at he
    split at he
    · cases he
    · rename_i g1 h1
      obtain ⟨a1, a2, a3⟩ := h.parseOneDecl h1
      obtain ⟨b1, b2, b3⟩ := ih a1 he
      refine ⟨b1, a2.trans b2, ?_⟩
      intro ds0 hr
      have h0 := hr.le h a2
      have : RulesRec g1 (ds0 ++ [d]) := by
        unfold RulesRec
        rw [List.filterMap_append]
        cases d
        case rule l rhs a p =>
          obtain ⟨r, hr1, hr2⟩ := a3
          rw [hr1]
          refine List.rel_append h0 (.cons hr2 .nil)
        all_goals
          simp only [RulesStep] at a3
          simp only [List.filterMap_cons, List.filterMap_nil, Decl.rule?, List.append_nil]
          rw [a3]
          exact h0
      have := b3 _ this
      simpa using this

theorem DInv.initial : DInv Grammar.initial := by
  have hs : Grammar.initial.syms = [{ name := .dollar, kind := .terminal }, { name := .ident .error, kind := .nonTerminal }] := by decide
  have hlen : Grammar.initial.syms.length = 2 := by decide
  have hr : Grammar.initial.rules = [] := by decide
  have h0 : Grammar.initial.sym 0 = { name := .dollar, kind := .terminal } := by decide
  have h1 : Grammar.initial.sym 1 = { name := .ident .error, kind := .nonTerminal } := by decide
  have hc : ∀ s, s < Grammar.initial.syms.length → s = 0 ∨ s = 1 := by intro s hs; rw [hlen] at hs; omega
  have ho : Grammar.initial.optionals = [] := by decide
  constructor
  · decide
  · decide
  · decide
  · decide
  · decide
  · intro i j hi hj
    rcases hc i hi with rfl | rfl <;> rcases hc j hj with rfl | rfl <;> simp [h0, h1]
  · intro i hi; rcases hc i hi with rfl | rfl <;> decide
  · intro i hi; rcases hc i hi with rfl | rfl <;> decide
  · intro i hi; rcases hc i hi with rfl | rfl <;> decide
  · intro i hi; rcases hc i hi with rfl | rfl <;> simp [h0, h1]
  · intro i hi; rcases hc i hi with rfl | rfl <;> simp [h0, h1]
  · intro i hi; rcases hc i hi with rfl | rfl <;> simp [h0, h1]
  · intro i hi; rcases hc i hi with rfl | rfl <;> decide
  · intro r; rw [hr]; intro h; cases h
  · intro r; rw [hr]; intro h; cases h
  · intro r; rw [hr]; intro h; cases h
  · intro r; rw [hr]; intro h; cases h
  · intro s h; cases h
  · intro s h; cases h
  · rw [ho]; exact List.nodup_nil
  · intro k a b; rw [ho]; intro h; cases h
  · intro i hi; rcases hc i hi with rfl | rfl <;> simp [h0, h1]

end Pomelo
