import Verif.Proofs.RulePrec
import Verif.Proofs.DeclSingle
import Verif.Proofs.RunErrors
import Verif.Examples
/-!
# Properties of the declaration phase

C17 (rule precedence), C27 (start symbol), C28 (single-use directives), C41 (error blocks see the
original token).  `ord` is the order in which the hash map of optional symbols is iterated: any
permutation.
-/

namespace Pomelo

open Spec

variable {ord : List (SymbolId × SymbolId) → List (SymbolId × SymbolId)} {ds : List Decl}

/-! ## C17 -/

/-- C17: the precedence used for a rule is the one the declarations give it. -/
theorem C17_rule_precedence (ho : OrdOk ord) {g0 g : Grammar} {sts : List LState} (h0 : newFromDecls ds = .ok g0)
    (h : g0.automaton ord = .ok (g, sts)) {r : RuleId} {u : URule} (hu : (rulesOf ds)[r]? = some u) :
    (g.rule r).precedence = rulePrec ds u := by
  obtain ⟨b⟩ := bridge ho h0 h
  exact b.rulePrec_spec hu

namespace C17ex
open Tests (U L s r)
/-- Bracketed symbol, leftmost symbol with a precedence (not the first), class, compound, none -/
def gram : List Decl :=
  [ .assoc .left [U 1, U 2], .assoc .right [U 3], .tokenClass (U 9) [U 4, U 3]
  , r (L 0) [s (L 1)], r (L 1) [s (U 4), s (U 3), s (U 1)], r (L 1) [s (U 5), s (U 1)] none (some (U 3))
  , r (L 1) [s (U 9), s (U 4)], r (L 1) [s (U 5), ⟨[U 4, U 2], false, false⟩], r (L 1) [s (U 6), s (U 1) false true] ]
/-- The automaton is built -/
def auto : Option Grammar :=
  match newFromDecls gram with
  | .ok g0 => match g0.automaton id with
    | .ok (g, _) => some g
    | .error _ => none
  | .error _ => none
example : auto.map (fun g => (List.range 6).map (fun r => (g.rule r).precedence)) =
  some [none, some ⟨2, .right⟩, some ⟨2, .right⟩, some ⟨2, .right⟩, some ⟨1, .left⟩, none] := by decide +kernel
example : (rulesOf gram).map (rulePrec gram) =
  [none, some ⟨2, .right⟩, some ⟨2, .right⟩, some ⟨2, .right⟩, some ⟨1, .left⟩, none] := by decide +kernel
end C17ex

/-! ## C27 -/

/-- C27: the start symbol of the automaton is the declared one. -/
theorem C27_start (ho : OrdOk ord) {g0 g : Grammar} {sts : List LState} (h0 : newFromDecls ds = .ok g0)
    (h : g0.automaton ord = .ok (g, sts)) :
    ∃ s i, g.start = some s ∧ (g.sym s).name = .ident i ∧ startOf ds = some i := by
  obtain ⟨b⟩ := bridge ho h0 h
  have hd := b.dinv
  have h0lt : 0 < b.gD.rules.length := List.length_pos_iff.2 b.nonempty
  have hst := b.decl.start
  cases hs : b.gD.start with
  | some s =>
    have hs1 := hd.start s hs
    rw [hs] at hst
    cases hdir : startDirective ds with
    | none => rw [hdir] at hst; simp at hst
    | some i =>
      rw [hdir] at hst
      simp only [Option.map_some, Option.some.injEq] at hst
      refine ⟨s, i, by rw [b.start, hs]; rfl, by rw [b.name hs1.1]; exact hst, ?_⟩
      unfold startOf; rw [hdir]; rfl
  | none =>
    rw [hs] at hst
    have hdir : startDirective ds = none := by
      cases hdir : startDirective ds with
      | none => rfl
      | some i => rw [hdir] at hst; simp at hst
    have hl := hd.lhs 0 h0lt
    have hlen : (rulesOf ds).length = b.gD.rules.length := by
      rw [← b.recs.length_eq, filterMap_rule?, List.length_map]
    have hne : 0 < (rulesOf ds).length := by omega
    obtain ⟨a, _, ha, _, _, hrec, _, _⟩ := b.rule_rec (List.getElem?_eq_getElem hne)
    have hr0 : b.gD.rule 0 = a := by
      unfold Grammar.rule
      rw [getD_of_lt h0lt]; rw [List.getElem?_eq_getElem h0lt] at ha; exact Option.some.inj ha
    refine ⟨(b.gD.rule 0).lhs, (rulesOf ds)[0].lhs, by rw [b.start, hs]; rfl, ?_, ?_⟩
    · rw [b.name hl.1, hr0]; exact hrec.1
    · unfold startOf
      rw [hdir, Option.none_or, List.head?_eq_getElem?, List.getElem?_eq_getElem hne]; rfl

/-- C27: a grammar in which the start symbol occurs on a right-hand side, alone or as an optional
symbol, is rejected. -/
theorem C27_not_on_rhs (ho : OrdOk ord) {t : Tables} (h : compile ord ds = .ok t) {u : URule} (hu : u ∈ rulesOf ds)
    {e : RhsElem} (he : e ∈ u.rhs) {i : Ident} (hi : i ∈ e.toks) : startOf ds ≠ some i := by
  intro hs
  obtain ⟨c⟩ := compile_cspec h
  obtain ⟨st, i', h1, h2, h3⟩ := C27_start ho c.decls c.auto
  rw [hs] at h3
  cases h3
  obtain ⟨b⟩ := bridge ho c.decls c.auto
  have hd := b.dinv
  obtain ⟨r, hr, rfl⟩ := List.getElem_of_mem hu
  obtain ⟨a, c', ha, haP, hg, ⟨_, hrec, _, _⟩, hc, hgr⟩ := b.rule_rec (List.getElem?_eq_getElem hr)
  obtain ⟨hlt, hae⟩ := List.getElem?_eq_some_iff.1 ha
  have har : b.gD.rule r = a := by unfold Grammar.rule; rw [getD_of_lt hlt]; exact hae
  have hgi := c.ginv ho
  obtain ⟨s0, hs0, hslt, _⟩ := hgi.start
  rw [h1] at hs0; cases hs0
  have hnt := hgi.kinds st hslt
  have hrlt : r < c.g.rules.length := (List.getElem?_eq_some_iff.1 hg).1
  have hrhs : c.g.rhsSyms r = a.rhs.map (·.sym) := by
    have := normalizeRule_keeps hc
    unfold Grammar.rhsSyms
    rw [hgr]
    show c'.rhs.map (·.sym) = _
    rw [this.2.1, (rulePrec_keeps _ _).2.1]
  -- the symbol recorded for the element
  obtain ⟨k, hk, rfl⟩ := List.getElem_of_mem he
  have hk2 : k < a.rhs.length := hrec.length_eq ▸ hk
  have hel := List.Forall₂.get hrec hk hk2
  simp only [List.get_eq_getElem] at hel
  have hxlt := (hd.rhs r hlt a.rhs[k] (by rw [har]; exact List.getElem_mem _)).1
  have hstD : st < b.gD.syms.length := by
    rcases Nat.lt_succ_iff_lt_or_eq.1 (b.len ▸ hslt : st < b.gD.syms.length + 1) with h | h
    · exact h
    · exfalso
      have h5 := b.start
      rw [h1] at h5
      have h6 : st = b.gD.start.getD (b.gD.rule 0).lhs := Option.some.inj h5
      cases hs : b.gD.start with
      | some s => rw [hs] at h6; exact absurd (hd.start s hs).1 (by simp at h6; rw [← h6, h]; exact Nat.lt_irrefl _)
      | none =>
        rw [hs] at h6
        simp at h6
        have := (hd.lhs 0 (List.length_pos_iff.2 b.nonempty)).1
        rw [← h6, h] at this
        exact Nat.lt_irrefl _ this
  have hnm : (b.gD.sym st).name = .ident i := by rw [← b.name hstD]; exact h2
  obtain ⟨_, hel⟩ := hel
  rcases hel with ⟨tok, t1, t2, t3⟩ | ⟨tok, symR, t1, t2, t3, t4, t5⟩ | ⟨t1, t2, t3⟩
  · rw [t1] at hi
    simp only [List.mem_singleton] at hi
    subst hi
    have : a.rhs[k].sym = st := hd.names _ _ hxlt hstD (by rw [t3, hnm]) (by rw [t3]; simp)
    apply b.noStart r hrlt a.rhs[k].sym
    · rw [hrhs]; exact List.mem_map.2 ⟨_, List.getElem_mem _, rfl⟩
    · rw [this, h1]
  · rw [t1] at hi
    simp only [List.mem_singleton] at hi
    subst hi
    have hsr : symR = st := hd.names _ _ t3 hstD (by rw [t5, hnm]) (by rw [t5]; simp)
    -- the second rule of the optional symbol
    have hmem : (⟨a.rhs[k].sym, false, [⟨symR, true⟩], some .optSome, none, none, false⟩ : Rule) ∈ b.gP.rules := by
      rw [b.rulesP]
      apply List.mem_append_right
      rw [List.mem_flatMap]
      exact ⟨(symR, a.rhs[k].sym), (ho _).mem_iff.2 t4, by simp [optRules]⟩
    obtain ⟨q, hq, hqe⟩ := List.getElem_of_mem hmem
    have hqg : q < c.g.rules.length := b.rules.length_eq ▸ hq
    have h7 := List.Forall₂.get b.rules hq hqg
    simp only [List.get_eq_getElem] at h7
    rw [hqe] at h7
    obtain ⟨c2, hc2, hgq⟩ := h7
    apply b.noStart q hqg symR
    · have hgq2 : c.g.rule q = c.g.rules[q] := by unfold Grammar.rule; rw [getD_of_lt hqg]
      have := normalizeRule_keeps hc2
      unfold Grammar.rhsSyms
      rw [hgq2, hgq]
      show symR ∈ c2.rhs.map (·.sym)
      rw [this.2.1, (rulePrec_keeps _ _).2.1]
      simp
    · rw [hsr, h1]
  · -- compound members are tokens
    have hall : ∀ (l : List SymbolId) (ts : List Ident),
        List.Forall₂ (fun s id => s < b.gD.syms.length ∧ (b.gD.sym s).name = .ident id) l ts →
        ∀ i ∈ ts, ∃ m ∈ l, (b.gD.sym m).name = .ident i := by
      intro l ts hf
      induction hf with
      | nil => intro i hi; cases hi
      | cons h1 _ ih =>
        intro i hi
        rcases List.mem_cons.1 hi with rfl | hi2
        · exact ⟨_, List.mem_cons_self, h1.2⟩
        · obtain ⟨m, hm, hn⟩ := ih i hi2
          exact ⟨m, List.mem_cons_of_mem _ hm, hn⟩
    obtain ⟨m, hm, hn⟩ := hall _ _ t3 i hi
    have htok := (hd.subs _ hxlt m hm).2
    rw [hn] at htok
    have := hgi.start
    obtain ⟨s1, hs1, _, hs3⟩ := this
    rw [h1] at hs1; cases hs1
    rw [h2] at hs3
    cases i <;> simp [SymName.isTok, SymName.isNt] at htok hs3

-- accepted: directive different from the first rule; rejected: use on the right, plain and optional
open Tests (U L s r) in
example : Examples.compiles [r (L 1) [s (U 1)], .startSymbol (L 0), r (L 0) [s (L 1), s (U 2)]] = true ∧
    startOf [r (L 1) [s (U 1)], .startSymbol (L 0), r (L 0) [s (L 1), s (U 2)]] = some (L 0) ∧
    Examples.compiles [r (L 0) [s (U 1)], r (L 0) [s (L 0), s (U 2)]] = false ∧
    Examples.compiles [r (L 0) [s (U 1)], r (L 0) [s (U 2), s (L 0) false true]] = false := by decide +kernel

/-! ## C28 -/

/-- The full statement of C28 -/
def C28_statement : Prop :=
  ∀ (ord) (_ : OrdOk ord) (ds : List Decl) (t : Tables), compile ord ds = .ok t →
    ds.Pairwise (fun d d' => ¬ Clash d d') ∧
    ∀ d ∈ ds, ∀ ids, ((∃ a, d = .assoc a ids) ∨ ∃ f, d = .fallback f ids) → ids.Nodup

/-- C28 but for the first of two directives being `%stack_size` without a type or an attribute-only
`%type`. -/
theorem C28_single_use_partial {t : Tables} (h : compile ord ds = .ok t) :
    ds.Pairwise (fun d d' => untyped d = false → ¬ Clash d d') ∧
    ∀ d ∈ ds, ∀ ids, ((∃ a, d = .assoc a ids) ∨ ∃ f, d = .fallback f ids) → ids.Nodup := by
  obtain ⟨c⟩ := compile_cspec h
  obtain ⟨gD, hp, _⟩ := newFromDecls_spec c.decls
  exact preAll_pairwise (preAll_parseDecls DInv.initial hp).1

namespace C28ex
open Tests (U L s r)
def stack2 : List Decl := [.stackSize 5 none, .stackSize 6 none, r (L 0) [s (U 1)]]
def type2 : List Decl := [.type true (U 1) none, .type false (U 1) (some .unit), r (L 0) [s (U 1)]]
-- a list of directives without clash is accepted, and one with a clash far apart is not
example : Examples.compiles [.stackSize 5 (some .unit), .assoc .left [U 1, U 2], .type false (U 1) (some .unit), .syntaxError,
    r (L 0) [s (U 1)], .assoc .right [U 3]] = true ∧
  Examples.compiles [.assoc .left [U 1, U 2], .type false (U 1) (some .unit), .syntaxError, r (L 0) [s (U 1)],
    .assoc .right [U 3, U 2]] = false := by decide +kernel
end C28ex

theorem OrdOk.id : OrdOk id := fun l => List.Perm.refl l

/-- C28 fails: two `%stack_size` without a type are accepted, and so is a `%type` after an
attribute-only one. -/
theorem C28_false : ¬ C28_statement := by
  intro h
  have := (h id OrdOk.id C28ex.stack2 _ (Examples.compiles_iff (by decide +kernel))).1
  have h2 := (List.pairwise_cons.1 this).1 (.stackSize 6 none) (by simp)
  exact h2 trivial

/-- The second witness of `C28_false` -/
theorem C28_false_type : ∃ t, compile id C28ex.type2 = .ok t ∧ ¬ C28ex.type2.Pairwise (fun d d' => ¬ Clash d d') :=
  ⟨_, Examples.compiles_iff (by decide +kernel),
    fun h => (List.pairwise_cons.1 h).1 (.type false (.upper 1) (some .unit)) (by simp) rfl⟩

/-! ## C41 -/

theorem CSpec.lhsOk (ho : OrdOk ord) {t : Tables} (c : CSpec ord ds t) : LhsOk t where
  rules := by
    intro r lhs h
    rw [c.ruleInfo_get] at h
    split at h
    · rename_i hr
      cases h
      have hg := c.ginv ho
      have hl := hg.lhs r hr
      rw [c.gen.numTerminals, c.gen.shape.nterm]
      exact hg.nt_le hl.1 hl.2.1
    · cases h
  error := by
    intro h0
    have hg := c.ginvT ho
    have he := c.gen.errorSymbol
    split at he
    · rw [he, c.gen.numTerminals, hg.errSym]
      exact hg.nt_le (Nat.lt_of_lt_of_le (by decide) hg.two) hg.err.2
    · exact absurd he h0

variable {V X E : Type} {sem : Sem V X E}

/-- C41: the error blocks run by `parse(tok)` get `tok` itself; `%stack_overflow` gets `None` instead
when a nonterminal is pushed. -/
theorem C41_original_token (ho : OrdOk ord) {t : Tables} (hc : compile ord ds = .ok t) {p p' : Parser V X} {fuel : Nat}
    {tok : Tok V} {r : Res V X E Unit} (hv : tok.Valid t sem) (h : parse t sem fuel p tok = some r)
    (h2 : r.parser? = some p') :
    ∃ evs, p'.trace = evs ++ p.trace ∧ (∀ tk ex, .syntaxError tk ex ∈ evs → tk = some tok) ∧
      (∀ tk, .stackOverflow tk ∈ evs → tk = some tok ∨ tk = none) := by
  obtain ⟨c⟩ := compile_cspec hc
  obtain ⟨evs, h3, h4⟩ := parse_shows (c.lhsOk ho) hv h h2
  exact ⟨evs, h3, fun tk ex hm => h4 _ hm, fun tk hm => h4 _ hm⟩

/-- C41 for `end_of_input`: there is no token to show. -/
theorem C41_end (ho : OrdOk ord) {t : Tables} (hc : compile ord ds = .ok t) {p p' : Parser V X} {fuel : Nat}
    {r : Res V X E V} (h : endOfInput t sem fuel p = some r) (h2 : r.parser? = some p') :
    ∃ evs, p'.trace = evs ++ p.trace ∧ (∀ tk ex, .syntaxError tk ex ∈ evs → tk = none) ∧
      (∀ tk, .stackOverflow tk ∈ evs → tk = none) := by
  obtain ⟨c⟩ := compile_cspec hc
  unfold endOfInput at h
  rw [Option.map_eq_some_iff] at h
  obtain ⟨r1, h1, h3⟩ := h
  have key : ∀ q, r1.parser? = some q → NewShow none p q := fun q hq =>
    parseToken_lift (I := NewShow none p) (fun _ h => h.same rfl)
      (fun _ hp => step_shows (c.lhsOk ho) (by unfold Tables.tokenBuild; rw [if_neg (by omega)]) (fun h => absurd rfl h) hp)
      (NewShow.refl _ _) h1 hq
  have hq : r1.parser? = some p' := by
    cases r1 with
    | panic w => cases h3; cases h2
    | err p1 e => cases h3; exact h2
    | ok p1 u =>
      simp only at h3
      split at h3
      · cases h3; exact h2
      · cases h3; cases h2
  obtain ⟨evs, h4, h5⟩ := key p' hq
  exact ⟨evs, h4, fun tk ex hm => h5 _ hm, fun tk hm => (h5 _ hm).elim id id⟩

-- a call in which `%syntax_error` is run with a token
open Examples in
example : ∃ p r, Reach (tablesOf Tests.error1) Tests.logSem p ∧ (⟨1, 0⟩ : Tok Int).Valid (tablesOf Tests.error1) Tests.logSem ∧
    parse (tablesOf Tests.error1) Tests.logSem 1000 p ⟨1, 0⟩ = some r ∧
    ((r.parser?.map (fun q => q.trace.any (fun e => match e with | .syntaxError tk _ => tk.map (·.major) == some 1 | _ => false))).getD false) = true :=
  exists_call (x := []) (toks := tk [2, 3, 4]) (tok := ⟨1, 0⟩) (by decide +kernel)

end Pomelo
