import Verif.Proofs.Order
import Verif.Props.Complete
/-!
# C39: the order in which the map of optional symbols is walked

`ord` and `ord'` stand for two orders of the `HashMap`.
-/

namespace Pomelo

open Spec

variable {ord ord' : List (SymbolId × SymbolId) → List (SymbolId × SymbolId)} {ds : List Decl} {t t' : Tables} {V X E : Type}

theorem renumbered_of (ho : OrdOk ord) (ho' : OrdOk ord') {g0 g g' : Grammar} {sts sts' : List LState} (h0 : newFromDecls ds = .ok g0)
    (h : g0.automaton ord = .ok (g, sts)) (h' : g0.automaton ord' = .ok (g', sts')) :
    (∃ R : Renumbered g g', ∀ r, r < (rulesOf ds).length → R.σ r = r ∧ R.τ r = r) ∧ (g.rules.map Rule.bare).Perm (g'.rules.map Rule.bare) := by
  obtain ⟨b⟩ := bridge ho h0 h
  obtain ⟨b'⟩ := bridge ho' h0 h'
  obtain ⟨gD, hp, _, _, _, rfl⟩ := newFromDecls_spec h0
  obtain ⟨s⟩ := automaton_spec h
  obtain ⟨s'⟩ := automaton_spec h'
  have e : b.gD = gD := Except.ok.inj (b.parsed.symm.trans hp)
  have e' : b'.gD = gD := Except.ok.inj (b'.parsed.symm.trans hp)
  have hs : Shape b.gP g := by rw [b.gP_eq, e]; exact s.shape
  have hs' : Shape b'.gP g' := by rw [b'.gP_eq, e']; exact s'.shape
  exact ⟨b.renumbered ho ho' b' (GInv.automaton h0 ho h) hs hs', b.rules_perm ho ho' b'⟩

/-- C39: the symbols, the set of rules and the language do not depend on the order. -/
theorem C39 (ho : OrdOk ord) (ho' : OrdOk ord') {g0 g g' : Grammar} {sts sts' : List LState} (h0 : newFromDecls ds = .ok g0)
    (h : g0.automaton ord = .ok (g, sts)) (h' : g0.automaton ord' = .ok (g', sts')) :
    SameButOrder g g' ∧ ∀ α β, Derives g α β ↔ Derives g' α β := by
  obtain ⟨⟨R, _⟩, hp⟩ := renumbered_of ho ho' h0 h h'
  exact ⟨⟨R.len, R.name, R.kind, R.subs, R.index, R.start, hp⟩, fun _ _ => ⟨R.derives, R.symm.derives⟩⟩

/-- The conflicts that precedence does not settle are the same, after the same prefixes and on the same tokens. -/
theorem C39_conflicts (ho : OrdOk ord) (ho' : OrdOk ord') {g0 g g' : Grammar} {sts sts' : List LState} (h0 : newFromDecls ds = .ok g0)
    (h : g0.automaton ord = .ok (g, sts)) (h' : g0.automaton ord' = .ok (g', sts')) (γ : List SymbolId) (a : SymbolId) :
    Unsettled g γ a ↔ Unsettled g' γ a := by
  obtain ⟨⟨R, _⟩, _⟩ := renumbered_of ho ho' h0 h h'
  exact ⟨R.unsettled (GInv.automaton h0 ho h), R.symm.unsettled (GInv.automaton h0 ho' h')⟩

theorem CSpec.tokenName_iff (s : CSpec ord ds t) (hi : GInv s.g) {i : Nat} {nm : SymName} : t.tokenNames[i]? = some nm ↔
    ∃ a, a < s.g.syms.length ∧ (s.g.sym a).kind = .terminal ∧ (s.g.sym a).index = i ∧ (s.g.sym a).name = nm := by
  constructor
  · intro h
    have hsh := s.gen.shape
    have hl := (List.getElem?_eq_some_iff.1 h).1
    rw [s.gen.tokenNames, List.length_map, List.length_take, hsh.nterm, hsh.symbols, hi.slen] at hl
    have hlt : i < s.g.syms.length := by omega
    obtain ⟨h4, h5⟩ := hi.index i hlt
    have hk := (hi.term _ h4).2 (by rw [h5]; omega)
    have := s.tokenName hi h4 hk
    rw [h5, h] at this
    exact ⟨_, h4, hk, h5, (Option.some.inj this).symm⟩
  · rintro ⟨a, h1, h2, rfl, rfl⟩
    exact s.tokenName hi h1 h2

/-- The names of the tokens are the same. -/
theorem C39_names (ho : OrdOk ord) (ho' : OrdOk ord') (hc : compile ord ds = .ok t) (hc' : compile ord' ds = .ok t') : t'.tokenNames = t.tokenNames := by
  obtain ⟨s⟩ := compile_cspec hc
  obtain ⟨s'⟩ := compile_cspec hc'
  have e : s'.g0 = s.g0 := Except.ok.inj (s'.decls.symm.trans s.decls)
  obtain ⟨⟨R, _⟩, _⟩ := renumbered_of ho ho' s.decls s.auto (by rw [← e]; exact s'.auto)
  apply List.ext_getElem?
  intro i
  apply Option.ext
  intro nm
  rw [s.tokenName_iff (s.ginv ho), s'.tokenName_iff (s'.ginv ho')]
  constructor
  · rintro ⟨a, h1, h2, h3, h4⟩
    have ha : a < s.g.syms.length := by rw [← R.len]; exact h1
    exact ⟨a, ha, by rw [← R.kind a ha]; exact h2, by rw [← R.index a ha]; exact h3, by rw [← R.name a ha]; exact h4⟩
  · rintro ⟨a, ha, h2, h3, h4⟩
    exact ⟨a, by rw [R.len]; exact ha, by rw [R.kind a ha]; exact h2, by rw [R.index a ha]; exact h3, by rw [R.name a ha]; exact h4⟩

/-- The parsers made with the two orders accept the same inputs and return the same values, where acceptance is known to be that of the grammar.
Missing: precedences, fallbacks and `%wildcard`; colliding rows; that a full stack does not depend on the order. -/
theorem C39_accepts_partial (ho : OrdOk ord) (ho' : OrdOk ord') (hc : compile ord ds = .ok t) (hc' : compile ord' ds = .ok t')
    (hf : flat ds = true) (hA : apart ord ds = true) (hA' : apart ord' ds = true) (hr : rootOk ds = true) (hn : noAssoc ds = true)
    (hk : ds.all keepsTokens = true) (sem : Sem V X E) {x : X} {toks : List (Tok V)} {p : Parser V X} {v : V}
    (h : AcceptedRun t sem x toks p v) (hv : ∀ tok ∈ toks, tok.Valid t' sem) :
    (∃ p', AcceptedRun t' sem x toks p' v ∧ p'.extra = p.extra) ∨
      (t'.stackLimit ≠ 0 ∧ ∃ e p' fuel tok log, runAll t' sem fuel x toks = some (.err p' e) ∧ p'.trace = .stackOverflow tok :: log) := by
  obtain ⟨T, w, h1, rfl, h2, rfl⟩ := C02_partial ho hc hf hA sem h
  have hown : ownTokens ds = ds := List.filter_eq_self.2 (List.all_eq_true.1 hk)
  have hw : wildcardOf ds = none := by rw [← hown]; exact own_wildcard
  have h3 : IsOwnTree ds t'.tokenNames T := by
    unfold IsOwnTree
    rw [hown, C39_names ho ho' hc hc']; exact h1
  rcases C03_noAssoc_partial ho' hc' hf hA' hr hw hn sem x h3 hv with ⟨v', p', fuel, a1, a2, a3⟩ | ⟨e, p', fuel, a1, _⟩ | ⟨a1, e, p', fuel, tok, log, a2, a3, _⟩
  · rw [h2] at a1
    simp only [Prod.mk.injEq, Except.ok.injEq] at a1
    obtain ⟨rfl, a1⟩ := a1
    refine .inl ⟨p', ⟨hv, ⟨fuel, a2⟩, ?_⟩, a1.symm⟩
    intro n hm
    have := List.all_eq_true.1 a3 _ hm
    cases this
  · rw [h2] at a1
    simp at a1
  · exact .inr ⟨a1, e, p', fuel, tok, log, a2, a3⟩

/-! ## A grammar with two optional symbols -/

namespace Orderex
open Tests (U L s r)

/-- `s ::= A? B? C; s ::= D;` -/
def two : List Decl :=
  [ r (L 0) [s (U 1) (opt := true), s (U 2) (opt := true), s (U 3)]
  , r (L 0) [s (U 4)] ]

theorem ordRev : OrdOk List.reverse := fun l => l.reverse_perm

/-- Both orders compile, to tables with the rules in another order; both parsers accept `B C`. -/
def bothB : Bool :=
  match compile id two, compile List.reverse two with
  | .ok t, .ok t' => decide (t.ruleInfo ≠ t'.ruleInfo) && C01ex.acceptedB t Tests.logSem (Examples.tk [2, 3]) 0 [] &&
    (Examples.tk [2, 3]).all (Examples.validB t' Tests.logSem)
  | _, _ => false

theorem both : ∃ t t', compile id two = .ok t ∧ compile List.reverse two = .ok t' ∧ t.ruleInfo ≠ t'.ruleInfo ∧
    (∃ p, AcceptedRun t Tests.logSem [] (Examples.tk [2, 3]) p 0 ∧ p.extra = []) ∧ ∀ tok ∈ Examples.tk [2, 3], tok.Valid t' Tests.logSem := by
  have h : bothB = true := by decide +kernel
  unfold bothB at h
  split at h
  · rename_i t t' h1 h2
    rw [Bool.and_eq_true, Bool.and_eq_true] at h
    obtain ⟨⟨h3, h4⟩, h5⟩ := h
    obtain ⟨p, h6, h7, _⟩ := C01ex.acceptedB_iff h4
    exact ⟨t, t', h1, h2, of_decide_eq_true h3, ⟨p, h6, h7⟩, fun tok ht => Examples.validB_iff (List.all_eq_true.1 h5 tok ht)⟩
  · cases h

theorem two_ok : flat two = true ∧ apart id two = true ∧ apart List.reverse two = true ∧ rootOk two = true ∧ noAssoc two = true ∧ two.all keepsTokens = true := by
  decide +kernel

-- the theorem applies to `B C`
example : ∃ t', compile List.reverse two = .ok t' ∧ ((∃ p', AcceptedRun t' Tests.logSem [] (Examples.tk [2, 3]) p' 0 ∧ p'.extra = []) ∨
    (t'.stackLimit ≠ 0 ∧ ∃ e p' fuel tok log, runAll t' Tests.logSem fuel [] (Examples.tk [2, 3]) = some (.err p' e) ∧ p'.trace = .stackOverflow tok :: log)) := by
  obtain ⟨t, t', h1, h2, _, ⟨p, h3, h4⟩, h5⟩ := both
  obtain ⟨k1, k2, k3, k4, k5, k6⟩ := two_ok
  have := C39_accepts_partial OrdOk.id ordRev h1 h2 k1 k2 k3 k4 k5 k6 Tests.logSem h3 h5
  rw [h4] at this
  exact ⟨t', h2, this⟩

-- and so does `C39`
example : ∃ g0 g sts g' sts', newFromDecls two = .ok g0 ∧ g0.automaton id = .ok (g, sts) ∧ g0.automaton List.reverse = .ok (g', sts') ∧ SameButOrder g g' := by
  obtain ⟨t, t', h1, h2, _⟩ := both
  obtain ⟨s⟩ := compile_cspec h1
  obtain ⟨s'⟩ := compile_cspec h2
  have e : s'.g0 = s.g0 := Except.ok.inj (s'.decls.symm.trans s.decls)
  exact ⟨s.g0, s.g, s.sts, s'.g, s'.sts, s.decls, s.auto, e ▸ s'.auto, (C39 OrdOk.id ordRev s.decls s.auto (e ▸ s'.auto)).1⟩
end Orderex

end Pomelo
