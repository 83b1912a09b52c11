import Verif.Proofs.GenCauses
import Verif.Proofs.Yields
import Verif.Proofs.MacroPanics
import Verif.Props.Reading
import Verif.Props.Lalr
/-!
# C47: every error of the macro has its reason, and where a reason is present the macro fails

The reasons are in `Verif/Spec/Causes.lean`.
-/

namespace Pomelo

open Spec

variable {ord : List (SymbolId × SymbolId) → List (SymbolId × SymbolId)} {ds : List Decl}

theorem assocFault_err {seen ids : List Ident} {e : GErr} (h : assocFault ds seen ids = some e) : e = .precOnNonTerminal ∨ e = .precTwice := by
  induction ids generalizing seen with
  | nil => cases h
  | cons i ids ih =>
    unfold assocFault at h
    split at h
    · cases h; exact .inl rfl
    · split at h
      · cases h; exact .inr rfl
      · exact ih h

theorem elemFault_err {x : RhsElem} {e : GErr} (h : elemFault x = some e) : e = .badSymbol ∨ e = .compoundNonTerminal := by
  unfold elemFault at h
  split at h
  · split at h
    · cases h
    · cases h; exact .inl rfl
  · split at h
    · cases h
    · cases h; exact .inr rfl

/-- The errors of reading are others than those of the later steps. -/
theorem firstFault_err {e : GErr} (h : FirstFault ds e) : e ≠ .typedNoCode ∧ e ≠ .startOnRhs ∧ e ≠ .noRulesFor := by
  rcases h with ⟨l, d, r, _, _, h⟩ | ⟨_, _, rfl⟩
  · cases h with
    | assoc h => rcases assocFault_err h with rfl | rfl <;> decide
    | ruleElem _ h =>
      obtain ⟨x, _, h⟩ := List.exists_of_findSome?_eq_some h
      rcases elemFault_err h with rfl | rfl <;> decide
    | _ => decide
  · decide

/-- C47: every error of the macro has its reason.  For the two errors about types, no token class may list a token class. -/
theorem C47_cause (ho : OrdOk ord) (hw : written ds = true) {e : GErr} (h : compile ord ds = .error e)
    (hf : e = .fallbackType ∨ e = .compoundType → flat ds = true) : Cause ord ds e := by
  by_cases hpan : e = .panic
  · subst hpan
    rcases compile_panic ho hw h with h1 | ⟨g0, g, sts, h0, h1, γ, a, h2⟩
    · exact .badClass h1
    · exact .readTwice ⟨g0, sts, h0, h1⟩ h2
  by_cases hhang : e = .hang
  · subst hhang
    exact .hang ((compile_err ho h).2 rfl)
  unfold compile Grammar.build at h
  simp only [bind, Except.bind, throw, throwThe, MonadExceptOf.throw] at h
  split at h
  · rename_i h1
    cases h
    exact .reading ((C46_refused ds e).1 h1)
  · rename_i g0 h0
    split at h
    · rename_i h1
      cases h
      cases stage h0 ho with
      | uncoded h2 h3 => rw [h1] at h3; cases h3; exact .typedNoCode h2
      | startUsed _ h2 h3 => rw [h1] at h3; cases h3; exact .startOnRhs h2
      | missing _ _ h2 h3 => rw [h1] at h3; cases h3; exact .noRulesFor h2
      | ok _ _ _ h3 => rw [h1] at h3; cases h3
    · rename_i x h1
      obtain ⟨g, sts⟩ := x
      have hi := GInv.automaton h0 ho h1
      have ha := automaton_auto ho h0 h1
      have hb : Numbered ord ds g := ⟨g0, sts, h0, h1⟩
      simp only at h
      split at h
      · rename_i h2
        cases h
        rcases findActions_err h2 with rfl | ⟨rfl, _⟩
        · obtain ⟨r, hr, h3⟩ := findActions_never hi ha h2
          exact .cannotReduce hb hr h3
        · exact absurd rfl hpan
      · rename_i x h2
        obtain ⟨acts, n⟩ := x
        simp only at h
        split at h
        · rename_i hn
          cases h
          obtain ⟨γ, a, h3⟩ := findActions_bad hi ha h2 hn
          exact .conflicts hb h3
        · split at h
          · rename_i h3
            cases h
            exact absurd (compressTables_err hi h3).1 hhang
          · obtain ⟨b⟩ := bridge ho h0 h1
            have hc := generate_causes ho b.toBridge0 (given h0 h1) hi _ |>.err h
            rcases hc with ⟨rfl, h4⟩ | h4 | ⟨_, (⟨rfl, h4⟩ | ⟨rfl, h4⟩ | ⟨rfl, h4⟩) | ⟨rfl, h4⟩ | ⟨rfl, h4⟩ | ⟨rfl, h4⟩⟩
            · exact .wildcardTyped h4
            · exact absurd h4 hpan
            · exact .tokenNotEmpty h4
            · exact .parserNotEmpty h4.2
            · exact .paramMissing h4.2.2
            · exact .fallbackType (h4 (hf (.inl rfl)))
            · exact .compoundType (h4 (hf (.inr rfl)))
            · exact .wildcardAlias h4

theorem compile_automaton {g0 : Grammar} (h0 : newFromDecls ds = .ok g0) {e : GErr} (h1 : g0.automaton ord = .error e) :
    compile ord ds = .error e := by
  unfold compile Grammar.build
  simp only [bind, Except.bind, h0, h1]

/-- The errors of the steps after the automaton are others. -/
theorem later_err (ho : OrdOk ord) {g0 g : Grammar} {sts : List LState} (h0 : newFromDecls ds = .ok g0) (h1 : g0.automaton ord = .ok (g, sts)) {e : GErr}
    (h : compile ord ds = .error e) : e ≠ .typedNoCode ∧ e ≠ .startOnRhs ∧ e ≠ .noRulesFor := by
  have hi := GInv.automaton h0 ho h1
  unfold compile Grammar.build at h
  simp only [bind, Except.bind, throw, throwThe, MonadExceptOf.throw, h0, h1] at h
  split at h
  · rename_i h2
    cases h
    rcases findActions_err h2 with rfl | ⟨rfl, _⟩ <;> decide
  · split at h
    · cases h; decide
    · split at h
      · rename_i h3
        cases h
        rw [(compressTables_err hi h3).1]; decide
      · obtain ⟨b⟩ := bridge ho h0 h1
        rcases generate_causes ho b.toBridge0 (given h0 h1) hi _ |>.err h with ⟨rfl, _⟩ | rfl | ⟨_, (⟨rfl, _⟩ | ⟨rfl, _⟩ | ⟨rfl, _⟩) | ⟨rfl, _⟩ | ⟨rfl, _⟩ | ⟨rfl, _⟩⟩ <;> decide

/-- C47: the three errors of the rules, exactly: a rule without its block, before a use of the start symbol, before a
nonterminal without rules; all after the faults of single declarations. -/
theorem C47_rules (ho : OrdOk ord) :
    (compile ord ds = .error .typedNoCode ↔ (∀ e, ¬ FirstFault ds e) ∧ Uncoded ds) ∧
    (compile ord ds = .error .startOnRhs ↔ (∀ e, ¬ FirstFault ds e) ∧ ¬ Uncoded ds ∧ StartUsed ds) ∧
    (compile ord ds = .error .noRulesFor ↔ (∀ e, ¬ FirstFault ds e) ∧ ¬ Uncoded ds ∧ ¬ StartUsed ds ∧ Missing ds) := by
  cases h0 : newFromDecls ds with
  | error e =>
    have hf := (C46_refused ds e).1 h0
    obtain ⟨h1, h2, h3⟩ := firstFault_err hf
    have hc : compile ord ds = .error e := by unfold compile; simp only [bind, Except.bind, h0]
    have hn : ¬ ∀ e, ¬ FirstFault ds e := fun h => h e hf
    rw [hc]
    simp [h1, h2, h3, hn]
  | ok g0 =>
    have hf : ∀ e, ¬ FirstFault ds e := by
      intro e he
      rw [← C46_refused, h0] at he; cases he
    cases stage h0 ho with
    | uncoded h2 h3 => rw [compile_automaton h0 h3]; simp [h2, hf]
    | startUsed h1 h2 h3 => rw [compile_automaton h0 h3]; simp [h1, h2, hf]
    | missing h1 h2 h4 h3 => rw [compile_automaton h0 h3]; simp [h1, h2, h4, hf]
    | ok k1 k2 k3 h1 =>
      simp only [k1, k2, k3, not_false_eq_true, and_false, iff_false]
      exact ⟨fun h => (later_err ho h0 h1 h).1 rfl, fun h => (later_err ho h0 h1 h).2.1 rfl, fun h => (later_err ho h0 h1 h).2.2 rfl⟩

/-- C47: where one of these reasons is present the macro fails. -/
theorem C47_sure (ho : OrdOk ord) {t : Tables} (h : compile ord ds = .ok t) :
    (∀ e, ¬ FirstFault ds e) ∧ ¬ Uncoded ds ∧ ¬ StartUsed ds ∧ ¬ Missing ds ∧
    (∃ g, Numbered ord ds g ∧ ∀ r, r < g.rules.length → ∃ γ a, ReducesOn g γ a r) ∧
    ¬ WildTyped ds ∧ (¬ TokenFull ds ∧ ¬ ParserFull ds ∧ ¬ ParamMissing ds) ∧ ¬ WildUsed ds ∧ (flat ds = true → ¬ FallbackTyped ds ∧ ¬ Mixed ds) := by
  unfold compile Grammar.build at h
  simp only [bind, Except.bind, throw, throwThe, MonadExceptOf.throw] at h
  split at h
  · cases h
  · rename_i g0 h0
    split at h
    · cases h
    · rename_i x h1
      obtain ⟨g, sts⟩ := x
      have hi := GInv.automaton h0 ho h1
      have ha := automaton_auto ho h0 h1
      have hb : Numbered ord ds g := ⟨g0, sts, h0, h1⟩
      simp only at h
      split at h
      · cases h
      · rename_i x h2
        obtain ⟨acts, n⟩ := x
        simp only at h
        split at h
        · cases h
        · split at h
          · cases h
          · obtain ⟨b⟩ := bridge ho h0 h1
            have hc := generate_causes ho b.toBridge0 (given h0 h1) hi _ |>.ok h
            refine ⟨fun e he => ?_, ?_, ?_, ?_, ⟨g, hb, fun r hr => findActions_turn hi ha h2 hr⟩, hc⟩
            · rw [← C46_refused, h0] at he; cases he
            all_goals
              cases stage h0 ho with
              | uncoded h2 h3 => rw [h1] at h3; cases h3
              | startUsed _ h2 h3 => rw [h1] at h3; cases h3
              | missing _ _ h2 h3 => rw [h1] at h3; cases h3
              | ok k1 k2 k3 _ => assumption

/-! ## One list for each error, and its reason -/

namespace Causex
open Tests (U L s r)

/-- `%type a T; s ::= a; a ::= A B;` -/
def uncoded : List Decl := [.type false (L 1) (some (.named 0)), r (L 0) [s (L 1)], r (L 1) [s (U 0), s (U 1)]]
/-- `s ::= A; s ::= s B;` -/
def startUsed : List Decl := [r (L 0) [s (U 0)], r (L 0) [s (L 0), s (U 1)]]
/-- `s ::= a; a ::= A b; b ::= c?;` -/
def missing : List Decl := [r (L 0) [s (L 1)], r (L 1) [s (U 0), s (L 2)], r (L 2) [s (L 3) (opt := true)]]
/-- `s ::= a; a ::= A; b ::= B c;`: nothing leads to `b`, and that `c` has no rules is not noticed -/
def unreached : List Decl := [r (L 0) [s (L 1)], r (L 1) [s (U 0)], r (L 2) [s (U 1), s (L 3)]]
/-- `%left A; %left B; s ::= a; a ::= b | c; b ::= D [B]; c ::= D [A];`: the last rule always gives way -/
def loses : List Decl := [.assoc .left [U 0], .assoc .left [U 1], r (L 0) [s (L 1)], r (L 1) [s (L 2)], r (L 1) [s (L 3)],
  r (L 2) [s (U 3)] none (some (U 1)), r (L 3) [s (U 3)] none (some (U 0))]
/-- `s ::= e; e ::= e A e | B;` -/
def conflict : List Decl := [r (L 0) [s (L 1)], r (L 1) [s (L 1), s (U 0), s (L 1)], r (L 1) [s (U 1)]]
/-- `%wildcard A; %type A T; s ::= A;` -/
def wildTyped : List Decl := [.wildcard (U 0), .type false (U 0) (some (.named 0)), r (L 0) [s (U 0)]]
/-- `%token enum Token { X }; s ::= A;` -/
def tokenFull : List Decl := [.token { fields := 1 }, r (L 0) [s (U 0)]]
/-- `%parser struct Parser { x: i32 }; s ::= A;` -/
def parserFull : List Decl := [.parser { fields := 1 }, r (L 0) [s (U 0)]]
/-- `%token enum Token<T> {}; %parser struct Parser<U> {}; s ::= A;` -/
def paramMissing : List Decl := [.token { params := [⟨0, none⟩] }, .parser { params := [⟨1, none⟩] }, r (L 0) [s (U 0)]]
/-- `%token enum Token<T = i32> {}; s ::= A;` -/
def paramDefault : List Decl := [.token { params := [⟨0, some 0⟩] }, r (L 0) [s (U 0)]]
/-- `%type A T; %type B T2; %fallback A B; s ::= A B;` -/
def fallback : List Decl := [.type false (U 0) (some (.named 0)), .type false (U 1) (some (.named 1)), .fallback (U 0) [U 1],
  r (L 0) [s (U 0), s (U 1)]]
/-- `%type A T; s ::= A|B(x) {};` -/
def mixed : List Decl := [.type false (U 0) (some (.named 0)), r (L 0) [⟨[U 0, U 1], false, true⟩] (some 0)]
/-- `%type A T; s ::= A|B {};`: the value is not used -/
def unmixed : List Decl := [.type false (U 0) (some (.named 0)), r (L 0) [⟨[U 0, U 1], false, false⟩] (some 0)]
/-- `%wildcard A; s ::= A(x) {};` -/
def wildUsed : List Decl := [.wildcard (U 0), r (L 0) [s (U 0) true] (some 0)]
/-- `%fallback A A; s ::= A;` -/
def selfFallback : List Decl := [.fallback (U 0) [U 0], r (L 0) [s (U 0)]]

/-- The premisses of `C47_cause`, for each error -/
example : [uncoded, startUsed, missing, unreached, loses, conflict, wildTyped, tokenFull, parserFull, paramMissing, paramDefault, fallback, mixed, unmixed, wildUsed, selfFallback].all
    (fun ds => written ds && flat ds) = true := by decide
theorem uncoded_err : compile id uncoded = .error .typedNoCode := by decide +kernel
theorem startUsed_err : compile id startUsed = .error .startOnRhs := by decide +kernel
theorem missing_err : compile id missing = .error .noRulesFor := by decide +kernel
theorem unreached_err : compile id unreached = .error .cannotReduce := by decide +kernel
theorem loses_err : compile id loses = .error .cannotReduce := by decide +kernel
theorem conflict_err : compile id conflict = .error .conflicts := by decide +kernel
theorem wildTyped_err : compile id wildTyped = .error .wildcardTyped := by decide +kernel
theorem tokenFull_err : compile id tokenFull = .error .tokenNotEmpty := by decide +kernel
theorem parserFull_err : compile id parserFull = .error .parserNotEmpty := by decide +kernel
theorem paramMissing_err : compile id paramMissing = .error .paramMissing := by decide +kernel
theorem paramDefault_err : compile id paramDefault = .error .paramMissing := by decide +kernel
theorem fallback_err : compile id fallback = .error .fallbackType := by decide +kernel
theorem mixed_err : compile id mixed = .error .compoundType := by decide +kernel
theorem wildUsed_err : compile id wildUsed = .error .wildcardAlias := by decide +kernel
theorem selfFallback_err : compile id selfFallback = .error .hang := by decide +kernel

-- the reasons, looked at directly
example : Uncoded uncoded := ⟨_, List.mem_cons_of_mem _ (.head _), rfl, by decide, .inr (by decide)⟩
example : StartUsed startUsed := ⟨L 0, rfl, _, List.mem_cons_of_mem _ (.head _), _, .head _, rfl⟩
example : Missing missing := by
  have hs : Reached missing (L 0) := .start rfl
  have h1 : Reached missing (L 1) := .elem (u := ⟨L 0, [s (L 1)], none, none⟩) (e := s (L 1)) (by decide) hs (by decide) rfl
  have h2 : Reached missing (L 2) := .elem (u := ⟨L 1, [s (U 0), s (L 2)], none, none⟩) (e := s (L 2)) (by decide) h1 (by decide) rfl
  exact ⟨⟨L 2, [s (L 3) (opt := true)], none, none⟩, by decide, h2, s (L 3) (opt := true), by decide, L 3, rfl, rfl, by decide, by decide⟩
example : WildTyped wildTyped := ⟨U 0, rfl, rfl⟩
example : TokenFull tokenFull := ⟨_, rfl, by decide⟩
example : ParserFull parserFull := ⟨_, rfl, by decide⟩
example : ParamMissing paramMissing := ⟨_, rfl, _, .head _, by show _ ∉ [(⟨1, none⟩ : Param)]; decide⟩
example : ParamMissing paramDefault := ⟨_, rfl, _, .head _, by show some 0 ≠ none; decide⟩
example : FallbackTyped fallback := ⟨U 1, U 0, .named 0, rfl, rfl, by decide⟩
example : Mixed mixed := ⟨_, .head _, _, .head _, rfl, U 1, by decide, by decide⟩
example : ¬ Mixed unmixed := by
  rintro ⟨u, hu, e, he, hb, -⟩
  simp only [rulesOf, unmixed, r, List.filterMap_cons, List.filterMap_nil, List.mem_singleton] at hu
  subst hu
  simp only [List.mem_singleton] at he
  subst he
  revert hb; decide
example : WildUsed wildUsed := ⟨_, .head _, _, .head _, rfl, U 0, rfl, rfl⟩

-- the reasons, by the theorem
example : Cause id unreached .cannotReduce := C47_cause (fun _ => List.Perm.refl _) (by decide) unreached_err (by simp)
example : Cause id loses .cannotReduce := C47_cause (fun _ => List.Perm.refl _) (by decide) loses_err (by simp)
example : Mixed mixed := by
  cases C47_cause (fun _ => List.Perm.refl _) (by decide) mixed_err (fun _ => by decide) with
  | reading h => exact absurd ((C46_refused _ _).2 h) (by decide +kernel)
  | compoundType h => exact h
-- the first of two reasons counts
example : StartUsed (uncoded ++ [r (L 2) [s (L 0)]]) ∧ compile id (uncoded ++ [r (L 2) [s (L 0)]]) = .error .typedNoCode :=
  ⟨⟨L 0, rfl, ⟨L 2, [s (L 0)], none, none⟩, by decide, s (L 0), by decide, rfl⟩, by decide +kernel⟩
/-- `%token enum Token<T> {}; %parser struct Parser<U = i32, T> {}; %left A; %wildcard W; %token_class K D B; %type B T; %type D T; %fallback A C; s ::= a W|C; a ::= a A a {} | K(x) {} | x; x ::= error;` -/
def fine : List Decl := [.token { params := [⟨0, none⟩] }, .parser { params := [⟨1, some 0⟩, ⟨0, none⟩] }, .assoc .left [U 0], .wildcard (U 5), .tokenClass (U 3) [U 4, U 1], .type false (U 1) (some (.named 0)),
  .type false (U 4) (some (.named 0)), .fallback (U 0) [U 2], r (L 0) [s (L 1), ⟨[U 5, U 2], false, false⟩],
  r (L 1) [s (L 1), s (U 0), s (L 1)] (some 0), r (L 1) [s (U 3) true] (some 1), r (L 1) [s (L 2)], r (L 2) [s .error]]
-- the premiss of `C47_sure`
example : ∃ t, compile id unmixed = .ok t := ⟨_, Examples.compiles_iff (by decide +kernel)⟩
example : ∃ t, compile id fine = .ok t := ⟨_, Examples.compiles_iff (by decide +kernel)⟩

end Causex

/-- C47: the documentation says that without `%parser` the parser has the generic parameters of `%token`, so none should be
missing.  One with a default always is: the copy made for the parser drops the default, and is then compared. -/
theorem C47_default_param : (∀ {ord : List (SymbolId × SymbolId) → List (SymbolId × SymbolId)} {ds : List Decl} {it : Skeleton} {p : Param}, OrdOk ord →
      tokenItemOf ds = some it → parserItemOf ds = none → p ∈ it.params → p.dflt ≠ none → ∀ t, compile ord ds ≠ .ok t) ∧
    compile id Causex.paramDefault = .error .paramMissing := by
  refine ⟨fun ho h1 h2 h3 h4 t h => (C47_sure ho h).2.2.2.2.2.2.1.2.2 ⟨_, h1, _, h3, ?_⟩, Causex.paramDefault_err⟩
  rw [h2]
  exact h4

end Pomelo
