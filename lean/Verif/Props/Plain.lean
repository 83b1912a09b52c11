import Verif.Proofs.Skel
import Verif.Proofs.Moves
import Verif.Proofs.PlainOk
import Verif.Props.Carried
import Verif.Props.Outer
import Verif.Props.Safe
/-!
# C75: types and blocks do not change the automaton

What `%type`, `%default_type`, `%extra_token`, the aliases and the blocks of rules and the outer directives say is not used for the states, the actions, the packed
tables and the numbers of symbols.  Two lists of declarations that agree without all this give the same tables up to the tags of types and the code of rules, and
their parsers make the same moves.
-/

namespace Pomelo

open Spec

variable {ord : List (SymbolId × SymbolId) → List (SymbolId × SymbolId)} {ds ds' : List Decl} {t t' : Tables}
variable {V V' X X' E E' : Type} {sem : Sem V X E} {sem' : Sem V' X' E'}

/-- C75, for any two lists that are accepted -/
theorem C75 (h : compile ord ds = .ok t) (h' : compile ord ds' = .ok t') (e : plain ds = plain ds') : t.core = t'.core := by
  obtain ⟨g, h1, h2⟩ := compile_skel h
  obtain ⟨g', h1', h2'⟩ := compile_skel h'
  rw [← e, h1] at h1'
  cases Except.ok.inj h1'
  exact Except.ok.inj (h2.symm.trans h2')

/-- The parsers shift, reduce and discard the same, stop at the same tokens with the same lists of expected tokens and end in the same way, whatever the types of
their values, as long as no block fails and no value of a wrong type is met.  The two may have been given quite different values. -/
theorem C75_moves (h : compile ord ds = .ok t) (h' : compile ord ds' = .ok t') (e : plain ds = plain ds') (hl : t.stackLimit = t'.stackLimit)
    (n : NeverFails sem) (n' : NeverFails sem') {toks : List (Tok V)} {toks' : List (Tok V')} (hm : toks.map Tok.major = toks'.map Tok.major)
    (fuel : Nat) (x : X) (x' : X') (ht : ∀ a, runAll t sem fuel x toks = some a → ¬ a.mistyped) (ht' : ∀ a, runAll t' sem' fuel x' toks' = some a → ¬ a.mistyped) :
    (runAll t sem fuel x toks).map Res.moves = (runAll t' sem' fuel x' toks').map Res.moves := by
  rcases moves_runAll ⟨C75 h h' e, hl⟩ n n' fuel x x' hm with ⟨a, h1, h2⟩ | ⟨a, h1, h2⟩ | h1
  · exact absurd h2 (ht a h1)
  · exact absurd h2 (ht' a h1)
  · exact h1

/-- If one of them accepts an input, the other accepts it or meets a value of a wrong type. -/
theorem C75_accepts (h : compile ord ds = .ok t) (h' : compile ord ds' = .ok t') (e : plain ds = plain ds') (hl : t.stackLimit = t'.stackLimit)
    (n : NeverFails sem) (n' : NeverFails sem') {toks : List (Tok V)} {toks' : List (Tok V')} (hm : toks.map Tok.major = toks'.map Tok.major)
    (fuel : Nat) (x : X) (x' : X') (ha : ∃ p v, runAll t sem fuel x toks = some (.ok p v)) :
    (∃ p v, runAll t' sem' fuel x' toks' = some (.ok p v)) ∨ ∃ w, runAll t' sem' fuel x' toks' = some (.panic w) ∧ (w = .pattern ∨ w = .rootType) := by
  obtain ⟨p, v, hr⟩ := ha
  rcases moves_runAll ⟨C75 h h' e, hl⟩ n n' fuel x x' hm with ⟨a, h1, h2⟩ | ⟨a, h1, h2⟩ | h1
  · rw [hr] at h1; cases h1; cases h2
  · cases a with
    | panic w => exact .inr ⟨w, h1, h2⟩
    | ok | err => cases h2
  · rw [hr] at h1
    left
    rcases hs : runAll t' sem' fuel x' toks' with _ | (⟨q, w⟩ | ⟨q, w⟩ | w) <;> rw [hs] at h1 <;> simp [Res.moves] at h1 ⊢

/-- A list that is accepted is accepted without its types, aliases and blocks too, and the tables are the same up to tags and code. -/
theorem C75_plain (ho : OrdOk ord) (h : compile ord ds = .ok t) : ∃ t0, compile ord (plain ds) = .ok t0 ∧ t0.core = t.core := by
  obtain ⟨t0, h0⟩ := plain_compile ho h
  refine ⟨t0, h0, ?_⟩
  refine C75 h0 h ?_
  unfold plain
  rw [List.filterMap_filterMap]
  congr 1
  funext d
  cases d <;> first | rfl | skip
  simp only [Decl.plain, Option.bind_some, List.map_map]
  rfl

/-! ## Examples -/

namespace C75ex
open Tests (U L s r logSem)
open Examples C01ex

/-- `sums` with other types and blocks, without aliases and with `%extra_token`: `%left Plus; %extra_token T5; %type Num; %type s T3; %type e T4; %fallback Plus Dash;
s ::= e { 7 }; e ::= e Plus e { 8 }; e ::= Num { 9 }; e ::= LP Neg? e RP { 10 }; %stack_overflow {}` -/
def other : List Decl :=
  [ .assoc .left [U 1], .extraToken (.named 5), .type false (U 2) none, .type false (L 0) (some (.named 3)), .type false (L 1) (some (.named 4))
  , .fallback (U 1) [U 3]
  , r (L 0) [s (L 1)] (some 7), r (L 1) [s (L 1), s (U 1), s (L 1)] (some 8), r (L 1) [s (U 2)] (some 9)
  , r (L 1) [s (U 4), s (U 5) false true, s (L 1), s (U 6)] (some 10), .stackOverflow ]

theorem sums_plain : plain sums = plain other := by decide
theorem sums_ok : compile id sums = .ok (tablesOf sums) := compiles_iff (by decide +kernel)
theorem other_ok : compile id other = .ok (tablesOf other) := compiles_iff (by decide +kernel)

example : (tablesOf sums).core = (tablesOf other).core := C75 sums_ok other_ok sums_plain
example : ∃ t0, compile id (plain other) = .ok t0 ∧ t0.core = (tablesOf sums).core := by
  obtain ⟨t0, h1, h2⟩ := C75_plain OrdOk.id other_ok
  exact ⟨t0, h1, h2.trans (C75 other_ok sums_ok sums_plain.symm)⟩
/-- They do differ: … -/
example : tablesOf sums ≠ tablesOf other := by decide +kernel
/-- … in the tags of tokens and in the code. -/
example : (tablesOf sums).tokenDt = [0, 0, 1, 0, 0, 0, 0] ∧ (tablesOf other).tokenDt = [0, 1, 1, 1, 1, 1, 1] := by decide +kernel

/-- Whatever the one accepts the other accepts, if the texts and numbers get along with the types. -/
example (fuel : Nat) (ms : List Nat) (ha : ∃ p v, runAll (tablesOf sums) logSem fuel [] (ms.map (⟨·, 7⟩)) = some (.ok p v)) :
    (∃ p v, runAll (tablesOf other) C73ex.texts fuel () (ms.map (⟨·, "x"⟩)) = some (.ok p v)) ∨
      ∃ w, runAll (tablesOf other) C73ex.texts fuel () (ms.map (⟨·, "x"⟩)) = some (.panic w) ∧ (w = .pattern ∨ w = .rootType) :=
  C75_accepts sums_ok other_ok sums_plain (by decide +kernel) C73ex.log_neverFails C73ex.texts_neverFails (by simp [Function.comp_def]) fuel [] () ha

/-- Here both accept, after the same reductions. -/
example : (match runAll (tablesOf other) C73ex.texts 100 () (input.map fun k => ⟨k.major, "x"⟩) with
      | some (.ok p _) => p.trace.filterMap (fun | .reduce n _ => some n | _ => none) | _ => []) = [0, 1, 3, 1, 2, 2, 4, 2] ∧
    (outcome (tablesOf sums) logSem input).map (fun x => x.1.trace.filterMap (fun | .reduce n _ => some n | _ => none)) = some [0, 1, 3, 1, 2, 2, 4, 2] := by
  decide +kernel

/-- Types and blocks may be the reason why a list is refused that is accepted without them. -/
example : compile id Causex.uncoded = .error .typedNoCode ∧ compiles (plain Causex.uncoded) = true ∧
    compile id Causex.fallback = .error .fallbackType ∧ compiles (plain Causex.fallback) = true ∧
    compile id Causex.mixed = .error .compoundType ∧ compiles (plain Causex.mixed) = true := by decide +kernel

end C75ex

open Tests Examples in
/-- What `%type` names counts: `%type error T` is a use of `error`, and the order of `%type` is an order of tokens.  So the lists must agree in the symbols that
`%type` names. -/
theorem C75_named : (∃ ds t t', compile id ds = .ok t ∧ compile id (.type false .error (some (.named 1)) :: ds) = .ok t' ∧ t.errorSymbol ≠ t'.errorSymbol) ∧
    ∃ ds t t', compile id ds = .ok t ∧ compile id (.type false (U 2) (some (.named 1)) :: ds) = .ok t' ∧ t.tokenNames ≠ t'.tokenNames := by
  refine ⟨⟨[r (L 0) [s (U 1), s (U 2)] (some 0)], _, _, compiles_iff (by decide +kernel), compiles_iff (by decide +kernel), by decide +kernel⟩,
    ⟨[r (L 0) [s (U 1), s (U 2)] (some 0)], _, _, compiles_iff (by decide +kernel), compiles_iff (by decide +kernel), by decide +kernel⟩⟩

end Pomelo
