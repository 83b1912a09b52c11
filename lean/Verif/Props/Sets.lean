import Verif.Proofs.FirstExact
import Verif.Examples
/-!
# C19: nullable and FIRST sets are exact

Stated for the grammar the automaton is built from, against plain context-free derivations
(`Verif/Spec/Cfg.lean`).
-/

namespace Pomelo

open Spec

variable {ord : List (SymbolId × SymbolId) → List (SymbolId × SymbolId)} {ds : List Decl}

theorem automaton_firstExact (ho : OrdOk ord) {g0 g : Grammar} {sts : List LState} (h0 : newFromDecls ds = .ok g0)
    (h : g0.automaton ord = .ok (g, sts)) : FirstExact g ∧ ∀ x, (g.sym x).firstSet ≠ [] → (g.sym x).kind = .nonTerminal := by
  obtain ⟨gD, _, hd, _, hne, rfl⟩ := newFromDecls_spec h0
  obtain ⟨s⟩ := automaton_spec h
  exact s.firstExact hd hne ho

/-- C19: a symbol is regarded as possibly empty iff it derives the empty string. -/
theorem C19_nullable (ho : OrdOk ord) {g0 g : Grammar} {sts : List LState} (h0 : newFromDecls ds = .ok g0)
    (h : g0.automaton ord = .ok (g, sts)) (x : SymbolId) :
    (g.sym x).isLambda = true ↔ Derives g [x] [] :=
  (automaton_firstExact ho h0 h).1.lam x

/-- C19: the first set of a nonterminal holds exactly the tokens that can begin what it derives. -/
theorem C19_first (ho : OrdOk ord) {g0 g : Grammar} {sts : List LState} (h0 : newFromDecls ds = .ok g0)
    (h : g0.automaton ord = .ok (g, sts)) {x : SymbolId} (hx : (g.sym x).kind = .nonTerminal) (n : Nat) :
    n ∈ (g.sym x).firstSet ↔ Begins g [x] n :=
  (automaton_firstExact ho h0 h).1.fst x hx n

/-- C19: so is the set of tokens the closure finds in the rest of a rule (`followOf`), and the rest
is regarded as possibly empty iff it derives the empty string. -/
theorem C19_rest (ho : OrdOk ord) {g0 g : Grammar} {sts : List LState} (h0 : newFromDecls ds = .ok g0)
    (h : g0.automaton ord = .ok (g, sts)) (α : List SymbolId) :
    (∀ n, n ∈ (g.followOf α).1 ↔ Begins g α n) ∧ ((g.followOf α).2 = false ↔ Derives g α []) := by
  obtain ⟨h1, h2⟩ := automaton_firstExact ho h0 h
  exact ⟨h1.follow h2, h1.broken⟩

namespace C19ex
open Tests (U L s r)
/-- Left recursion, an optional symbol, a compound and a symbol that vanishes -/
def gram : List Decl :=
  [ r (L 0) [s (L 1), s (U 1)], r (L 1) [s (L 2), s (L 1), s (U 2)], r (L 1) [], r (L 2) [s (U 3) false true, s (L 3)]
  , r (L 2) [⟨[U 4, U 5], false, false⟩], r (L 3) [], r (L 3) [s (U 6)] ]
/-- Its automaton -/
def auto : Option Grammar :=
  match newFromDecls gram with
  | .ok g0 => match g0.automaton id with
    | .ok (g, _) => some g
    | .error _ => none
  | .error _ => none
example : auto.isSome = true := by decide +kernel
/-- `(index, nullable, first set)` of every nonterminal with rules -/
def sets (g : Grammar) : List (Nat × Bool × List Nat) :=
  (g.symbols.filter (fun x => !(g.sym x).rules.isEmpty)).map (fun x => ((g.sym x).index, (g.sym x).isLambda, sortBy (· < ·) (g.sym x).firstSet))
example : auto.map sets = some
    [(8, false, [1, 2, 3, 4, 5, 6]), (9, true, [2, 3, 4, 5, 6]), (10, true, [3, 4, 5, 6]), (11, true, [3]), (12, true, [6])] := by
  decide +kernel
end C19ex

end Pomelo
