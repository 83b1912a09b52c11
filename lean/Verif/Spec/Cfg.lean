import Verif.Model.States
import Mathlib.Logic.Relation
/-!
# Context-free derivations

The grammar as an ordinary context-free grammar over symbol ids: a right-hand side symbol is a
nonterminal, a token or a class of tokens.
-/

namespace Pomelo.Spec

/-- Right-hand side symbol `X` can be matched by the token symbol `a` -/
def Reads (g : Grammar) (X a : SymbolId) : Prop :=
  match (g.sym X).kind with
  | .terminal => a = X
  | .multiTerminal => a ∈ (g.sym X).subs
  | .nonTerminal => False

/-- One rewriting step of a sentential form -/
def Rewrites (g : Grammar) (α β : List SymbolId) : Prop :=
  ∃ u v r, r < g.rules.length ∧ α = u ++ (g.rule r).lhs :: v ∧ β = u ++ g.rhsSyms r ++ v

/-- `α ⇒* β` -/
def Derives (g : Grammar) : List SymbolId → List SymbolId → Prop := Relation.ReflTransGen (Rewrites g)

/-- `n` is the number of a token that may begin what `α` derives -/
def Begins (g : Grammar) (α : List SymbolId) (n : Nat) : Prop :=
  ∃ a X β, n = (g.sym a).index ∧ Derives g α (X :: β) ∧ Reads g X a

end Pomelo.Spec
