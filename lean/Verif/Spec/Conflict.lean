import Verif.Spec.Lr1
/-!
# LALR(1) conflicts

Without states: a state is the set of LR(0) items valid for a prefix; two prefixes with the same
set are in the same state.
-/

namespace Pomelo.Spec

/-- The two prefixes lead to the same state. -/
def SameState (g : Grammar) (γ γ' : List SymbolId) : Prop := ∀ it, Viable g γ it ↔ Viable g γ' it

/-- After `γ` the token `a` can be shifted as the right-hand side symbol `X`. -/
def ShiftsOn (g : Grammar) (γ : List SymbolId) (a X : SymbolId) : Prop :=
  ∃ it, Viable g γ it ∧ atDot g it = some X ∧ Reads g X a

/-- The rule `r` is complete after `γ`, and `a` is one of its LALR(1) lookaheads. -/
def ReducesOn (g : Grammar) (γ : List SymbolId) (a : SymbolId) (r : RuleId) : Prop :=
  a < g.syms.length ∧ (g.sym a).kind = .terminal ∧
  ∃ γ', SameState g γ γ' ∧ Ahead g γ' ⟨r, (g.rhsSyms r).length⟩ (g.sym a).index

/-- A conflict on the token `a` after `γ` that precedences do not settle -/
inductive Unsettled (g : Grammar) (γ : List SymbolId) (a : SymbolId) : Prop
  /-- the token can be read as two different symbols -/
  | shiftShift {X Y} : ShiftsOn g γ a X → ShiftsOn g γ a Y → X ≠ Y → Unsettled g γ a
  /-- or as a class that lists some token twice -/
  | repeated {X} : ShiftsOn g γ a X → ¬ (g.sym X).subs.Nodup → Unsettled g γ a
  /-- shift and reduce, and the token or the rule has no precedence -/
  | shiftReduce {X r} : ShiftsOn g γ a X → ReducesOn g γ a r →
      (g.sym a).precedence = none ∨ (g.rule r).precedence = none → Unsettled g γ a
  /-- two rules, one without precedence or both with the same one, not associative -/
  | reduceReduce {r r'} : ReducesOn g γ a r → ReducesOn g γ a r' → r ≠ r' →
      ((g.rule r).precedence = none ∨ (g.rule r').precedence = none ∨
        ∃ p q, (g.rule r).precedence = some p ∧ (g.rule r').precedence = some q ∧ p.level = q.level ∧ p.assoc = .none) →
      Unsettled g γ a

end Pomelo.Spec
