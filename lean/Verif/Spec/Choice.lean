import Verif.Spec.Causes
/-!
# The choice between any number of candidates

In a state the token `a` may be shifted and any number of rules may be complete before it.  `Yields` (`Verif/Spec/Causes.lean`) says when a rule gives
way to another candidate.
-/

namespace Pomelo.Spec

/-- The token is stronger than the rule. -/
def Prevails (g : Grammar) (a : SymbolId) (r : RuleId) : Prop :=
  ∃ p p', (g.sym a).precedence = some p ∧ (g.rule r).precedence = some p' ∧ Tighter p p'

/-- The token must not be used: it can be shifted, and among the complete rules the first one that it is not stronger than has the same
non-associative precedence. -/
def Barred (g : Grammar) (γ : List SymbolId) (a : SymbolId) : Prop :=
  ∃ X c p p', ShiftsOn g γ a X ∧ ReducesOn g γ a c ∧ (g.sym a).precedence = some p ∧ (g.rule c).precedence = some p' ∧ Excluded p p' ∧
    ∀ b, ReducesOn g γ a b → b < c → Prevails g a b

/-- Some complete rule has the same non-associative precedence as the token that can be shifted. -/
def Tied (g : Grammar) (γ : List SymbolId) (a : SymbolId) : Prop :=
  ∃ X c p p', ShiftsOn g γ a X ∧ ReducesOn g γ a c ∧ (g.sym a).precedence = some p ∧ (g.rule c).precedence = some p' ∧ Excluded p p'

end Pomelo.Spec
