import Verif.Spec.Rows
/-!
# Precedences against each other

The rules of the documentation for a token with precedence `p` and a rule with precedence `p'`.
-/

namespace Pomelo.Spec

/-- Shift: the token binds tighter, or they are equal and right-associative. -/
def Tighter (p p' : Precedence) : Prop := p'.level < p.level ∨ (p.level = p'.level ∧ p.assoc = .right)
/-- Reduce: the token binds looser, or they are equal and left-associative. -/
def Looser (p p' : Precedence) : Prop := p.level < p'.level ∨ (p.level = p'.level ∧ p.assoc = .left)
/-- Neither: they are equal and non-associative. -/
def Excluded (p p' : Precedence) : Prop := p.level = p'.level ∧ p.assoc = .none

end Pomelo.Spec
