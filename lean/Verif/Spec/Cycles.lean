import Verif.Spec.Cfg
import Verif.Model.Runtime
/-!
# Grammars in which a symbol can be reduced to itself, or be preceded by itself at no cost

Needed to say when a parser cannot reduce forever.
-/

namespace Pomelo.Spec

/-- `A` can be made of `X` alone: a rule of `A` has `X` among symbols that can vanish. -/
def UnitOf (g : Grammar) (A X : SymbolId) : Prop :=
  ∃ r α β, r < g.rules.length ∧ (g.rule r).lhs = A ∧ g.rhsSyms r = α ++ X :: β ∧ Derives g α [] ∧ Derives g β []

/-- `A` may begin with `X`, after `α` that can vanish. -/
def LeftOf (g : Grammar) (α : List SymbolId) (A X : SymbolId) : Prop :=
  ∃ r β, r < g.rules.length ∧ (g.rule r).lhs = A ∧ g.rhsSyms r = α ++ X :: β ∧ Derives g α []

/-- No symbol derives itself: not `A ⇒⁺ A`. -/
def NoCycle (g : Grammar) : Prop := ∀ A, ¬ Relation.TransGen (UnitOf g) A A

/-- No symbol is left recursive behind symbols that can vanish: not `A ⇒⁺ α A β` with `α ⇒* ε`, `α` not empty. -/
def NoHidden (g : Grammar) : Prop :=
  ∀ α A X, α ≠ [] → LeftOf g α A X → ¬ Relation.ReflTransGen (fun B Y => ∃ δ, LeftOf g δ B Y) X A

variable {V X E : Type}

/-- A call that comes back: it ends, and not by exhausting the native stack -/
def Returns {α : Type} (f : Nat → Option (Res V X E α)) : Prop := ∃ fuel r, f fuel = some r ∧ ∀ w, r = .panic w → w ≠ .recursion

end Pomelo.Spec
