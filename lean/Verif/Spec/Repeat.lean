import Verif.Spec.Plain
/-!
# Rules that are written twice
-/

namespace Pomelo.Spec

/-- Two rules have the same left-hand side and the same right-hand side, up to aliases.  Their blocks and their precedence
marks may differ. -/
def Repeats (ds : List Decl) : Prop :=
  ∃ (i j : Nat) (u v : URule), i ≠ j ∧ (rulesOf ds)[i]? = some u ∧ (rulesOf ds)[j]? = some v ∧ u.lhs = v.lhs ∧ u.rhs.map RhsElem.plain = v.rhs.map RhsElem.plain

end Pomelo.Spec
