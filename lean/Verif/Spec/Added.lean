import Verif.Spec.Decls
/-!
# More rules
-/

namespace Pomelo.Spec

/-- Some rules are added, anywhere. -/
inductive Added (ds : List Decl) : List Decl → Prop
  | same : Added ds ds
  | rule {l lhs rhs code prec r} : Added ds (l ++ r) → Added ds (l ++ .rule lhs rhs code prec :: r)

end Pomelo.Spec
