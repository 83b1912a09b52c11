import Verif.Spec.Exchange
/-!
# Rules in another order
-/

namespace Pomelo.Spec

/-- Two declarations that must keep their order: as in `orderMatters`, but two rules may change places. -/
def orderFixed : Decl → Decl → Bool
  | .rule .., .rule .. => false
  | d, d' => orderMatters d d'

/-- Some exchanges of adjacent declarations, of two rules or of two whose order does not matter -/
inductive Shuffled (ds : List Decl) : List Decl → Prop
  | same : Shuffled ds ds
  | swap {l d d' r} : Shuffled ds (l ++ d :: d' :: r) → orderFixed d d' = false → Shuffled ds (l ++ d' :: d :: r)

end Pomelo.Spec
