import Verif.Spec.Cfg
/-! # What an input token may stand for -/

namespace Pomelo.Spec

/-- An input token may be taken for itself, for a fallback of it, or for the wildcard; the end of
input (symbol 0) for itself only. -/
inductive Stands (g : Grammar) : SymbolId → SymbolId → Prop
  | self {a} : Stands g a a
  | fallback {a f b} : (g.sym a).fallback = some f → Stands g f b → Stands g a b
  | wildcard {a w} : g.wildcard = some w → a ≠ 0 → Stands g a w

end Pomelo.Spec
