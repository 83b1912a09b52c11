import Verif.Model.Ints
/-! # Ranges of integer types -/

namespace Pomelo.Spec

/-- The values of a type -/
def InRange : IntTy → Int → Prop
  | .i8, x => -2 ^ 7 ≤ x ∧ x < 2 ^ 7
  | .i16, x => -2 ^ 15 ≤ x ∧ x < 2 ^ 15
  | .i32, x => -2 ^ 31 ≤ x ∧ x < 2 ^ 31
  | .u8, x => 0 ≤ x ∧ x < 2 ^ 8
  | .u16, x => 0 ≤ x ∧ x < 2 ^ 16
  | .u32, x => 0 ≤ x ∧ x < 2 ^ 32

/-- Every literal of the tables is a value of the type of its table. -/
structure LiteralsFit (t : Tables) : Prop where
  action : ∀ x ∈ t.action, InRange .i32 x
  lookahead : ∀ x ∈ t.lookahead, InRange t.codeType x
  ruleInfo : ∀ x ∈ t.ruleInfo, InRange t.codeType x
  wildcard : InRange t.codeType t.wildcard
  fallback : ∀ x ∈ t.fallback, InRange .i32 x
  dflt : ∀ x ∈ t.dflt, InRange t.actionType x
  shiftOfst : ∀ x ∈ t.shiftOfst, InRange t.shiftOfstType x
  reduceOfst : ∀ x ∈ t.reduceOfst, InRange t.reduceOfstType x

/-- Sizes that a 32 bit integer can count -/
structure Countable (t : Tables) : Prop where
  symbols : t.noCode < 2 ^ 31
  actions : t.nState + t.nRule + 5 < 2 ^ 31
  cells : t.action.length < 2 ^ 31

end Pomelo.Spec
