import Verif.Spec.Cfg
/-!
# Grammars that differ in the order of their rules only
-/

namespace Pomelo

/-- What a rule is, without the marks set later -/
def Rule.bare (r : Rule) : Rule := { r with lhsStart := false, canReduce := false }

namespace Spec

/-- The same symbols, with the same names, kinds, members and numbers, the same start symbol, and the same rules
(left and right sides, aliases, blocks and precedences) in some order -/
structure SameButOrder (g g' : Grammar) : Prop where
  len : g'.syms.length = g.syms.length
  name : ∀ x, x < g.syms.length → (g'.sym x).name = (g.sym x).name
  kind : ∀ x, x < g.syms.length → (g'.sym x).kind = (g.sym x).kind
  subs : ∀ x, x < g.syms.length → (g'.sym x).subs = (g.sym x).subs
  index : ∀ x, x < g.syms.length → (g'.sym x).index = (g.sym x).index
  start : g'.start = g.start
  rules : (g.rules.map Rule.bare).Perm (g'.rules.map Rule.bare)

end Spec
end Pomelo
