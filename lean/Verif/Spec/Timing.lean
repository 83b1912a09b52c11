import Verif.Spec.Parse
/-!
# When blocks are run
-/

namespace Pomelo.Spec

/-- The moves up to the `n`-th token and with it -/
def upTo : Nat → List Move → List Move
  | 0, _ => []
  | _, [] => []
  | n + 1, .read a :: l => .read a :: upTo n l
  | n + 1, .rule r :: l => .rule r :: upTo (n + 1) l

/-- The same move of two parsers whose tokens and rules have other numbers: the token has the same name, or the rule the same text. -/
def SameMove (ds ds' : List Decl) (names names' : List SymName) : Move → Move → Prop
  | .read a, .read b => names[a]? = names'[b]?
  | .rule n, .rule m => (rulesOf ds)[n]? = (rulesOf ds')[m]?
  | _, _ => False

end Pomelo.Spec
