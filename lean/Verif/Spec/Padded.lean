import Verif.Spec.Unread
import Verif.Spec.Api
/-!
# Lists of declarations that begin with tokens that are not used
-/

namespace Pomelo.Spec

/-- The symbol, if the element is one with a question mark (after a list of alternatives a question mark has no effect) -/
def optionalSym (e : RhsElem) : Option Ident :=
  match e.toks, e.optional with
  | [i], true => some i
  | _, _ => none

/-- The symbols that are written with a question mark in some rule, each once -/
def optionalOf (ds : List Decl) : List Ident := ((rulesOf ds).flatMap fun u => u.rhs.filterMap optionalSym).eraseDups

/-- How many rules the generated parser has: the written ones, and two for each optional symbol -/
def ruleCount (ds : List Decl) : Nat := (rulesOf ds).length + 2 * (optionalOf ds).length

/-- The tokens named first are not used in rules, and there are as many of these as rules. -/
def padded (ds : List Decl) : Bool := decide (ruleCount ds ≤ (tokensOf ds).length) && ((tokensOf ds).take (ruleCount ds)).all (unread ds)

/-- `%type P1; %type P2; …` -/
def front (ids : List Ident) : List Decl := ids.map fun i => .type false i none

/-- Enough different new tokens: at least as many as the parser has rules, none of which occurs in the declarations -/
structure Pads (ds : List Decl) (ids : List Ident) : Prop where
  distinct : ids.Nodup
  token : ∀ i ∈ ids, i.isTerminal = true
  fresh : ∀ i ∈ ids, ∀ d ∈ ds, i ∉ mentions d
  enough : ruleCount ds ≤ ids.length

end Pomelo.Spec
