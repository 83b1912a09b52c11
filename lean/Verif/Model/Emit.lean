import Verif.Model.Tables
/-!
# Types in the emitted text of a rule

The text that `translate_code` emits for a rule is a `match` on the values taken from the stack, with the block of the rule as
its only arm.  This is the part of it that the Rust compiler checks: the types of the variables, of the result and of the
variant around it.
-/

namespace Pomelo

/-- The field of the variant `YYn` of `YYMinorType` (mod.rs:2222-2232) -/
def payload (types : List Ty) : Nat → Ty
  | 0 => .unit
  | n + 1 => types.getD n .unit

/-- The text of a rule (mod.rs:2964-3022).  Simplification: the names of the variables are left out. -/
structure RuleText where
  vars : List (Option Ty)  -- for each symbol of the right-hand side the type of its variable; `none` for the pattern `_`
  code : Option Code       -- the block
  result : Ty              -- the annotation of `yyres` (mod.rs:2973-2974, 3013)
  wrapped : Ty             -- the field of the variant built from `yyres` (mod.rs:3019-3020)
  deriving DecidableEq, Repr, Inhabited

/-- mod.rs:2964-3022; `g` is the grammar after the types have been assigned. -/
def Grammar.ruleText (g : Grammar) (types : List Ty) (r : Rule) (rc : RuleCode) : RuleText :=
  { vars := rc.pats.map (·.map (payload types))
    code := rc.code
    result := (g.sym r.lhs).dataType.getD .unit
    wrapped := payload types rc.lhsDt }

/-- The text emitted for the rules, in the course of `build` and `generate_source` (mod.rs:2909-2925) -/
def textOf (ord : List (SymbolId × SymbolId) → List (SymbolId × SymbolId)) (decls : List Decl) : Except GErr (List RuleText) := do
  let g ← newFromDecls decls
  let (g, _) ← g.automaton ord
  let (g, types) ← g.assignTypes [] g.symbols
  let rcs ← g.rules.mapM g.translateCode
  return List.zipWith (g.ruleText types) g.rules rcs

end Pomelo
