import Verif.Model.Tables
/-!
# The interface of the emitted parser

The parts of `generate_source` that depend on the symbols and say what the emitted module offers: the enumeration `Token`
with its functions, and the signatures of the functions of `Parser`.
-/

namespace Pomelo

/-- A variant of `Token` (mod.rs:2373-2378) -/
structure TokVariant where
  name : SymName
  attributes : Bool
  field : Option Ty
  deriving DecidableEq, Repr, Inhabited

/-- An arm of the three functions of `%extra_token` (mod.rs:2358-2364): `Token::X(e) => e`, or `Token::X((e, _)) => e` -/
structure ExtraArm where
  name : SymName
  whole : Bool
  deriving DecidableEq, Repr, Inhabited

/-- What the emitted module offers.  Simplification: signatures are the types in them; `parse` and the generic parameters
are left out. -/
structure Api where
  variants : List TokVariant           -- `enum Token` (mod.rs:2347-2383)
  extra : Option (Ty × List ExtraArm)  -- result and arms of `Token::{into_extra, extra, extra_mut}` (mod.rs:2402-2424)
  newArg : Option Ty                   -- the parameter of `Parser::new`
  output : Ty                          -- the `Ok` type of `end_of_input`
  error : Ty                           -- the `Err` type of `parse` and `end_of_input`
  extraFns : Option Ty                 -- result of `Parser::{into_extra, extra, extra_mut}`, if they exist
  syntaxError : Ty                     -- the `Ok` type of the `%syntax_error` block (mod.rs:2890-2903)
  deriving DecidableEq, Repr, Inhabited

/-- The symbols of the loop at mod.rs:2347 -/
def Grammar.tokenSyms (g : Grammar) : List SymbolId := (g.symbols.take g.numTerminals).drop 1

/-- The body of the loop at mod.rs:2347-2379, as far as the enumeration is concerned -/
def Grammar.tokVariant (g : Grammar) (s : SymbolId) : TokVariant :=
  { name := (g.sym s).name, attributes := (g.sym s).attributes, field := (g.sym s).dataType }

/-- The arm pushed to `token_extra`, if any (mod.rs:2353-2364) -/
def Grammar.extraArm (g : Grammar) (e : Ty) (s : SymbolId) : Option ExtraArm :=
  (g.sym s).dataType.map fun dt => { name := (g.sym s).name, whole := dt == e }

/-- mod.rs:2341-2424 and 2558-2640; `g` is the grammar after the types have been assigned. -/
def Grammar.api (g : Grammar) : Api :=
  let arg := g.arg.getD .unit
  let root := (g.sym (g.start.getD 0)).dataType.getD .unit
  { variants := g.tokenSyms.map g.tokVariant
    extra := g.extraToken.map fun e => (e, g.tokenSyms.filterMap (g.extraArm e))
    newArg := if arg = .unit then none else some arg
    output := if arg = .unit then root else .pair root arg
    error := g.errType.getD .unit
    extraFns := if arg = .unit then none else some arg
    syntaxError := (g.sym g.errorSymbol).dataType.getD .unit }

/-- The interface emitted for the declarations, in the course of `build` and `generate_source` -/
def apiOf (ord : List (SymbolId × SymbolId) → List (SymbolId × SymbolId)) (decls : List Decl) : Except GErr Api := do
  let g ← newFromDecls decls
  let (g, _) ← g.automaton ord
  let (g, _) ← g.assignTypes [] g.symbols
  return g.api

/-- The values of the fields of `Token`.  Simplification: a named type is a set of values of its own. -/
inductive Value
  | unit
  | atom (ty x : Nat)
  | none
  | some (v : Value)
  | pair (a b : Value)
  deriving DecidableEq, Repr, Inhabited

/-- Matching a token of the right variant against an arm (mod.rs:2360, 2362): the value bound to `e`; `none` if the pattern
does not fit -/
def ExtraArm.get (a : ExtraArm) (field : Option Value) : Option Value :=
  match field, a.whole with
  | .some v, true => .some v
  | .some (.pair e _), false => .some e
  | _, _ => .none

/-- The same for `extra_mut`, followed by an assignment of `e'` (mod.rs:2417-2421): the new field -/
def ExtraArm.set (a : ExtraArm) (e' : Value) (field : Option Value) : Option Value :=
  match field, a.whole with
  | .some _, true => .some e'
  | .some (.pair _ v), false => .some (.pair e' v)
  | _, _ => .none

/-- `Token::into_extra` and `Token::extra` (mod.rs:2407-2416): the first arm with the variant of the token; `none` stands for
text that does not compile (no arm, or a pattern that does not fit). -/
def Api.tokenExtra (a : Api) (name : SymName) (field : Option Value) : Option Value :=
  a.extra.bind fun x => (x.2.find? (·.name = name)).bind (·.get field)

/-- `*token.extra_mut() = e'` (mod.rs:2417-2421): the field afterwards -/
def Api.setTokenExtra (a : Api) (e' : Value) (name : SymName) (field : Option Value) : Option Value :=
  a.extra.bind fun x => (x.2.find? (·.name = name)).bind (·.set e' field)

end Pomelo
