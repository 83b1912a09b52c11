/-!
# Basic data types of the model

Identifiers, types, declarations, symbols, rules: `pomelo-impl/src/decl.rs` and the
structures at the top of `pomelo-impl/src/parser/mod.rs`.
-/

namespace Pomelo

/-- Arena index of a symbol: `type SymbolId = VecRefId<Symbol>` (mod.rs:41). -/
abbrev SymbolId := Nat
/-- `type RuleId = VecRefId<Rule>` (mod.rs:43).  `create_rule` pushes every rule to both
`the_rules` and `rules` (mod.rs:2060-2080), so the arena index, the position in `rules` and
the field `index` coincide; the model uses one number for all three. -/
abbrev RuleId := Nat
/-- `type StateId = VecRefId<State>` (mod.rs:42).  Equal to the creation number of the state;
`resort_states` later changes `state_num` but not the id. -/
abbrev StateId := Nat

/-- A Rust identifier as far as pomelo looks at it.  Simplification: the text is replaced by
the class of its first character (`is_terminal_ident`, `is_nonterminal_ident`,
mod.rs:512-518) and a number; two identifiers are the same text iff they are equal here.
The identifier `error` is singled out because `new_from_decls` creates a symbol of that
name (mod.rs:555). -/
inductive Ident where
  | upper (n : Nat)   -- starts with an ASCII uppercase letter
  | lower (n : Nat)   -- starts with an ASCII lowercase letter, not `error`
  | error             -- the identifier `error`
  | other (n : Nat)   -- anything else, such as `_x`
  deriving DecidableEq, Repr, Inhabited

/-- mod.rs:512-514 -/
def Ident.isTerminal : Ident → Bool
  | .upper _ => true
  | _ => false

/-- mod.rs:516-518 -/
def Ident.isNonTerminal : Ident → Bool
  | .lower _ => true
  | .error => true
  | _ => false

/-- Names of symbols (`Symbol::name`, mod.rs:83): `"$"`, `"{default}"` (mod.rs:554,563),
identifiers, the generated `"_n"` of optional symbols (mod.rs:2000) and the empty name of
anonymous compounds (mod.rs:2012).  None of the generated names is an identifier that
passes the two tests above. -/
inductive SymName where
  | dollar
  | dflt
  | ident (i : Ident)
  | opt (n : Nat)
  | anon
  deriving DecidableEq, Repr, Inhabited

/-- Rust types, up to the constructions pomelo itself performs on them:
`Option<T>` (mod.rs:663), `(E, T)` (mod.rs:645) and `()`. -/
inductive Ty where
  | unit
  | named (n : Nat)
  | option (t : Ty)
  | pair (a b : Ty)
  deriving DecidableEq, Repr, Inhabited

/-- decl.rs:3-8 -/
inductive Assoc where
  | left | right | none
  deriving DecidableEq, Repr, Inhabited

/-- One element of a right-hand side as written: the alternatives separated by `|`, the `?`
flag and whether there is an alias (decl.rs:33).  Simplification: the alias pattern itself is
not modelled, only its presence (patterns are documented to be irrefutable). -/
structure RhsElem where
  toks : List Ident
  optional : Bool
  alias : Bool
  deriving DecidableEq, Repr, Inhabited

/-- A generic parameter (`syn::GenericParam`, compared in mod.rs:2195).  Simplification: what is written up to a default (name,
bounds, attributes) is a number, and so is the default. -/
structure Param where
  text : Nat
  dflt : Option Nat := none
  deriving DecidableEq, Repr, Inhabited

/-- The items of `%token` and `%parser` (decl.rs:29, 32): number of variants or fields, and generic parameters.  Simplification:
the name, the attributes, the visibility and the `where` clause are dropped. -/
structure Skeleton where
  fields : Nat := 0
  params : List Param := []
  deriving DecidableEq, Repr, Inhabited

/-- decl.rs:10-37.  Simplifications: blocks and included items are
reduced to their presence; a rule block is a number naming it. `%type` keeps only whether
there are attributes. -/
inductive Decl where
  | module
  | include
  | syntaxError
  | parseFail
  | stackOverflow
  | type (attrs : Bool) (id : Ident) (ty : Option Ty)
  | assoc (a : Assoc) (ids : List Ident)
  | defaultType (ty : Ty)
  | extraArgument (ty : Ty)
  | error (ty : Ty)
  | startSymbol (id : Ident)
  | fallback (fb : Ident) (ids : List Ident)
  | wildcard (id : Ident)
  | tokenClass (tk : Ident) (ids : List Ident)
  | token (item : Skeleton)
  | extraToken (ty : Ty)
  | stackSize (limit : Nat) (ty : Option Ty)
  | parser (item : Skeleton)
  | verbose
  | rule (lhs : Ident) (rhs : List RhsElem) (action : Option Nat) (prec : Option Ident)
  deriving DecidableEq, Repr, Inhabited

/-- mod.rs:27-28 -/
structure Precedence where
  level : Nat
  assoc : Assoc
  deriving DecidableEq, Repr, Inhabited

/-- `enum NewSymbolType` (mod.rs:21-25) and the tag of `enum SymbolType` (mod.rs:70-78). -/
inductive SymKind where
  | terminal | nonTerminal | multiTerminal
  deriving DecidableEq, Repr, Inhabited

/-- `struct Symbol` with `enum SymbolType` flattened (mod.rs:69-92): `rules`, `firstSet` and
`lambda` are meaningful for nonterminals, `subs` for multi-terminals.  Simplification: of `attributes` only
whether there are any. -/
structure Symbol where
  name : SymName
  index : Nat := 0
  kind : SymKind
  rules : List RuleId := []
  firstSet : List Nat := []
  lambda : Bool := false
  subs : List SymbolId := []
  fallback : Option SymbolId := none
  precedence : Option Precedence := none
  useCnt : Nat := 1
  dataType : Option Ty := none
  dtNum : Nat := 0
  attributes : Bool := false
  deriving DecidableEq, Repr, Inhabited

/-- mod.rs:95-100 -/
def Symbol.isLambda (s : Symbol) : Bool :=
  match s.kind with
  | .nonTerminal => s.lambda
  | _ => false

/-- Code of a rule: a user block or one of the blocks pomelo writes itself
(`{ _A }` mod.rs:745, `{ None }` mod.rs:670, `{ Some(_A) }` mod.rs:679). -/
inductive Code where
  | user (n : Nat)
  | forward
  | optNone
  | optSome
  deriving DecidableEq, Repr, Inhabited

/-- `struct SymbolAlias` (mod.rs:54), spans dropped, alias reduced to its presence. -/
structure RhsSym where
  sym : SymbolId
  alias : Bool
  deriving DecidableEq, Repr, Inhabited

/-- `struct Rule` (mod.rs:57-67); `span` dropped, `index` is the position in the list. -/
structure Rule where
  lhs : SymbolId
  lhsStart : Bool := false
  rhs : List RhsSym
  code : Option Code
  precSym : Option SymbolId
  precedence : Option Precedence := none
  canReduce : Bool := false
  deriving DecidableEq, Repr, Inhabited

/-- Ways the macro can fail.  Every constructor but the last three stands for an error
message of the code. -/
inductive GErr where
  | noRules                 -- "Grammar must have some rules"
  | alreadyDefined          -- "... already defined"
  | attributesOnNonTerminal
  | badSymbol               -- "Symbol must start with uppercase or lowercase letter"
  | precOnNonTerminal
  | precTwice
  | startNotNonTerminal
  | fallbackNotToken
  | fallbackLoop
  | fallbackTwice
  | wildcardNotToken
  | classNotToken
  | lhsNotNonTerminal
  | compoundNonTerminal
  | precSymNotToken
  | typedNoCode             -- "This rule has a typed LHS but no code to assign it"
  | startOnRhs
  | noRulesFor              -- "Nonterminal has no rules"
  | cannotReduce            -- "This rule cannot be reduced"
  | conflicts               -- "Parsing conflicts: ..."
  | wildcardTyped
  | tokenNotEmpty           -- "Token enum declaration must be empty"
  | parserNotEmpty          -- "Parser struct declaration must be empty"
  | paramMissing            -- "Generic parameter in Token is not in Parser"
  | fallbackType
  | compoundType
  | wildcardAlias
  | panic                   -- a Rust panic inside the macro
  | hang                    -- the macro does not terminate
  | fuel                    -- model artefact: a loop bound of the model was too small
  deriving DecidableEq, Repr, Inhabited

/-! ## Sets, arenas, sorting -/

/-- `BTreeSet::insert` (only membership and size of the sets are ever observed). -/
def setInsert (s : List Nat) (x : Nat) : List Nat := if s.contains x then s else x :: s

/-- `BTreeSet::extend` -/
def setUnion (s t : List Nat) : List Nat := t.foldl setInsert s

/-- One insertion of `insertion_sort_shift_left`: the sorted prefix is kept reversed and the
new element moves left past every element it is strictly less than. -/
def insertRev (lt : α → α → Bool) (x : α) : List α → List α
  | [] => [x]
  | y :: ys => if lt x y then y :: insertRev lt x ys else x :: y :: ys

/-- `slice::sort_by` as a stable insertion sort.  Rust uses exactly this for up to 20 elements;
for longer slices it uses another stable algorithm, which gives the same result whenever the
comparison is a total preorder. -/
def sortBy (lt : α → α → Bool) (l : List α) : List α :=
  (l.foldl (fun acc x => insertRev lt x acc) []).reverse

end Pomelo
