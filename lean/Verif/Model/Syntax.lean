import Verif.Model.Tables
/-!
# The syntax of the declarations: `impl Parse for Decl` (lib.rs)

The input is a list of tokens.  Whatever `syn` reads in one call (a type, an item, an attribute, a
group in brackets) is one token here, marked with whether `syn` accepts its contents.  All errors
are one: the macro stops with an error of `syn`.
-/

namespace Pomelo

/-- The custom keywords (lib.rs:52-73).  They are ordinary identifiers everywhere but after `%`. -/
inductive Kw where
  | module | include | syntaxError | parseFail | stackOverflow | left | right | nonassoc | defaultType | extraArgument
  | error | startSymbol | fallback | wildcard | tokenClass | token | verbose | extraToken | stackSize | parser
  deriving DecidableEq, Repr

/-- The keyword as an identifier (lib.rs:52-73).  Simplification: the numbers of the first identifiers with a lowercase letter
are those of the keywords. -/
def Kw.ident : Kw → Ident
  | .module => .lower 0
  | .include => .lower 1
  | .syntaxError => .lower 2
  | .parseFail => .lower 3
  | .stackOverflow => .lower 4
  | .left => .lower 5
  | .right => .lower 6
  | .nonassoc => .lower 7
  | .defaultType => .lower 8
  | .extraArgument => .lower 9
  | .error => .error
  | .startSymbol => .lower 10
  | .fallback => .lower 11
  | .wildcard => .lower 12
  | .tokenClass => .lower 13
  | .token => .lower 14
  | .verbose => .lower 15
  | .extraToken => .lower 16
  | .stackSize => .lower 17
  | .parser => .lower 18

/-- Tokens of the input of the macro, as far as lib.rs:39-305 looks at them -/
inductive Lexeme where
  | ident (i : Ident)          -- an identifier that is not a Rust keyword
  | percent | semi | colons | eq | pipe | question
  | typeKw                     -- the Rust keyword `type`
  | attr                       -- `#[...]`
  | ty (t : Ty)                -- the tokens of a type
  | enumItem (item : Skeleton)     -- `enum X {...}`
  | structItem (item : Skeleton)   -- `struct X {...}`
  | int (n : Option Nat)       -- an integer literal; `none` if it does not fit into `usize`
  | paren (ok : Bool)          -- `( pattern )`, or parentheses with something else in them
  | bracket (i : Option Ident) -- `[ identifier ]`, or brackets with something else in them
  | brace (items : Bool) (block : Option Nat) -- `{ ... }`: whether it can be read as items, and as a block
  | other                      -- anything else
  deriving DecidableEq, Repr

/-- `input.parse::<Token![;]>()` (for instance lib.rs:91), then the declaration -/
def semiThen (d : Decl) : List Lexeme → Option (Decl × List Lexeme)
  | .semi :: ts => some (d, ts)
  | _ => none

/-- `if input.peek(Token![;])` (for instance lib.rs:108-110) -/
def maybeSemi : List Lexeme → List Lexeme
  | .semi :: ts => ts
  | ts => ts

/-- `while !input.peek(Token![;])` with identifiers, and the `;` (for instance lib.rs:139-143) -/
def parseIdents : List Lexeme → Option (List Ident × List Lexeme)
  | .semi :: ts => some ([], ts)
  | .ident i :: ts =>
    match parseIdents ts with
    | some (ids, ts) => some (i :: ids, ts)
    | none => none
  | _ => none

/-- `Attribute::parse_outer` (lib.rs:83): whether there are any -/
def parseAttrs : List Lexeme → Bool × List Lexeme
  | .attr :: ts => (true, (parseAttrs ts).2)
  | ts => (false, ts)

/-- `%type`, after the keyword (lib.rs:80-92) -/
def parseType (ts : List Lexeme) : Option (Decl × List Lexeme) :=
  match (parseAttrs ts).2 with
  | .ident i :: .semi :: us => some (.type (parseAttrs ts).1 i none, us)
  | .ident i :: .ty t :: us => semiThen (.type (parseAttrs ts).1 i (some t)) us
  | _ => none

/-- A directive with a block, after the keyword (lib.rs:114-118, 122-126, 130-134) -/
def parseBlock (d : Decl) : List Lexeme → Option (Decl × List Lexeme)
  | .brace _ (some _) :: ts => some (d, maybeSemi ts)
  | _ => none

/-- A directive with a type, after the keyword (for instance lib.rs:165-168) -/
def parseTyped (f : Ty → Decl) : List Lexeme → Option (Decl × List Lexeme)
  | .ty t :: ts => semiThen (f t) ts
  | _ => none

/-- A directive with one identifier, after the keyword (for instance lib.rs:183-186) -/
def parseNamed (f : Ident → Decl) : List Lexeme → Option (Decl × List Lexeme)
  | .ident i :: ts => semiThen (f i) ts
  | _ => none

/-- A directive with a list of identifiers, after the keyword (for instance lib.rs:138-144) -/
def parseListed (f : List Ident → Decl) (ts : List Lexeme) : Option (Decl × List Lexeme) :=
  match parseIdents ts with
  | some (ids, ts) => some (f ids, ts)
  | none => none

/-- A directive with an identifier and a list of identifiers, after the keyword (lib.rs:189-196, 205-212) -/
def parseHeaded (f : Ident → List Ident → Decl) : List Lexeme → Option (Decl × List Lexeme)
  | .ident i :: ts => parseListed (f i) ts
  | _ => none

/-- `%include`, after the keyword (lib.rs:101-111) -/
def parseInclude : List Lexeme → Option (Decl × List Lexeme)
  | .brace true _ :: ts => some (.include, maybeSemi ts)
  | _ => none

/-- `%token`, after the keyword (lib.rs:215-218) -/
def parseEnum : List Lexeme → Option (Decl × List Lexeme)
  | .enumItem item :: ts => semiThen (.token item) ts
  | _ => none

/-- `%parser`, after the keyword (lib.rs:243-246) -/
def parseStruct : List Lexeme → Option (Decl × List Lexeme)
  | .structItem item :: ts => semiThen (.parser item) ts
  | _ => none

/-- `%stack_size`, after the keyword (lib.rs:227-235) -/
def parseStackSize : List Lexeme → Option (Decl × List Lexeme)
  | .int (some n) :: .semi :: ts => some (.stackSize n none, ts)
  | .int (some n) :: .ty t :: ts => semiThen (.stackSize n (some t)) ts
  | _ => none

/-- What follows the keyword (lib.rs:93-246) -/
def parseKw : Kw → List Lexeme → Option (Decl × List Lexeme)
  | .module => parseNamed (fun _ => .module)
  | .include => parseInclude
  | .syntaxError => parseBlock .syntaxError
  | .parseFail => parseBlock .parseFail
  | .stackOverflow => parseBlock .stackOverflow
  | .left => parseListed (.assoc .left)
  | .right => parseListed (.assoc .right)
  | .nonassoc => parseListed (.assoc .none)
  | .defaultType => parseTyped .defaultType
  | .extraArgument => parseTyped .extraArgument
  | .error => parseTyped .error
  | .startSymbol => parseNamed .startSymbol
  | .fallback => parseHeaded .fallback
  | .wildcard => parseNamed .wildcard
  | .tokenClass => parseHeaded .tokenClass
  | .token => parseEnum
  | .verbose => semiThen .verbose
  | .extraToken => parseTyped .extraToken
  | .stackSize => parseStackSize
  | .parser => parseStruct

/-- All keywords, in the order of the tests (lib.rs:93-246) -/
def Kw.all : List Kw :=
  [.module, .include, .syntaxError, .parseFail, .stackOverflow, .left, .right, .nonassoc, .defaultType, .extraArgument,
   .error, .startSymbol, .fallback, .wildcard, .tokenClass, .token, .extraToken, .stackSize, .verbose, .parser]

/-- A directive, after the `%` (lib.rs:78-249) -/
def parseDirective : List Lexeme → Option (Decl × List Lexeme)
  | .typeKw :: ts => parseType ts
  | .ident i :: ts =>
    match Kw.all.find? (fun k => k.ident = i) with
    | some k => parseKw k ts
    | none => none
  | _ => none

/-- The rest of `Punctuated::parse_separated_nonempty` (lib.rs:265), after the first identifier -/
def parsePipes : List Lexeme → Option (List Ident × List Lexeme)
  | .pipe :: .ident i :: ts =>
    match parsePipes ts with
    | some (ids, ts) => some (i :: ids, ts)
    | none => none
  | .pipe :: _ => none
  | ts => some ([], ts)

/-- `?` (lib.rs:267-272) -/
def parseOpt : List Lexeme → Bool × List Lexeme
  | .question :: ts => (true, ts)
  | ts => (false, ts)

/-- The alias (lib.rs:273-279) -/
def parseAlias : List Lexeme → Option (Bool × List Lexeme)
  | .paren true :: ts => some (true, ts)
  | .paren false :: _ => none
  | ts => some (false, ts)

/-- One element of a right-hand side, whose first identifier is `i` (lib.rs:265-280) -/
def parseElem (i : Ident) (ts : List Lexeme) : Option (RhsElem × List Lexeme) :=
  match parsePipes ts with
  | some (ids, ts) =>
    match parseAlias (parseOpt ts).2 with
    | some (a, us) => some (⟨i :: ids, (parseOpt ts).1, a⟩, us)
    | none => none
  | none => none

/-- The loop over the elements (lib.rs:258-281).  The fuel is the number of tokens. -/
def parseRhs : Nat → List Lexeme → Option (List RhsElem × List Lexeme)
  | 0, ts => some ([], ts)
  | fuel + 1, .ident i :: ts =>
    match parseElem i ts with
    | some (e, us) =>
      match parseRhs fuel us with
      | some (es, vs) => some (e :: es, vs)
      | none => none
    | none => none
  | _ + 1, ts => some ([], ts)

/-- The precedence of a rule (lib.rs:282-288) -/
def parsePrec : List Lexeme → Option (Option Ident × List Lexeme)
  | .bracket (some i) :: ts => some (some i, ts)
  | .bracket none :: _ => none
  | ts => some (none, ts)

/-- The block of a rule (lib.rs:289-293) -/
def parseCode : List Lexeme → Option (Option Nat × List Lexeme)
  | .brace _ (some n) :: ts => some (some n, ts)
  | .brace _ none :: _ => none
  | ts => some (none, ts)

/-- A rule (lib.rs:250-303) -/
def parseRule : List Lexeme → Option (Decl × List Lexeme)
  | .ident l :: .colons :: .eq :: ts =>
    match parseRhs ts.length ts with
    | some (rhs, ts) =>
      match parsePrec ts with
      | some (p, ts) =>
        match parseCode ts with
        | some (c, ts) => some (.rule l rhs c p, maybeSemi ts)
        | none => none
      | none => none
    | none => none
  | _ => none

/-- `impl Parse for Decl` (lib.rs:75-305) -/
def parseDecl : List Lexeme → Option (Decl × List Lexeme)
  | .percent :: ts => parseDirective ts
  | ts => parseRule ts

/-- The loop of `impl Parse for Decls` (lib.rs:42-50).  The fuel is the number of tokens. -/
def parseAll : Nat → List Lexeme → Option (List Decl)
  | _, [] => some []
  | 0, _ => none
  | fuel + 1, ts =>
    match parseDecl ts with
    | some (d, us) =>
      match parseAll fuel us with
      | some ds => some (d :: ds)
      | none => none
    | none => none

/-- `impl Parse for Decls` (lib.rs:42-50) -/
def parseText (ts : List Lexeme) : Option (List Decl) := parseAll ts.length ts

/-- `pomelo_impl` (lib.rs:18-38): `none` is an error of `syn` -/
def pomeloImpl (ord : List (SymbolId × SymbolId) → List (SymbolId × SymbolId)) (ts : List Lexeme) : Option (Except GErr Tables) :=
  (parseText ts).map (compile ord)

end Pomelo
