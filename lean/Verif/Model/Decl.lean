import Verif.Model.Basic
/-!
# Processing of declarations

`Pomelo::new_from_decls`, `parse_one_decl`, `create_rule`, `symbol_new` (mod.rs).
-/

namespace Pomelo

/-- The part of `struct Pomelo` (mod.rs:234-264) filled while reading declarations, and
`ParserData::precedence` (mod.rs:266).  Blocks and types that only matter for the emitted
Rust text are reduced to "is it set". `optionals` is `optional_tokens` in insertion order. -/
structure Grammar where
  syms : List Symbol := []              -- the_symbols
  symbols : List SymbolId := []         -- symbols
  rules : List Rule := []               -- the_rules / rules
  errorSymbol : SymbolId := 0
  wildcard : Option SymbolId := none
  start : Option SymbolId := none
  hasFallback : Bool := false
  defaultType : Option Ty := none
  extraToken : Option Ty := none
  arg : Option Ty := none
  errType : Option Ty := none
  syntaxError : Bool := false
  parseFail : Bool := false
  stackOverflow : Bool := false
  tokenEnum : Option Skeleton := none
  parserStruct : Option Skeleton := none
  stackType : Option Ty := none
  stackLimit : Nat := 100
  optionals : List (SymbolId × SymbolId) := []
  prec : Nat := 0
  numTerminals : Nat := 0
  defaultIndex : Nat := 0
  deriving DecidableEq, Repr, Inhabited

/-- `the_symbols.get(id)` (vecref.rs:22).  Out-of-range ids panic in Rust; ids are created by
`symbol_new` only, so the default is never used. -/
def Grammar.sym (g : Grammar) (s : SymbolId) : Symbol := g.syms.getD s default

/-- `the_rules.get(id)` -/
def Grammar.rule (g : Grammar) (r : RuleId) : Rule := g.rules.getD r default

/-- `the_symbols.get_mut(id)` followed by an assignment -/
def Grammar.modifySym (g : Grammar) (s : SymbolId) (f : Symbol → Symbol) : Grammar :=
  { g with syms := g.syms.modify s f }

/-- `symbol_find` (mod.rs:1731-1739) -/
def Grammar.symbolFind (g : Grammar) (name : SymName) : Option SymbolId :=
  g.symbols.find? (fun s => (g.sym s).name = name)

/-- `symbol_new` (mod.rs:1686-1730).  An existing symbol of the same non-empty name is
returned, after counting the use and turning a terminal into a multi-terminal if one is asked
for.  The `unreachable!()` of mod.rs:1699 (a nonterminal asked as multi-terminal) cannot be
reached because multi-terminals are only asked for names that start with an uppercase letter;
the model leaves the symbol alone there. -/
def Grammar.symbolNew (g : Grammar) (name : SymName) (k : SymKind) : Grammar × SymbolId :=
  let found := if name = .anon then none else g.symbolFind name
  match found with
  | some s =>
    (g.modifySym s (fun b =>
      { b with
        useCnt := b.useCnt + 1
        kind := if k = .multiTerminal ∧ b.kind = .terminal then .multiTerminal else b.kind }), s)
  | none =>
    let id := g.syms.length
    ({ g with
        syms := g.syms ++ [{ name := name, kind := k }]
        symbols := g.symbols ++ [id] }, id)

/-- `create_rule` (mod.rs:2052-2081) -/
def Grammar.createRule (g : Grammar) (lhs : SymbolId) (rhs : List RhsSym) (code : Option Code)
    (precSym : Option SymbolId) : Grammar :=
  let id := g.rules.length
  let g : Grammar := { g with rules := g.rules ++ [{ lhs, rhs, code, precSym }] }
  g.modifySym lhs (fun b => { b with rules := b.rules ++ [id] })

/-- Declares a list of tokens, `f` receiving each id (shape of the loops at mod.rs:1808, 1861,
1926, 2015). Stops with `e` at the first identifier that is not a token name. -/
def Grammar.declTokens (g : Grammar) (e : GErr) : List Ident → Except GErr (Grammar × List SymbolId)
  | [] => .ok (g, [])
  | id :: ids =>
    if !id.isTerminal then .error e
    else
      let (g, s) := g.symbolNew (.ident id) .terminal
      match g.declTokens e ids with
      | .ok (g, ss) => .ok (g, s :: ss)
      | .error e => .error e

/-- `Decl::Assoc` loop (mod.rs:1808-1826) -/
def Grammar.declAssoc (g : Grammar) (p : Precedence) : List Ident → Except GErr Grammar
  | [] => .ok g
  | id :: ids =>
    if !id.isTerminal then .error .precOnNonTerminal
    else
      let (g, s) := g.symbolNew (.ident id) .terminal
      match (g.sym s).precedence with
      | some _ => .error .precTwice
      | none => (g.modifySym s (fun b => { b with precedence := some p })).declAssoc p ids

/-- The loop check of `%fallback` (mod.rs:1878-1896): follow the fallbacks of the new fallback
token until one of the tokens being declared is met.  The Rust loop has no bound; on a cycle of
fallbacks it does not terminate, which the model reports as `hang` (after more steps than there
are symbols). -/
def Grammar.fallbackWalk (g : Grammar) (targets : List SymbolId) : Nat → SymbolId → Except GErr Unit
  | 0, _ => .error .hang
  | fuel + 1, s =>
    match (g.sym s).fallback with
    | none => .ok ()
    | some nx => if targets.contains nx then .error .fallbackLoop
                 else g.fallbackWalk targets fuel nx

/-- mod.rs:1898-1908 -/
def Grammar.setFallbacks (g : Grammar) (fb : SymbolId) : List SymbolId → Except GErr Grammar
  | [] => .ok g
  | s :: ss =>
    match (g.sym s).fallback with
    | some _ => .error .fallbackTwice
    | none =>
      { g.modifySym s (fun b => { b with fallback := some fb }) with hasFallback := true }.setFallbacks fb ss

/-- `Decl::TokenClass` loop (mod.rs:1926-1937) -/
def Grammar.declClass (g : Grammar) (tk : SymbolId) : List Ident → Except GErr Grammar
  | [] => .ok g
  | id :: ids =>
    if !id.isTerminal then .error .classNotToken
    else
      let (g, s) := g.symbolNew (.ident id) .terminal
      (g.modifySym tk (fun b => { b with subs := b.subs ++ [s] })).declClass tk ids

/-- One right-hand-side element (mod.rs:1982-2032). -/
def Grammar.declElem (g : Grammar) (e : RhsElem) : Except GErr (Grammar × RhsSym) :=
  match e.toks with
  | [tok] =>
    let nst := if tok.isTerminal then some SymKind.terminal
      else if tok.isNonTerminal then some SymKind.nonTerminal else none
    match nst with
    | none => .error .badSymbol
    | some nst =>
      let (g, symR) := g.symbolNew (.ident tok) nst
      if e.optional then
        match g.optionals.lookup symR with
        | some symL => .ok (g, ⟨symL, e.alias⟩)
        | none =>
          let (g, symL) := g.symbolNew (.opt g.optionals.length) .nonTerminal
          .ok ({ g with optionals := g.optionals ++ [(symR, symL)] }, ⟨symL, e.alias⟩)
      else .ok (g, ⟨symR, e.alias⟩)
  | toks =>
    let (g, mt) := g.symbolNew .anon .multiTerminal
    match g.declTokens .compoundNonTerminal toks with
    | .error e => .error e
    | .ok (g, ss) => .ok (g.modifySym mt (fun b => { b with subs := b.subs ++ ss }), ⟨mt, e.alias⟩)

/-- The right-hand side (mod.rs:1980-2033) -/
def Grammar.declRhs (g : Grammar) : List RhsElem → Except GErr (Grammar × List RhsSym)
  | [] => .ok (g, [])
  | e :: es =>
    match g.declElem e with
    | .error e => .error e
    | .ok (g, s) =>
      match g.declRhs es with
      | .error e => .error e
      | .ok (g, ss) => .ok (g, s :: ss)

/-- `parse_one_decl` (mod.rs:1753-2050) -/
def Grammar.parseOneDecl (g : Grammar) : Decl → Except GErr Grammar
  | .module => .ok g
  | .include => .ok g
  | .verbose => .ok g
  | .syntaxError => if g.syntaxError then .error .alreadyDefined else .ok { g with syntaxError := true }
  | .parseFail => if g.parseFail then .error .alreadyDefined else .ok { g with parseFail := true }
  | .stackOverflow =>
    if g.stackOverflow then .error .alreadyDefined else .ok { g with stackOverflow := true }
  | .type attrs id ty =>
    let nst : Except GErr SymKind :=
      if id.isTerminal then .ok .terminal
      else if id.isNonTerminal then
        if attrs then .error .attributesOnNonTerminal else .ok .nonTerminal
      else .error .badSymbol
    match nst with
    | .error e => .error e
    | .ok nst =>
      let (g, s) := g.symbolNew (.ident id) nst
      if (g.sym s).dataType.isSome then .error .alreadyDefined
      else .ok (g.modifySym s (fun b => { b with dataType := ty, attributes := attrs }))
  | .assoc a ids =>
    let g := { g with prec := g.prec + 1 }
    g.declAssoc ⟨g.prec, a⟩ ids
  | .defaultType ty =>
    if g.defaultType.isSome then .error .alreadyDefined else .ok { g with defaultType := some ty }
  | .extraArgument ty =>
    if g.arg.isSome then .error .alreadyDefined else .ok { g with arg := some ty }
  | .error ty =>
    if g.errType.isSome then .error .alreadyDefined else .ok { g with errType := some ty }
  | .startSymbol id =>
    if g.start.isSome then .error .alreadyDefined
    else if !id.isNonTerminal then .error .startNotNonTerminal
    else
      let (g, s) := g.symbolNew (.ident id) .nonTerminal
      .ok { g with start := some s }
  | .fallback fb ids =>
    match g.declTokens .fallbackNotToken ids with
    | .error e => .error e
    | .ok (g, ss) =>
      if !fb.isTerminal then .error .fallbackNotToken
      else
        let (g, f) := g.symbolNew (.ident fb) .terminal
        match g.fallbackWalk ss (g.syms.length + 1) f with
        | .error e => .error e
        | .ok () => g.setFallbacks f ss
  | .wildcard id =>
    if g.wildcard.isSome then .error .alreadyDefined
    else if !id.isTerminal then .error .wildcardNotToken
    else
      let (g, s) := g.symbolNew (.ident id) .terminal
      .ok { g with wildcard := some s }
  | .tokenClass tk ids =>
    if !tk.isTerminal then .error .classNotToken
    else
      let (g, s) := g.symbolNew (.ident tk) .multiTerminal
      g.declClass s ids
  | .token item => if g.tokenEnum.isSome then .error .alreadyDefined else .ok { g with tokenEnum := some item }
  | .parser item => if g.parserStruct.isSome then .error .alreadyDefined else .ok { g with parserStruct := some item }
  | .extraToken ty =>
    if g.extraToken.isSome then .error .alreadyDefined else .ok { g with extraToken := some ty }
  | .stackSize limit ty =>
    if g.stackType.isSome then .error .alreadyDefined
    else .ok { g with stackLimit := limit, stackType := ty }
  | .rule lhs rhs action prec =>
    if !lhs.isNonTerminal then .error .lhsNotNonTerminal
    else
      let (g, l) := g.symbolNew (.ident lhs) .nonTerminal
      match g.declRhs rhs with
      | .error e => .error e
      | .ok (g, rs) =>
        match prec with
        | none => .ok (g.createRule l rs (action.map Code.user) none)
        | some id =>
          if !id.isTerminal then .error .precSymNotToken
          else
            let (g, ps) := g.symbolNew (.ident id) .terminal
            .ok (g.createRule l rs (action.map Code.user) (some ps))

/-- mod.rs:559-561 -/
def Grammar.parseDecls (g : Grammar) : List Decl → Except GErr Grammar
  | [] => .ok g
  | d :: ds =>
    match g.parseOneDecl d with
    | .error e => .error e
    | .ok g => g.parseDecls ds

/-- The grammar before the first declaration (mod.rs:522-555): symbol 0 is `$`, symbol 1 is
`error`. -/
def Grammar.initial : Grammar :=
  let (g, _) := ({} : Grammar).symbolNew .dollar .terminal
  let (g, e) := g.symbolNew (.ident .error) .nonTerminal
  { g with errorSymbol := e }

/-- `new_from_decls` (mod.rs:521-570) -/
def newFromDecls (decls : List Decl) : Except GErr Grammar :=
  match Grammar.initial.parseDecls decls with
  | .error e => .error e
  | .ok g =>
    let (g, _) := g.symbolNew .dflt .nonTerminal
    if g.rules.isEmpty then .error .noRules else .ok g

end Pomelo
