import Verif.Model.Tables
/-!
# The generated parser

The Rust text emitted by `generate_source` (mod.rs:2571-2957) and `translate_code`
(mod.rs:2964-3022), as functions of the tables.

User code is a parameter (`Sem`): rule blocks, `%syntax_error`, `%parse_fail` and
`%stack_overflow`.  They receive and may change the extra argument.  A value on the stack is a
tag (the variant of `YYMinorType`) and a payload of type `V`.
-/

namespace Pomelo

/-- `YYMinorType` (mod.rs:2227-2235): `YY<tag>(val)` -/
structure Minor (V : Type) where
  tag : Nat
  val : V

/-- A value of the generated `enum Token` (mod.rs:2343-2380): the index of its variant and its
payload; for an untyped token the payload is the unit value. -/
structure Tok (V : Type) where
  major : Nat
  val : V

/-- User code.  `V` values, `X` extra argument, `E` error type. -/
structure Sem (V X E : Type) where
  unit : V                                   -- `()`
  none : V                                   -- `None` of an optional symbol
  some : V → V                               -- `Some(_)` of an optional symbol
  user : Nat → List V → X → Except E V × X   -- rule block, given its aliases in order
  syntaxError : Option (Tok V) → List Nat → X → Except E V × X  -- token, expected tokens
  parseFail : X → E × X
  stackOverflow : Option (Tok V) → X → E × X

/-- `YYStackEntry` (mod.rs:2572-2579) -/
structure Entry (V : Type) where
  state : Nat
  major : Nat
  minor : Minor V

/-- `YYStatus` (mod.rs:2581-2585) -/
inductive Status (V : Type) where
  | normal
  | failed
  | accepted (v : V)

/-- Panics of the generated parser -/
inductive Panic where
  | afterFailure      -- "Cannot call parse after failure"
  | emptyStack        -- `unwrap` of `last()` or `pop()`
  | index             -- array index out of bounds
  | noCode            -- `assert!(look_ahead != YYNOCODE)`
  | shiftEnd          -- `assert!(yymajor != 0)`
  | badAction         -- `assert!(yyact == YYNSTATE + YYNRULE)`
  | badGoto           -- the assertions of `yy_find_reduce_action`
  | badAccept         -- `assert!(yyact == YYNSTATE + YYNRULE + 1)`
  | pattern           -- "impossible pattern"
  | rootType          -- "unexpected root type"
  | noRule            -- "no rule to apply"
  | noData            -- "accepted without data"
  | recursion         -- unbounded recursion along a cyclic fallback
  deriving DecidableEq, Repr

/-- Events recorded for the specification only (ghost): the calls of user code with their
arguments, the tokens pushed on the stack and the tokens thrown away after a syntax error. -/
inductive Event (V : Type) where
  | reduce (rule : Nat) (args : List V)
  | syntaxError (token : Option (Tok V)) (expected : List Nat)
  | parseFail
  | stackOverflow (token : Option (Tok V))
  | shift (major : Nat)
  | discard (major : Nat)

/-- The generated `struct Parser` (mod.rs:2563-2568, 2601) plus the ghost trace (newest first).
The stack is a list with the top first. -/
structure Parser (V X : Type) where
  errorCount : Nat := 0
  stack : List (Entry V)
  extra : X
  status : Status V := .normal
  trace : List (Event V) := []

variable {V X E : Type}

/-- `token_value` (mod.rs:2386-2392) -/
def Tables.tokenValue (t : Tables) (sem : Sem V X E) (tok : Tok V) : Nat × Minor V :=
  let dt := t.tokenDt.getD tok.major 0
  (tok.major, ⟨dt, if dt = 0 then sem.unit else tok.val⟩)

/-- `token_build` (mod.rs:2393-2399) -/
def Tables.tokenBuild (t : Tables) (sem : Sem V X E) (i : Nat) (m : Minor V) : Option (Tok V) :=
  if 0 < i ∧ i < t.numTerminals then
    let dt := t.tokenDt.getD i 0
    if dt = 0 then some ⟨i, sem.unit⟩
    else if m.tag = dt then some ⟨i, m.val⟩ else none
  else none

/-- `YY_DEFAULT[stateno]` -/
def Tables.dfltAct (t : Tables) (s : Nat) : Except Panic Nat :=
  match t.dflt[s]? with
  | some a => .ok a
  | none => .error .index

/-- `YY_ACTION[i]` guarded by the range and look-ahead tests (mod.rs:2815, 2825) -/
def Tables.lookup (t : Tables) (i : Int) (la : Nat) : Option Nat :=
  if i < 0 then none
  else if i.toNat < t.action.length ∧ t.lookahead.getD i.toNat 0 = la then
    some (t.action.getD i.toNat 0)
  else none

/-- `yy_find_shift_action_2` (mod.rs:2803-2834).  The recursion follows the fallback chain; it is
cut after more steps than there are entries in the fallback table. -/
def Tables.findShiftFuel (t : Tables) (s : Nat) : Nat → Nat → Except Panic Nat
  | 0, _ => .error .recursion
  | fuel + 1, la =>
    match t.shiftOfst[s]? with
    | none => t.dfltAct s                      -- stateno > YY_SHIFT_COUNT
    | some ofs =>
      if ofs = t.shiftUseDflt then t.dfltAct s
      else if la = t.noCode then .error .noCode
      else
        match t.lookup (ofs + la) la with
        | some a => .ok a
        | none =>
          if la = 0 then t.dfltAct s
          else if t.fallback.getD la 0 ≠ 0 then t.findShiftFuel s fuel (t.fallback.getD la 0)
          else if t.wildcard > 0 then
            match t.lookup (ofs + t.wildcard) t.wildcard with
            | some a => .ok a
            | none => t.dfltAct s
          else t.dfltAct s

/-- See `findShiftFuel`. -/
def Tables.findShift (t : Tables) (s la : Nat) : Except Panic Nat :=
  t.findShiftFuel s (t.fallback.length + 1) la

/-- `yy_find_reduce_action` (mod.rs:2840-2857) -/
def Tables.findReduce (t : Tables) (s la : Nat) : Except Panic Nat :=
  match t.reduceOfst[s]? with
  | none => if t.errorSymbol ≠ 0 then t.dfltAct s else .error .badGoto
  | some ofs =>
    if ofs = t.reduceUseDflt then .error .badGoto
    else if la = t.noCode then .error .noCode
    else
      match t.lookup (ofs + la) la with
      | some a => .ok a
      | none => if t.errorSymbol ≠ 0 then t.dfltAct s else .error .badGoto

/-- Outcome of a call: the parser afterwards with the Rust result, or a panic. -/
inductive Res (V X E α : Type) where
  | ok (p : Parser V X) (a : α)
  | err (p : Parser V X) (e : E)
  | panic (why : Panic)

/-- `yy_shift` (mod.rs:2861-2874) -/
def shift (t : Tables) (sem : Sem V X E) (p : Parser V X) (s major : Nat) (m : Minor V) :
    Res V X E Unit :=
  if t.stackLimit ≠ 0 ∧ t.stackLimit ≤ p.stack.length then
    let tok := t.tokenBuild sem major m
    let (e, x) := sem.stackOverflow tok p.extra
    .err { p with extra := x, trace := .stackOverflow tok :: p.trace } e
  else .ok { p with stack := ⟨s, major, m⟩ :: p.stack } ()

/-- `yy_parse_failed` (mod.rs:2878-2884) -/
def parseFailed (sem : Sem V X E) (p : Parser V X) : Parser V X × E :=
  let (e, x) := sem.parseFail p.extra
  ({ p with stack := [], extra := x, trace := .parseFail :: p.trace }, e)

/-- `ExpectedTokens` (mod.rs:2661-2692): the tokens, in order of index from 1, whose action in the
given state is a shift or a reduce.  A panic of the search is a panic of the iterator. -/
def Tables.expected (t : Tables) (s : Nat) : Except Panic (List Nat) :=
  ((List.range t.numTerminals).drop 1).filterM (fun la =>
    (t.findShift s la).map (fun a => decide (a < t.nState + t.nRule)))

/-- `yy_syntax_error` (mod.rs:2891-2904) -/
def syntaxError (t : Tables) (sem : Sem V X E) (p : Parser V X) (major : Nat) (m : Minor V)
    (expected : List Nat) : Res V X E (Minor V) :=
  let tok := t.tokenBuild sem major m
  let p := { p with trace := .syntaxError tok expected :: p.trace }
  match sem.syntaxError tok expected p.extra with
  | (.ok v, x) => .ok { p with extra := x } ⟨t.errorDt, v⟩
  | (.error e, x) => .err { p with extra := x } e

/-- Values bound by the aliases of a rule, in order; `none` if a tag does not match
(mod.rs:2993-3017) -/
def matchPats : List (Option Nat) → List (Entry V) → Option (List V)
  | [], _ => some []
  | none :: ps, _ :: es => matchPats ps es
  | some dt :: ps, e :: es =>
    if e.minor.tag = dt then (matchPats ps es).map (e.minor.val :: ·) else none
  | _ :: _, [] => none

/-- Result of the code of a rule (mod.rs:3011-3017); a missing block evaluates to `()` -/
def runCode (sem : Sem V X E) (c : Option Code) (args : List V) (x : X) : Except E V × X :=
  match c with
  | none => (.ok sem.unit, x)
  | some (.user n) => sem.user n args x
  | some .forward => (.ok (args.headD sem.unit), x)
  | some .optNone => (.ok sem.none, x)
  | some .optSome => (.ok (sem.some (args.headD sem.unit)), x)

/-- The accept code (mod.rs:2922-2938) -/
def accept (t : Tables) (sem : Sem V X E) (p : Parser V X) (m : Minor V) : Res V X E Unit :=
  match t.rootDt with
  | some n =>
    if m.tag = n then .ok { p with status := .accepted m.val, stack := [] } ()
    else .panic .rootType
  | none => .ok { p with status := .accepted sem.unit, stack := [] } ()

/-- `yy_reduce` (mod.rs:2940-2957) with the rule code of `translate_code` (mod.rs:2968-3020).  The
RHS entries are popped before the code runs, and stay popped if it fails. -/
def reduce (t : Tables) (sem : Sem V X E) (p : Parser V X) (r : Nat) : Res V X E Unit :=
  match t.ruleCode[r]? with
  | none => .panic .noRule
  | some rc =>
    if p.stack.length < rc.pats.length then .panic .emptyStack
    else
      let args := (p.stack.take rc.pats.length).reverse
      match matchPats rc.pats args with
      | none => .panic .pattern
      | some vs =>
        let p := { p with stack := p.stack.drop rc.pats.length, trace := .reduce r vs :: p.trace }
        match runCode sem rc.code vs p.extra with
        | (.error e, x) => .err { p with extra := x } e
        | (.ok v, x) =>
          let p := { p with extra := x }
          match t.ruleInfo[r]? with
          | none => .panic .index
          | some lhs =>
            match p.stack with
            | [] => .panic .emptyStack
            | top :: _ =>
              match t.findReduce top.state lhs with
              | .error w => .panic w
              | .ok act =>
                if act < t.nState then shift t sem p act lhs ⟨rc.lhsDt, v⟩
                else if act = t.nState + t.nRule + 1 then accept t sem p ⟨rc.lhsDt, v⟩
                else .panic .badAccept

/-- The recovery loop (mod.rs:2754-2764) on the stack: pops until the top is the error symbol or
the error symbol can be shifted.  Structural in the stack. -/
def recover (t : Tables) (sem : Sem V X E) (major : Nat) (m : Minor V) (expected : List Nat) :
    List (Entry V) → Parser V X → Res V X E Unit
  | [], p => .ok { p with stack := [] } ()
  | top :: rest, p =>
    if top.major = t.errorSymbol then .ok { p with stack := top :: rest } ()
    else
      match t.findReduce top.state t.errorSymbol with
      | .error w => .panic w
      | .ok act =>
        if act < t.nState then
          match syntaxError t sem { p with stack := top :: rest } major m expected with
          | .panic w => .panic w
          | .err p e => .err p e
          | .ok p e => shift t sem p act t.errorSymbol e
        else recover t sem major m expected rest p

/-- Result of one iteration of the parse loop -/
inductive Step (V X E : Type) where
  | again (p : Parser V X)
  | done (r : Res V X E Unit)

/-- The reaction to a syntax error (mod.rs:2722-2789).  `expected` is a lazy iterator in the code and
computed eagerly here (but not at the end of input, where it is not used). -/
def onError (t : Tables) (sem : Sem V X E) (p : Parser V X) (top : Entry V) (major : Nat) (m : Minor V) :
    Res V X E Unit :=
  if major = 0 then
    let (p, e) := parseFailed sem p
    .err p e
  else
    match t.expected top.state with
    | .error w => .panic w
    | .ok expected =>
      if t.errorSymbol ≠ 0 then
        match recover t sem major m expected p.stack p with
        | .panic w => .panic w
        | .err p e => .err p e
        | .ok p () =>
          match p.stack with
          | [] =>
            let (p, e) := parseFailed sem p
            .err p e
          | _ => .ok { p with errorCount := 3, trace := .discard major :: p.trace } ()
      else if p.errorCount = 0 then
        match syntaxError t sem p major m expected with
        | .panic w => .panic w
        | .err p e => .err p e
        | .ok p _ => .ok { p with errorCount := 3, trace := .discard major :: p.trace } ()
      else .ok { p with errorCount := 3, trace := .discard major :: p.trace } ()

/-- One iteration of the loop of `yy_parse_token_2` (mod.rs:2713-2790) -/
def step (t : Tables) (sem : Sem V X E) (p : Parser V X) (major : Nat) (m : Minor V) : Step V X E :=
  match p.stack with
  | [] => .done (.panic .emptyStack)
  | top :: _ =>
    match t.findShift top.state major with
    | .error w => .done (.panic w)
    | .ok act =>
      if act < t.nState then
        if major = 0 then .done (.panic .shiftEnd)
        else
          match shift t sem p act major m with
          | .panic w => .done (.panic w)
          | .err p e => .done (.err p e)
          | .ok p () =>
            .done (.ok { p with errorCount := p.errorCount - 1, trace := .shift major :: p.trace } ())
      else if act < t.nState + t.nRule then
        match reduce t sem p (act - t.nState) with
        | .panic w => .done (.panic w)
        | .err p e => .done (.err p e)
        | .ok p () => .again p
      else if act = t.nState + t.nRule then .done (onError t sem p top major m)
      else .done (.panic .badAction)

/-- The loop of `yy_parse_token_2` (mod.rs:2713-2791), `none` if it has not finished after `fuel`
iterations. -/
def loop (t : Tables) (sem : Sem V X E) (major : Nat) (m : Minor V) :
    Nat → Parser V X → Option (Res V X E Unit)
  | 0, _ => none
  | fuel + 1, p =>
    match p.status with
    | .normal =>
      match step t sem p major m with
      | .done r => some r
      | .again p => loop t sem major m fuel p
    | _ => some (.ok p ())

/-- `yy_parse_token` (mod.rs:2695-2707) -/
def parseToken (t : Tables) (sem : Sem V X E) (fuel : Nat) (p : Parser V X) (major : Nat) (m : Minor V) :
    Option (Res V X E Unit) :=
  match p.status with
  | .normal =>
    (loop t sem major m fuel p).map (fun r =>
      match r with
      | .err p e => .err { p with status := .failed } e
      | r => r)
  | _ => some (.panic .afterFailure)

/-- `Parser::new` (mod.rs:2640-2653) -/
def Parser.new (sem : Sem V X E) (x : X) : Parser V X :=
  { stack := [⟨0, 0, ⟨0, sem.unit⟩⟩], extra := x }

/-- `Parser::parse` (mod.rs:2636-2639) -/
def parse (t : Tables) (sem : Sem V X E) (fuel : Nat) (p : Parser V X) (tok : Tok V) :
    Option (Res V X E Unit) :=
  let (a, b) := t.tokenValue sem tok
  parseToken t sem fuel p a b

/-- `Parser::end_of_input` (mod.rs:2609-2620, 2654-2657) -/
def endOfInput (t : Tables) (sem : Sem V X E) (fuel : Nat) (p : Parser V X) :
    Option (Res V X E V) :=
  (parseToken t sem fuel p 0 ⟨0, sem.unit⟩).map (fun r =>
    match r with
    | .panic w => .panic w
    | .err p e => .err p e
    | .ok p () =>
      match p.status with
      | .accepted v => .ok p v
      | _ => .panic .noData)

end Pomelo
