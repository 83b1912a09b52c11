import Verif.Model.Runtime
/-!
# Conformance tests of the model

Grammars of `/repo/tests/pass` run through the model; the expected outcomes are the assertions
of those files.  These are tests of the model (evaluated by `#guard`), not theorems.
-/

namespace Pomelo.Tests

/-- Token name -/
abbrev U (n : Nat) : Ident := .upper n
/-- Nonterminal name -/
abbrev L (n : Nat) : Ident := .lower n

/-- A plain right-hand-side symbol -/
def s (i : Ident) (alias := false) (opt := false) : RhsElem := ⟨[i], opt, alias⟩
/-- A rule -/
def r (l : Ident) (rhs : List RhsElem) (code : Option Nat := none) (prec : Option Ident := none) : Decl :=
  .rule l rhs code prec

/-- Values are integers, the extra argument is the list of observed events -/
def sem (user : Nat → List Int → List Nat → Except Unit Int × List Nat)
    (onErr : Option (Tok Int) → List Nat → List Nat → Except Unit Int × List Nat) :
    Sem Int (List Nat) Unit :=
  { unit := 0, none := 1000, some := fun v => v, user := user, syntaxError := onErr,
    parseFail := fun x => ((), x), stackOverflow := fun _ x => ((), x) }

/-- Feeds tokens -/
def feed (t : Tables) (m : Sem Int (List Nat) Unit) (p : Parser Int (List Nat)) :
    List (Nat × Int) → Option (Res Int (List Nat) Unit Unit)
  | [] => some (.ok p ())
  | (a, v) :: ts =>
    match parse t m 1000 p ⟨a, v⟩ with
    | some (.ok p ()) => feed t m p ts
    | r => r

/-- Extra argument after feeding the tokens without end of input -/
def extraAfter (ds : List Decl) (m : Sem Int (List Nat) Unit) (ts : List (Nat × Int)) : Option (List Nat) :=
  match compile id ds with
  | .error _ => none
  | .ok t => match feed t m (Parser.new m []) ts with
    | some (.ok p ()) => some p.extra
    | _ => none

/-- Result and extra argument of a complete parse -/
def runAll (ds : List Decl) (m : Sem Int (List Nat) Unit) (ts : List (Nat × Int)) :
    Option (Int × List Nat) :=
  match compile id ds with
  | .error _ => none
  | .ok t => match feed t m (Parser.new m []) ts with
    | some (.ok p ()) => match endOfInput t m 1000 p with
      | some (.ok p v) => some (v, p.extra)
      | _ => none
    | _ => none

/-- The panic of a complete parse, if any -/
def panics (ds : List Decl) (m : Sem Int (List Nat) Unit) (ts : List (Nat × Int)) : Option Panic :=
  match compile id ds with
  | .error _ => none
  | .ok t => match feed t m (Parser.new m []) ts with
    | some (.ok p ()) => match endOfInput t m 1000 p with
      | some (.panic w) => some w
      | _ => none
    | some (.panic w) => some w
    | _ => none

/-- Rule block `n` appends `n` to the extra argument; `%syntax_error` appends 99 -/
def logSem : Sem Int (List Nat) Unit :=
  sem (fun n _ x => (.ok 0, x ++ [n])) (fun _ _ x => (.ok 0, x ++ [99]))

/-- Like `logSem`, with a `%syntax_error` that fails -/
def strictSem : Sem Int (List Nat) Unit :=
  sem (fun n _ x => (.ok 0, x ++ [n])) (fun _ _ x => (.error (), x))

/-- tokens without values -/
def toks (l : List Nat) : List (Nat × Int) := l.map (·, 0)

-- tests/pass/error1.rs; tokens: Eol = 1, One = 2, Two = 3, Three = 4
def error1 : List Decl :=
  [ .extraArgument (.named 0), .syntaxError
  , r (L 0) [s (L 1)], r (L 1) [s (L 2)], r (L 1) [s (L 1), s (L 3)]
  , r (L 3) [s .error, s (U 1)] (some 0), r (L 3) [s (L 2), s (U 1)]
  , r (L 2) [s (U 2), s (U 3), s (U 4)] (some 1) ]
#guard extraAfter error1 logSem
  (toks [2,3,4,1, 3,1, 2,3,4,1, 2,2,2,2,2,2,2,2,2,1, 2,3,4,1]) == some [1,99,0,1,99,0,1]

-- tests/pass/error2.rs; Eol = 1, One = 2, Two = 3, Three = 4
def error2 : List Decl :=
  [ .extraArgument (.named 0), .syntaxError, .token {}
  , r (L 0) [s (L 1)], r (L 1) [s (L 2), s (U 1)], r (L 1) [s (L 1), s (L 2), s (U 1)]
  , r (L 2) [s (U 2), s (U 3), s (U 4)] (some 1) ]
#guard extraAfter error2
  (sem (fun n _ x => (.ok 0, x ++ [n])) (fun t _ x => (.ok 0, if t.map (·.major) = some 3 then x ++ [0] else [])))
  (toks [2,3,4,1, 3,1, 2,3,4,1]) == some [1,0,1]

-- tests/pass/expected_tokens.rs; each syntax error appends its expected tokens
#guard extraAfter error1 (sem (fun _ _ x => (.ok 0, x)) (fun _ e x => (.ok 0, x ++ e.take 1)))
  (toks [2,3,4,1, 3,1, 2,3,4,1, 2,2,2,2,2,2,2,2,2,1, 2,3,1]) == some [2,3,4]
def expected2 : List Decl :=
  [ .extraArgument (.named 0), .syntaxError
  , r (L 0) [s (L 1)], r (L 1) [s (L 2)], r (L 1) [s (L 1), s (L 3)]
  , r (L 3) [s (L 2), s (U 1)]
  , r (L 2) [s (U 2)] (some 1), r (L 2) [s (U 3)] (some 1), r (L 2) [s (U 4)] (some 1) ]
#guard extraAfter expected2 (sem (fun _ _ x => (.ok 0, x)) (fun _ e x => (.ok 0, x ++ e)))
  (toks [2,1,1,3,1,1,4,1]) == some [2,3,4]

-- tests/pass/fallback.rs; One = 1, Two = 2, Three = 3, Fallback = 4
#guard runAll
  [ .fallback (U 4) [U 1, U 2, U 3], r (L 0) [s (L 1)]
  , r (L 1) [s (U 4), s (U 2), s (U 4)], r (L 1) [s (U 3), s (U 2), s (U 1)] ]
  logSem (toks [1,2,3]) == some (0, [])

-- tests/pass/fallback2.rs; PLUS = 1, MUL = 2, ID = 3, LP = 4, RP = 5
#guard runAll
  [ r (L 0) [s (L 1)], r (L 1) [s (L 2)], r (L 1) [s (L 1), s (U 1), s (L 2)] (some 1)
  , r (L 2) [s (L 3)], r (L 2) [s (L 2), s (U 2), s (L 3)] (some 2)
  , r (L 3) [s (U 3)], r (L 3) [s (U 4), s (L 1), s (U 5)]
  , .fallback (U 2) [U 1] ]
  logSem (toks [3,1,4,3,1,4,3,2,3,5,5]) == some (0, [2,1,1])

-- tests/pass/wildcard.rs; WC = 1, One = 2, Two = 3, Three = 4
#guard runAll
  [ .wildcard (U 1), .type false (U 2) (some (.named 1))
  , r (L 0) [s (U 2), s (U 3), s (U 1)], r (L 0) [s (U 2), s (U 3), s (U 4)] ]
  logSem (toks [2,3,2]) == some (0, [])

-- tests/pass/optional.rs; Two = 1, One = 2, Three = 3, Four = 4, End = 5
def optional : List Decl :=
  [ .syntaxError, .type false (L 0) (some (.named 1)), .type false (U 1) (some (.named 1))
  , r (L 0) [s (U 2), s (U 1) true true, s (U 3), s (U 1) true true, s (U 4), s (L 1) false true] (some 0)
  , r (L 1) [s (U 5)] ]
def optSem : Sem Int (List Nat) Unit :=
  sem (fun _ vs x => (.ok (vs.map (fun v => if v = 1000 then 1 else v)).sum, x)) (fun _ _ x => (.error (), x))
#guard (runAll optional optSem (toks [2,3,4])).map (·.1) == some 2
#guard (runAll optional optSem [(2,0),(1,42),(3,0),(1,24),(4,0),(5,0)]).map (·.1) == some 66

-- tests/pass/token_class.rs; One = 1, Two = 2, Three = 3, Aaa.. = 4..
#guard (runAll
  [ .tokenClass (U 10) [U 1, U 2, U 3], .tokenClass (U 11) [U 4, U 5, U 6], .defaultType (.named 1)
  , .type false (U 4) (some (.named 2)), .type false (L 0) (some (.named 3)), .type false (L 1) (some (.named 3))
  , r (L 0) [s (L 1) true] (some 0), r (L 1) [] (some 1)
  , r (L 1) [s (L 1) true, s (U 10) true] (some 2), r (L 1) [s (L 1) true, s (U 11)] (some 3) ]
  (sem (fun n vs x => match n, vs with
      | 0, [a] => (.ok a, x) | 1, _ => (.ok 0, x) | 2, [a, b] => (.ok (a * 10 + b), x)
      | 3, [a] => (.ok a, x) | _, _ => (.error (), x)) (fun _ _ x => (.error (), x)))
  [(1,1),(2,2),(3,3)]).map (·.1) == some 123

/-! ## The defects described in DESIGN.md, on the model -/

-- row collision in the packed table: `s ::= a; a ::= A;` panics on the empty input and on `A A` (second token accepted)
def tiny : List Decl := [r (L 0) [s (L 1)], r (L 1) [s (U 1)]]
#guard panics tiny strictSem [] == some .emptyStack
#guard panics tiny strictSem (toks [1,1]) == some .badGoto
#guard runAll tiny strictSem (toks [1]) == some (0, [])

end Pomelo.Tests
