import Verif.Model.Runtime
/-!
# Specification vocabulary for executions of a parser

Histories of calls, and functions of the recorded trace used to state properties.
-/

namespace Pomelo

variable {V X E : Type}

/-- The parser a call leaves behind (a panic leaves none). -/
def Res.parser? {α : Type} : Res V X E α → Option (Parser V X)
  | .ok p _ => some p
  | .err p _ => some p
  | .panic _ => none

/-- A value of the generated `enum Token`: one of the variants, carrying the unit value if it has
no type. -/
structure Tok.Valid (t : Tables) (sem : Sem V X E) (tok : Tok V) : Prop where
  pos : 0 < tok.major
  lt : tok.major < t.numTerminals
  unit : t.tokenDt.getD tok.major 0 = 0 → tok.val = sem.unit

/-- Parsers that can be obtained through the public interface: `new`, any number of `parse` calls
(also after one has failed), changes through `extra_mut`. -/
inductive Reach (t : Tables) (sem : Sem V X E) : Parser V X → Prop where
  | new (x : X) : Reach t sem (Parser.new sem x)
  | parse {p p' : Parser V X} {tok : Tok V} {fuel : Nat} {r : Res V X E Unit} :
      Reach t sem p → tok.Valid t sem → parse t sem fuel p tok = some r → r.parser? = some p' →
      Reach t sem p'
  | extra {p : Parser V X} (x : X) : Reach t sem p → Reach t sem { p with extra := x }

/-- Feeding tokens one after the other, stopping at the first call that does not return `Ok`. -/
def feed (t : Tables) (sem : Sem V X E) (fuel : Nat) (p : Parser V X) :
    List (Tok V) → Option (Res V X E Unit)
  | [] => some (.ok p ())
  | tok :: toks =>
    match parse t sem fuel p tok with
    | some (.ok p ()) => feed t sem fuel p toks
    | r => r

/-- Feeding tokens to a fresh parser and then calling `end_of_input`. -/
def runAll (t : Tables) (sem : Sem V X E) (fuel : Nat) (x : X) (toks : List (Tok V)) :
    Option (Res V X E V) :=
  match feed t sem fuel (Parser.new sem x) toks with
  | none => none
  | some (.ok p ()) => endOfInput t sem fuel p
  | some (.err p e) => some (.err p e)
  | some (.panic w) => some (.panic w)

/-- Reductions made for a given token before it is shifted or refused. -/
inductive Reduces (t : Tables) (sem : Sem V X E) (major : Nat) (m : Minor V) :
    Parser V X → Parser V X → Prop where
  | refl (p : Parser V X) : Reduces t sem major m p p
  | head {p q r : Parser V X} : p.status = .normal → step t sem p major m = .again q →
      Reduces t sem major m q r → Reduces t sem major m p r

/-- Effect on the extra argument of re-running the user code named by an event. -/
def replay (t : Tables) (sem : Sem V X E) (x : X) : Event V → X
  | .reduce r args => (runCode sem ((t.ruleCode.getD r default).code) args x).2
  | .syntaxError tok ex => (sem.syntaxError tok ex x).2
  | .parseFail => (sem.parseFail x).2
  | .stackOverflow tok => (sem.stackOverflow tok x).2
  | .shift _ => x
  | .discard _ => x

/-- Effect of a whole log, oldest event last in the list. -/
def replayAll (t : Tables) (sem : Sem V X E) (x : X) (log : List (Event V)) : X :=
  log.foldr (fun ev x => replay t sem x ev) x

/-- Number of tokens shifted after the newest discarded token; `none` if no token was ever
discarded.  The log is newest first. -/
def shiftsSinceError : List (Event V) → Option Nat
  | [] => none
  | .shift _ :: l => (shiftsSinceError l).map (· + 1)
  | .discard _ :: _ => some 0
  | _ :: l => shiftsSinceError l

/-- `%syntax_error` ran only if no token had been discarded before, or at least three tokens had been
shifted since the last one discarded. -/
def Muted (log : List (Event V)) : Prop :=
  ∀ l1 tok ex l2, log = l1 ++ .syntaxError tok ex :: l2 → ∀ n, shiftsSinceError l2 = some n → 3 ≤ n

/-- A token was shifted or a rule was reduced. -/
def Event.isProgress : Event V → Bool
  | .shift _ => true
  | .reduce _ _ => true
  | _ => false

/-- Between two runs of `%syntax_error` there was a shift or a reduction. -/
def Separated (log : List (Event V)) : Prop :=
  ∀ l1 t1 e1 mid t2 e2 l2, log = l1 ++ .syntaxError t1 e1 :: (mid ++ .syntaxError t2 e2 :: l2) →
    ∃ e ∈ mid, Event.isProgress e = true

/-- The `error` symbol can be shifted in the state of a stack entry. -/
def CanShiftError (t : Tables) (e : Entry V) : Prop :=
  ∃ s, t.findReduce e.state t.errorSymbol = .ok s ∧ s < t.nState

end Pomelo
