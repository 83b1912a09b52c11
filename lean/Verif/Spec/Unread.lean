import Verif.Spec.Run
import Verif.Spec.Typing
/-!
# Tokens that no rule reads, and what is done with them
-/

namespace Pomelo

variable {V X E α : Type}

/-- The token with another number -/
def Tok.swap (ρ : Nat → Nat) (k : Tok V) : Tok V := { k with major := ρ k.major }

/-- The event with other numbers for the tokens -/
def Event.swap (ρ : Nat → Nat) : Event V → Event V
  | .reduce r args => .reduce r args
  | .syntaxError k ex => .syntaxError (k.map (Tok.swap ρ)) ex
  | .parseFail => .parseFail
  | .stackOverflow k => .stackOverflow (k.map (Tok.swap ρ))
  | .shift m => .shift (ρ m)
  | .discard m => .discard (ρ m)

/-- The parser with other numbers for the tokens on the stack and in the log: states, values, status and the extra argument are the same. -/
def Parser.swap (ρ : Nat → Nat) (p : Parser V X) : Parser V X :=
  { p with stack := p.stack.map fun e => { e with major := ρ e.major }
           trace := p.trace.map (Event.swap ρ) }

/-- The outcome of a call with other numbers for the tokens: the returned value or error is the same. -/
def Res.swap (ρ : Nat → Nat) : Res V X E α → Res V X E α
  | .ok p a => .ok (p.swap ρ) a
  | .err p e => .err (p.swap ρ) e
  | .panic w => .panic w

/-- The user's code, whose `%syntax_error` and `%stack_overflow` are shown another token -/
def Sem.via (ρ : Nat → Nat) (sem : Sem V X E) : Sem V X E :=
  { sem with syntaxError := fun k => sem.syntaxError (k.map (Tok.swap ρ))
             stackOverflow := fun k => sem.stackOverflow (k.map (Tok.swap ρ)) }

/-- What the caller sees of a call: the extra argument and the result; or the panic -/
def Res.seen : Res V X E α → Except Panic (X × Except E α)
  | .ok p a => .ok (p.extra, .ok a)
  | .err p e => .ok (p.extra, .error e)
  | .panic w => .error w

namespace Spec

/-- No element of a rule can be the token `i`, neither by name nor through a class. -/
def unread (ds : List Decl) (i : Ident) : Bool := (rulesOf ds).all fun u => u.rhs.all fun e => !(elemTokens ds e).contains i

/-- `ρ` replaces tokens, by number, by their fallbacks: only tokens that no rule reads, and that have the type of the fallback. -/
def Falls (ds : List Decl) (names : List SymName) (ρ : Nat → Nat) : Prop :=
  ∀ m, ρ m = m ∨ ∃ i j, names[m]? = some (.ident i) ∧ names[ρ m]? = some (.ident j) ∧ unread ds i = true ∧ fallbackOf ds i = some j ∧
    plainType ds i = plainType ds j

end Spec
end Pomelo
