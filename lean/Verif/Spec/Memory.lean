import Verif.Spec.Run
/-!
# What a parser remembers
-/

namespace Pomelo.Spec

variable {V X E α : Type}

/-- The two parsers have the same fields (mod.rs:2563-2568, 2645-2650).  The log is not one of them: the code has none. -/
structure SameMemory (p q : Parser V X) : Prop where
  errorCount : p.errorCount = q.errorCount
  stack : p.stack = q.stack
  extra : p.extra = q.extra
  status : p.status = q.status

/-- The same calls of blocks, shifts and discards, after whatever has been logged before -/
def SameNews (p q p' q' : Parser V X) : Prop := ∃ new, p'.trace = new ++ p.trace ∧ q'.trace = new ++ q.trace

/-- What comes of a call with `p` and of the same call with `q`: the same result, or the same panic -/
def SameCall (p q : Parser V X) : Res V X E α → Res V X E α → Prop
  | .ok p' a, .ok q' b => a = b ∧ SameMemory p' q' ∧ SameNews p q p' q'
  | .err p' e, .err q' e' => e = e' ∧ SameMemory p' q' ∧ SameNews p q p' q'
  | .panic w, .panic w' => w = w'
  | _, _ => False

/-- The same for calls that may not come back -/
def SameEnd (p q : Parser V X) : Option (Res V X E α) → Option (Res V X E α) → Prop
  | some r, some r' => SameCall p q r r'
  | none, none => True
  | _, _ => False

end Pomelo.Spec

namespace Pomelo

variable {V X E α : Type}

/-- The parser with the count of errors at zero -/
def Parser.forget (p : Parser V X) : Parser V X := { p with errorCount := 0 }

/-- An outcome but for the count of errors -/
def Res.forget : Res V X E α → Res V X E α
  | .ok p a => .ok p.forget a
  | .err p e => .err p.forget e
  | .panic w => .panic w

end Pomelo
