import Verif.Spec.Run
/-!
# Runs that differ in the numbers of the rules and states only
-/

namespace Pomelo

variable {V X E α : Type}

/-- The same event with another number for the rule -/
def Event.renumber (σ : Nat → Nat) : Event V → Event V
  | .reduce r args => .reduce (σ r) args
  | e => e

namespace Spec

/-- The same parser but for the numbers of the states on the stack and of the rules in the log -/
structure Alike (σ : Nat → Nat) (p p' : Parser V X) : Prop where
  errorCount : p'.errorCount = p.errorCount
  extra : p'.extra = p.extra
  status : p'.status = p.status
  log : p'.trace = p.trace.map (Event.renumber σ)
  stack : p'.stack.map (fun e => (e.major, e.minor)) = p.stack.map (fun e => (e.major, e.minor))

/-- The same outcome of a call: both have not returned yet, both panic for one reason, or both return the same value or error. -/
inductive AlikeRes (σ : Nat → Nat) : Option (Res V X E α) → Option (Res V X E α) → Prop
  | busy : AlikeRes σ none none
  | ok {p p'} (a : α) : Alike σ p p' → AlikeRes σ (some (.ok p a)) (some (.ok p' a))
  | err {p p'} (e : E) : Alike σ p p' → AlikeRes σ (some (.err p e)) (some (.err p' e))
  | panic (w : Panic) : AlikeRes σ (some (.panic w)) (some (.panic w))

end Spec
end Pomelo
