import Verif.Spec.Run
/-!
# Runs with less room on the stack
-/

namespace Pomelo.Spec

variable {V X E α : Type}

/-- The limit `n'` leaves at least as much room as `n`; 0 stands for no limit. -/
def Roomier (n n' : Nat) : Prop := n' = 0 ∨ n ≠ 0 ∧ n ≤ n'

/-- The run `r` does what `r'` does up to some point and gives up there for want of room: the last thing it does is to run the block of `%stack_overflow`, and all
that it has done before `r'` does too. -/
def CutShort (r r' : Option (Res V X E α)) : Prop :=
  ∃ p e tok tr, r = some (.err p e) ∧ p.trace = .stackOverflow tok :: tr ∧ ∀ a q, r' = some a → a.parser? = some q → tr <:+ q.trace

end Pomelo.Spec
