import Verif.Spec.Run
/-!
# Counting what a parser does
-/

namespace Pomelo.Spec

variable {V X E : Type}

/-- The number of reductions in a log -/
def reductions (log : List (Event V)) : Nat :=
  log.countP fun
    | .reduce _ _ => true
    | _ => false

/-- The parsers that can be obtained with `n` calls of `parse` -/
inductive After (t : Tables) (sem : Sem V X E) : Nat → Parser V X → Prop where
  | new (x : X) : After t sem 0 (Parser.new sem x)
  | parse {n : Nat} {p p' : Parser V X} {tok : Tok V} {fuel : Nat} {r : Res V X E Unit} :
      After t sem n p → tok.Valid t sem → parse t sem fuel p tok = some r → r.parser? = some p' → After t sem (n + 1) p'
  | extra {n : Nat} {p : Parser V X} (x : X) : After t sem n p → After t sem n { p with extra := x }

end Pomelo.Spec
