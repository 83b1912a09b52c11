import Verif.Spec.Run
import Verif.Spec.Decls
/-! # Histories in which no call has failed -/

namespace Pomelo

variable {V X E : Type}

/-- Parsers obtained from `new` by calls of `parse` that all returned `Ok`, and changes through
`extra_mut`. -/
inductive OkReach (t : Tables) (sem : Sem V X E) : Parser V X → Prop where
  | new (x : X) : OkReach t sem (Parser.new sem x)
  | parse {p p' : Parser V X} {tok : Tok V} {fuel : Nat} : OkReach t sem p → tok.Valid t sem →
      parse t sem fuel p tok = some (.ok p' ()) → OkReach t sem p'
  | extra {p : Parser V X} (x : X) : OkReach t sem p → OkReach t sem { p with extra := x }

theorem OkReach.reach {t : Tables} {sem : Sem V X E} {p : Parser V X} (h : OkReach t sem p) : Reach t sem p := by
  induction h with
  | new x => exact .new x
  | parse _ hv hp ih => exact .parse ih hv hp rfl
  | extra x _ ih => exact .extra x ih

/-- Neither `parse` with a token nor `end_of_input` panics for one of the reasons in `W`. -/
def NoPanic (t : Tables) (sem : Sem V X E) (p : Parser V X) (W : Panic → Prop) : Prop :=
  (∀ tok fuel w, tok.Valid t sem → parse t sem fuel p tok = some (.panic w) → ¬ W w) ∧
  (∀ fuel w, endOfInput t sem fuel p = some (.panic w) → ¬ W w)

open Spec in
/-- The last thing that happened is the reduction of a written rule of the start symbol whose value is `w`. -/
structure RootReduced (ds : List Decl) (t : Tables) (sem : Sem V X E) (p : Parser V X) (w : V) : Prop where
  out : ∃ n u vs rest x, p.trace = .reduce n vs :: rest ∧ (rulesOf ds)[n]? = some u ∧ startOf ds = some u.lhs ∧
    runCode sem (t.ruleCode.getD n default).code vs x = (.ok w, p.extra)

end Pomelo
