import Verif.Spec.Conflict
import Verif.Spec.Decls
/-!
# Inputs the macro panics on
-/

namespace Pomelo.Spec

/-- Every right-hand side element names a symbol.  The syntax of the macro has no other elements
(`parse_separated_nonempty`, lib.rs:265). -/
def written (ds : List Decl) : Bool := (rulesOf ds).all (fun u => u.rhs.all (fun e => !e.toks.isEmpty))

/-- Some token class has no members or itself as first member. -/
def badClass (ds : List Decl) : Bool :=
  ds.any fun
    | .tokenClass i _ => classMembers ds i == [] || (classMembers ds i).head? == some i
    | _ => false

/-- No token classes and no compounds `A|B` -/
def classFree (ds : List Decl) : Bool :=
  (ds.all fun
    | .tokenClass _ _ => false
    | _ => true) &&
  (rulesOf ds).all (fun u => u.rhs.all (fun e => match e.toks with
    | [_] => true
    | _ => false))

/-- After `γ` the token `a` can be read as two symbols, or as a class that lists a token twice. -/
def ReadTwice (g : Grammar) (γ : List SymbolId) (a : SymbolId) : Prop :=
  (∃ X Y, ShiftsOn g γ a X ∧ ShiftsOn g γ a Y ∧ X ≠ Y) ∨ ∃ X, ShiftsOn g γ a X ∧ ¬ (g.sym X).subs.Nodup

end Pomelo.Spec
