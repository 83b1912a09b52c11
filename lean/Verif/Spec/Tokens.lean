import Verif.Spec.Unread
/-!
# The numbers of the tokens of two parsers

`Token::A` has its number from the place where `A` is first named in the declarations.
-/

namespace Pomelo.Spec

/-- `ρ` gives the number in the one table of token names for the number in the other. -/
def SameTokens (names names' : List SymName) (ρ : Nat → Nat) : Prop := ∀ n nm, names[n]? = some nm → names'[ρ n]? = some nm

/-- The number of the token of the same name -/
def renumber (names names' : List SymName) (n : Nat) : Nat :=
  match names[n]? with
  | some nm => names'.idxOf nm
  | none => n

end Pomelo.Spec
