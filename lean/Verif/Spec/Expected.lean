import Verif.Spec.Sentence
import Verif.Spec.Forms
/-!
# Tokens that may come next

Only the declarations are mentioned, and the numbers of the tokens.
-/

namespace Pomelo.Spec

/-- No `%nonassoc` -/
def noNonassoc (ds : List Decl) : Bool := ds.all fun | .assoc .none _ => false | _ => true

/-- After `toks` a token of number `j` may come: the two are the beginning of a sentence. -/
def MayFollow {V : Type} (ds : List Decl) (names : List SymName) (toks : List (Tok V)) (j : Nat) : Prop :=
  ∃ (v : V) (T : Tree V), IsTree ds names T ∧ toks ++ [⟨j, v⟩] <+: T.yield

/-- The tokens are the beginning of a sentence. -/
def BeginsSentence {V : Type} (ds : List Decl) (names : List SymName) (toks : List (Tok V)) : Prop :=
  ∃ T : Tree V, IsTree ds names T ∧ toks <+: T.yield

end Pomelo.Spec
