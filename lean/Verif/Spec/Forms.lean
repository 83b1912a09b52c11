import Verif.Spec.Parse
import Mathlib.Logic.Relation
import Mathlib.Data.List.Forall2
/-!
# Sentential forms of the written grammar

Only the declarations are mentioned: a sentential form is a list of elements as on right-hand sides.
-/

namespace Pomelo.Spec

/-- One step of a derivation: a symbol is replaced by a right-hand side of one of its rules, an optional symbol is left
out or put in. -/
inductive Expands (ds : List Decl) : List RhsElem → List RhsElem → Prop
  | rule {a b u al} : u ∈ rulesOf ds → Expands ds (a ++ ⟨[u.lhs], false, al⟩ :: b) (a ++ u.rhs ++ b)
  | absent {a b i al} : Expands ds (a ++ ⟨[i], true, al⟩ :: b) (a ++ b)
  | present {a b i al} : Expands ds (a ++ ⟨[i], true, al⟩ :: b) (a ++ ⟨[i], false, false⟩ :: b)

/-- A sentential form: derived from the start symbol -/
def SentForm (ds : List Decl) (es : List RhsElem) : Prop :=
  ∃ s, startOf ds = some s ∧ Relation.ReflTransGen (Expands ds) [⟨[s], false, false⟩] es

/-- The input token stands for a token that the element matches. -/
def Reading {V : Type} (ds : List Decl) (names : List SymName) (k : Tok V) (e : RhsElem) : Prop :=
  ∃ i j, names[k.major]? = some (.ident i) ∧ TakenFor ds i j ∧ Matches ds e j

/-- The tokens are a prefix of a sentential form. -/
def ViablePrefix {V : Type} (ds : List Decl) (names : List SymName) (toks : List (Tok V)) : Prop :=
  ∃ es rest, SentForm ds (es ++ rest) ∧ List.Forall₂ (Reading ds names) toks es

/-- The start symbol and every element of every right-hand side derive some string of tokens (an optional symbol also
when it is there). -/
def Productive (V : Type) (ds : List Decl) (names : List SymName) : Prop :=
  (∀ i, startOf ds = some i → ∃ T : Tree V, Fits ds names [T] [⟨[i], false, false⟩]) ∧
  ∀ u ∈ rulesOf ds, ∀ e ∈ u.rhs, ∃ T : Tree V, Fits ds names [T] [{ e with optional := false }]

end Pomelo.Spec
