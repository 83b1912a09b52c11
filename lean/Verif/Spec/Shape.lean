import Verif.Spec.Parse
import Verif.Spec.Prec
/-! # Operators in derivation trees -/

namespace Pomelo.Spec

variable {V : Type}

/-- `s` is a subtree of `t`. -/
inductive Sub (s : Tree V) : Tree V → Prop
  | refl : Sub s s
  | present {t} : Sub s t → Sub s (.present t)
  | rule {n kids t} : t ∈ kids → Sub s t → Sub s (.rule n kids)

/-- Somewhere in the tree, rule `n` is the left operand of rule `m`, before the operator `k`. -/
def LeftOperand (T : Tree V) (m n : Nat) (k : Tok V) : Prop := ∃ kids rest, Sub (.rule m (.rule n kids :: .tok k :: rest)) T
/-- Somewhere in the tree, rule `m` with the operator `k` is the right operand of rule `n`. -/
def RightOperand (T : Tree V) (n m : Nat) (k : Tok V) : Prop := ∃ front left rest, Sub (.rule n (front ++ [.rule m (left :: .tok k :: rest)])) T

/-- The rule ends with its own left side: `N ::= .. N` -/
def EndsOpen (u : URule) : Prop := ∃ front al, u.rhs = front ++ [⟨[u.lhs], false, al⟩]
/-- The rule has its own left side as left operand: `N ::= N e ..`; `e` is the operator. -/
def BeginsOpen (u : URule) (e : RhsElem) : Prop := ∃ al rest, u.rhs = ⟨[u.lhs], false, al⟩ :: e :: rest

end Pomelo.Spec
