import Verif.Spec.Shape
import Verif.Spec.Sentence
/-!
# Expressions with operators

Grammars of one nonterminal with operators of any number of operands, and the derivation trees that agree
with the declared precedences.
-/

namespace Pomelo.Spec

/-! ## The grammars -/

/-- The element is the symbol `e` of the expressions. -/
def operand (e : Ident) (x : RhsElem) : Bool := x.toks == [e] && !x.optional

/-- The tokens that an element stands for -/
def elemToks (ds : List Decl) (x : RhsElem) : List Ident :=
  match x.toks with
  | [i] => if isClass ds i then classMembers ds i else [i]
  | toks => toks

/-- A token, a class or a compound -/
def tokenElem (x : RhsElem) : Bool :=
  match x.toks with
  | [i] => !x.optional && i.isTerminal
  | _ => true

/-- No operand right after another -/
def spaced (e : Ident) : List RhsElem → Bool
  | x :: y :: rest => !(operand e x && operand e y) && spaced e (y :: rest)
  | _ => true

/-- The rule begins with an operand. -/
def leads (e : Ident) (u : URule) : Bool := (u.rhs.head?.map (operand e)).getD false

/-- The operator of a rule: the first element that is not an operand -/
def operator (e : Ident) (u : URule) : Option RhsElem := u.rhs.find? (!operand e ·)

/-- The elements after operands, but for the one after an operand at the beginning -/
def innerAfter (e : Ident) : List RhsElem → List RhsElem
  | x :: y :: rest => if operand e x then y :: innerAfter e (y :: rest) else innerAfter e (y :: rest)
  | _ => []
/-- The tokens between operands that are not the operator: the `:` of `e ? e : e`, the `)` of `( e )` -/
def inner (e : Ident) (u : URule) : List RhsElem := innerAfter e u.rhs.tail

/-- No token in common -/
def apartElems (ds : List Decl) (x y : RhsElem) : Bool := x.toks != y.toks && (elemToks ds x).all (fun i => !(elemToks ds y).contains i)

/-- A rule of the expressions: operands and tokens, at least one token, no two operands side by side -/
def opRule (e : Ident) (u : URule) : Bool :=
  u.lhs == e && u.rhs.all (fun x => operand e x || tokenElem x) && u.rhs.any (!operand e ·) && spaced e u.rhs

/-- The rules can be told apart by their operators: those that begin with an operand among themselves, and
those that do not. -/
def opClear (e : Ident) (u v : URule) : Bool :=
  leads e u != leads e v ||
    match operator e u, operator e v with
    | some x, some y => x.toks != y.toks
    | _, _ => true

/-- No token between operands of `u` is the operator of `v`. -/
def innerClear (ds : List Decl) (e : Ident) (u v : URule) : Bool :=
  !leads e v ||
    match operator e v with
    | some y => (inner e u).all (apartElems ds · y)
    | none => true

/-- All pairs of an earlier and a later element -/
def allPairs {α : Type} (f : α → α → Bool) : List α → Bool
  | [] => true
  | x :: xs => xs.all (f x) && allPairs f xs

/-- `s ::= e`, and rules for `e` with operators that can be told apart. -/
def operators (ds : List Decl) (s e : Ident) : Bool :=
  startOf ds == some s && s != e && !e.isTerminal && e != .error &&
  (rulesOf ds).all (fun u => if u.lhs == s then (match u.rhs with | [x] => operand e x | _ => false) else opRule e u) &&
  ((rulesOf ds).filter (fun u => u.lhs == s)).length == 1 &&
  allPairs (opClear e) ((rulesOf ds).filter (fun u => u.lhs != s)) &&
  ((rulesOf ds).filter (fun u => u.lhs != s)).all (fun u => ((rulesOf ds).filter (fun u => u.lhs != s)).all (innerClear ds e u))

/-! ## The trees -/

variable {V : Type}

/-- Rule `n` is on the right edge of the tree, with an operand at its end. -/
inductive OnRight : Tree V → Nat → Prop
  | here {n m front k kids} : OnRight (.rule n (front ++ [.tok k, .rule m kids])) n
  | down {n m front k kids r} : OnRight (.rule m kids) r → OnRight (.rule n (front ++ [.tok k, .rule m kids])) r

/-- The operator `k` is on the left edge of the tree, with an operand before it. -/
inductive OnLeft : Tree V → Tok V → Prop
  | here {n m kids k rest} : OnLeft (.rule n (.rule m kids :: .tok k :: rest)) k
  | down {n m kids k k' rest} : OnLeft (.rule m kids) k → OnLeft (.rule n (.rule m kids :: .tok k' :: rest)) k

/-- The token binds tighter than the rule. -/
def TokTighter (ds : List Decl) (names : List SymName) (k : Tok V) (r : Nat) : Prop :=
  ∃ i u p p', names[k.major]? = some (.ident i) ∧ (rulesOf ds)[r]? = some u ∧ precOf ds i = some p ∧ rulePrec ds u = some p' ∧ Tighter p p'
/-- The token binds looser than the rule. -/
def TokLooser (ds : List Decl) (names : List SymName) (k : Tok V) (r : Nat) : Prop :=
  ∃ i u p p', names[k.major]? = some (.ident i) ∧ (rulesOf ds)[r]? = some u ∧ precOf ds i = some p ∧ rulePrec ds u = some p' ∧ Looser p p'

/-- The tree agrees with the precedences: an operator binds looser than all rules whose right operand ends
just before it, and operators that begin in the right operand of a rule bind tighter than the rule. -/
structure Respects (ds : List Decl) (names : List SymName) (T : Tree V) : Prop where
  left : ∀ {m L k rest}, Sub (.rule m (L :: .tok k :: rest)) T → ∀ r, OnRight L r → TokLooser ds names k r
  right : ∀ {n front k' R}, Sub (.rule n (front ++ [.tok k', R])) T → ∀ k, OnLeft R k → TokTighter ds names k n

end Pomelo.Spec
