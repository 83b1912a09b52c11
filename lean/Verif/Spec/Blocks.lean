import Verif.Model.Emit
import Verif.Spec.Causes
/-!
# Blocks and their types

What the Rust compiler asks of the text of a rule, and the declarations that give it that.
-/

namespace Pomelo.Spec

/-- The text of a rule has no type error, provided that a block of the author has the type of its rule: a missing block has
the type `()`, `{ _A }` that of the only variable, `{ None }` is an option, and `{ Some(_A) }` an option of the only variable. -/
def typed (x : RuleText) : Bool :=
  decide (x.wrapped = x.result) &&
  match x.code with
  | none => decide (x.result = .unit)
  | some (.user _) => true
  | some .forward => decide (x.vars.filterMap id = [x.result])
  | some .optNone => match x.result with
    | .option _ => true
    | _ => false
  | some .optSome => decide (x.vars.filterMap id ≠ []) && (x.vars.filterMap id).all (fun T => decide (x.result = .option T))

/-- The element has a variable: it has an alias, or the rule passes its value on. -/
def hasVar (ds : List Decl) (u : URule) (e : RhsElem) : Bool :=
  e.alias || (u.code.isNone && typedSym ds u.lhs && typedElem ds e)

/-- The text of a written rule: its block, or the one the macro writes; a variable of the type of its element; the result of
the type of the left side. -/
def writtenText (ds : List Decl) (u : URule) : RuleText :=
  { vars := u.rhs.map fun e => if hasVar ds u e then some ((elemType ds e).getD .unit) else none
    code := match u.code with
      | some n => some (.user n)
      | none => if typedSym ds u.lhs then some .forward else none
    result := (plainType ds u.lhs).getD .unit
    wrapped := (plainType ds u.lhs).getD .unit }

/-- The text of the two rules of `i?` -/
def optionalTexts (ds : List Decl) (i : Ident) : List RuleText :=
  let T := .option ((ownType ds i).getD .unit)
  [⟨[], some .optNone, T, T⟩, ⟨[some ((tokenType ds i).getD .unit)], some .optSome, T, T⟩]

/-- The types of the declarations suit the blocks that the macro writes itself. -/
def blocksFit (ds : List Decl) : Bool :=
  (rulesOf ds).all fun u =>
    (u.code.isSome ||
      if typedSym ds u.lhs then (u.rhs.filter (typedElem ds)).all fun e => decide ((elemType ds e).getD .unit = (plainType ds u.lhs).getD .unit)
      else decide ((plainType ds u.lhs).getD .unit = .unit)) &&
    u.rhs.all fun e => match e with
      | ⟨[i], true, _⟩ => decide ((tokenType ds i).getD .unit = (ownType ds i).getD .unit)
      | _ => true

end Pomelo.Spec
