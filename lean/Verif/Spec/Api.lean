import Verif.Spec.Typing
import Verif.Model.Api
/-!
# The interface of the emitted parser

Functions of the declarations alone: the variants of `Token`, and the types in the signatures of the public functions.
-/

namespace Pomelo.Spec

/-- The symbols a declaration names, in the order in which the macro takes them (`%fallback F A B;` gives `A`, `B`, `F`) -/
def mentions : Decl → List Ident
  | .type _ i _ => [i]
  | .assoc _ ids => ids
  | .startSymbol i => [i]
  | .fallback f ids => ids ++ [f]
  | .wildcard i => [i]
  | .tokenClass c ids => c :: ids
  | .rule lhs rhs _ prec => lhs :: rhs.flatMap (·.toks) ++ prec.toList
  | _ => []

/-- The tokens, each once, in the order in which they are first named -/
def tokensOf (ds : List Decl) : List Ident :=
  (ds.flatMap mentions).eraseDups.filter fun i => i.isTerminal && !isClass ds i

/-- `v` is a value of the type. -/
inductive OfType : Value → Ty → Prop
  | unit : OfType .unit .unit
  | atom {n x : Nat} : OfType (.atom n x) (.named n)
  | none {t : Ty} : OfType .none (.option t)
  | some {t : Ty} {v : Value} : OfType v t → OfType (.some v) (.option t)
  | pair {s t : Ty} {a b : Value} : OfType a s → OfType b t → OfType (.pair a b) (.pair s t)

/-- A value of the enumeration `Token`: a variant and the value of its field, if it has one -/
structure Token where
  name : Ident
  field : Option Value
  deriving DecidableEq, Repr

/-- A value of `Token`, as the declarations and the documentation have it -/
def Token.Is (ds : List Decl) (k : Token) : Prop :=
  k.name ∈ tokensOf ds ∧
  match k.field, plainType ds k.name with
  | .none, .none => True
  | .some v, .some T => OfType v T
  | _, _ => False

/-- The part of a token that `%extra_token` has added -/
inductive Extra (ds : List Decl) : Token → Value → Prop
  /-- a token without a type is nothing else -/
  | whole {i : Ident} {e : Value} : typeOf ds i = .none → Extra ds ⟨i, .some e⟩ e
  /-- a token with a type has it first -/
  | first {i : Ident} {T : Ty} {e v : Value} : typeOf ds i = .some T → Extra ds ⟨i, .some (.pair e v)⟩ e

/-- The same token with this part replaced -/
inductive ExtraSet (ds : List Decl) (e' : Value) : Token → Token → Prop
  | whole {i : Ident} {e : Value} : typeOf ds i = .none → ExtraSet ds e' ⟨i, .some e⟩ ⟨i, .some e'⟩
  | first {i : Ident} {T : Ty} {e v : Value} : typeOf ds i = .some T →
      ExtraSet ds e' ⟨i, .some (.pair e v)⟩ ⟨i, .some (.pair e' v)⟩

/-- The type of the start symbol, `()` if it has none -/
def rootType (ds : List Decl) : Ty := ((startOf ds).bind (plainType ds)).getD .unit

/-- The type of the extra argument, `()` if there is none -/
def extraType (ds : List Decl) : Ty := (argOf ds).getD .unit

end Pomelo.Spec
