import Verif.Model.Basic
/-!
# What a list of declarations says

Functions of the declarations alone, used to state properties of the macro.
-/

namespace Pomelo.Spec

/-- The declared type of a symbol (`%type X T;`) -/
def typeOf (ds : List Decl) (i : Ident) : Option Ty :=
  ds.findSome? fun
    | .type _ j (some t) => if j = i then some t else none
    | _ => none

/-- For each `%type` of a symbol, in their order: whether it has attributes -/
def typeAttrs (ds : List Decl) (i : Ident) : List Bool :=
  ds.filterMap fun
    | .type a j _ => if j = i then some a else none
    | _ => none

/-- The fallback of a token (`%fallback F A B C;`) -/
def fallbackOf (ds : List Decl) (i : Ident) : Option Ident :=
  ds.findSome? fun
    | .fallback fb ids => if i ∈ ids then some fb else none
    | _ => none

/-- Following `f` from `a` comes to an end. -/
inductive Ends {α : Type} (f : α → Option α) : α → Prop
  | stop {a : α} : f a = none → Ends f a
  | next {a b : α} : f a = some b → Ends f b → Ends f a

/-- No token is declared as its own fallback. -/
def noSelfFallback (ds : List Decl) : Bool :=
  ds.all fun
    | .fallback fb ids => !ids.contains fb
    | _ => true

/-- `X` is declared by `%token_class X ..;` -/
def isClass (ds : List Decl) (i : Ident) : Bool :=
  ds.any fun
    | .tokenClass tk _ => tk = i
    | _ => false

/-- The members given to a token class -/
def classMembers (ds : List Decl) (i : Ident) : List Ident :=
  ds.flatMap fun
    | .tokenClass tk ids => if tk = i then ids else []
    | _ => []

/-- Precedence of a token; `n` precedence directives have been read before `ds`. Later directives
bind tighter. -/
def precFrom (i : Ident) : Nat → List Decl → Option Precedence
  | _, [] => none
  | n, .assoc a ids :: ds => if i ∈ ids then some ⟨n + 1, a⟩ else precFrom i (n + 1) ds
  | n, _ :: ds => precFrom i n ds

/-- Precedence of a token -/
def precOf (ds : List Decl) (i : Ident) : Option Precedence := precFrom i 0 ds

/-- `%wildcard` -/
def wildcardOf (ds : List Decl) : Option Ident :=
  ds.findSome? fun
    | .wildcard i => some i
    | _ => none

/-- `%default_type` -/
def defaultTypeOf (ds : List Decl) : Option Ty :=
  ds.findSome? fun
    | .defaultType t => some t
    | _ => none

/-- `%extra_argument` -/
def argOf (ds : List Decl) : Option Ty :=
  ds.findSome? fun
    | .extraArgument t => some t
    | _ => none

/-- `%error` -/
def errTypeOf (ds : List Decl) : Option Ty :=
  ds.findSome? fun
    | .error t => some t
    | _ => none

/-- `%token` -/
def tokenItemOf (ds : List Decl) : Option Skeleton :=
  ds.findSome? fun
    | .token it => some it
    | _ => none

/-- `%parser` -/
def parserItemOf (ds : List Decl) : Option Skeleton :=
  ds.findSome? fun
    | .parser it => some it
    | _ => none

/-- `%extra_token` -/
def extraTokenOf (ds : List Decl) : Option Ty :=
  ds.findSome? fun
    | .extraToken t => some t
    | _ => none

/-- `%start_symbol` -/
def startDirective (ds : List Decl) : Option Ident :=
  ds.findSome? fun
    | .startSymbol i => some i
    | _ => none

/-- A written rule -/
structure URule where
  lhs : Ident
  rhs : List RhsElem
  code : Option Nat
  prec : Option Ident
  deriving DecidableEq, Repr

/-- The rules in the order they are written -/
def rulesOf (ds : List Decl) : List URule :=
  ds.filterMap fun
    | .rule l r a p => some ⟨l, r, a, p⟩
    | _ => none

/-- The start symbol: that of `%start_symbol`, else the left side of the first rule -/
def startOf (ds : List Decl) : Option Ident :=
  (startDirective ds).or ((rulesOf ds).head?.map (·.lhs))

/-- Precedence that an element of a right-hand side gives to its rule: that of the token, for a
compound or a class that of the first member that has one; an optional symbol gives none. -/
def elemPrec (ds : List Decl) (e : RhsElem) : Option Precedence :=
  match e.toks with
  | [tok] =>
    if e.optional then none
    else if isClass ds tok then (classMembers ds tok).findSome? (precOf ds)
    else precOf ds tok
  | toks => toks.findSome? (precOf ds)

/-- Precedence of a rule: that of the token in brackets, else that of the leftmost element that has
one. -/
def rulePrec (ds : List Decl) (u : URule) : Option Precedence :=
  match u.prec with
  | some id => precOf ds id
  | none => u.rhs.findSome? (elemPrec ds)

/-- `d` followed later by `d'` is a second use of a directive that may be used once. -/
def Clash : Decl → Decl → Prop
  | .syntaxError, .syntaxError => True
  | .parseFail, .parseFail => True
  | .stackOverflow, .stackOverflow => True
  | .defaultType _, .defaultType _ => True
  | .extraArgument _, .extraArgument _ => True
  | .error _, .error _ => True
  | .startSymbol _, .startSymbol _ => True
  | .wildcard _, .wildcard _ => True
  | .token _, .token _ => True
  | .parser _, .parser _ => True
  | .extraToken _, .extraToken _ => True
  | .stackSize _ _, .stackSize _ _ => True
  | .type _ i _, .type _ j _ => i = j
  | .assoc _ ids, .assoc _ js => ∃ i ∈ ids, i ∈ js
  | .fallback _ ids, .fallback _ js => ∃ i ∈ ids, i ∈ js
  | _, _ => False

/-- `%stack_size` without a type and `%type` without a type (attributes only) -/
def untyped : Decl → Bool
  | .stackSize _ none => true
  | .type _ _ none => true
  | _ => false

end Pomelo.Spec
