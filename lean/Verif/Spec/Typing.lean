import Verif.Spec.Parse
/-!
# Types of symbols, and declarations whose values always have the expected type

Functions of the declarations alone.
-/

namespace Pomelo.Spec

/-- The type of a token combined with the type of `%extra_token` -/
def withExtra : Option Ty → Option Ty → Option Ty
  | none, t => t
  | some e, none => some e
  | some e, some t => some (.pair e t)

/-- The type of a named symbol before `%default_type` is applied -/
def ownType (ds : List Decl) (i : Ident) : Option Ty :=
  if i.isTerminal && !isClass ds i then withExtra (extraTokenOf ds) (typeOf ds i) else typeOf ds i

/-- The type of a token or nonterminal that is not a class; the wildcard has none -/
def plainType (ds : List Decl) (i : Ident) : Option Ty :=
  if wildcardOf ds = some i then none else (ownType ds i).or (defaultTypeOf ds)

/-- Type of a list of alternative tokens: that of the first -/
def firstType (ds : List Decl) (ids : List Ident) : Option Ty :=
  (ids.head?.bind (plainType ds)).or (defaultTypeOf ds)

/-- The type of an element of a right-hand side -/
def elemType (ds : List Decl) (e : RhsElem) : Option Ty :=
  match e.toks with
  | [i] =>
    if e.optional then some (.option ((ownType ds i).getD .unit))
    else if isClass ds i then firstType ds (classMembers ds i)
    else plainType ds i
  | ids => firstType ds ids

/-- The tokens an element may stand for (none if it is a nonterminal) -/
def elemTokens (ds : List Decl) (e : RhsElem) : List Ident :=
  match e.toks with
  | [i] => if isClass ds i then classMembers ds i else if i.isTerminal then [i] else []
  | ids => ids

/-- The value of the element is used: it has an alias, it is `?`-optional (its value goes into a
`Some`), or the rule has no block and passes the value on. -/
def bound (ds : List Decl) (u : URule) (e : RhsElem) : Bool :=
  e.alias || (e.optional && e.toks.length == 1) || (u.code.isNone && typedSym ds u.lhs && typedElem ds e)

/-- Some `%fallback` names `j` as the fallback -/
def fallbackTarget (ds : List Decl) (j : Ident) : Bool :=
  ds.any fun
    | .fallback f _ => f = j
    | _ => false

/-- No value of another type can arrive as the token `j`: it is not the wildcard, and it has a type
or nothing falls back on it. -/
def exactToken (ds : List Decl) (j : Ident) : Bool :=
  decide (wildcardOf ds ≠ some j) && ((plainType ds j).isSome || !fallbackTarget ds j)

/-- Every token at a place whose value is used is exact. -/
def aliasOk (ds : List Decl) : Bool :=
  (rulesOf ds).all fun u => u.rhs.all fun e => !bound ds u e || (elemTokens ds e).all (exactToken ds)

/-- No type is given to all symbols, or the wildcard does not stand at a place whose value is used. -/
def wildUnbound (ds : List Decl) : Bool :=
  (defaultTypeOf ds).isNone || (rulesOf ds).all fun u => u.rhs.all fun e => !bound ds u e || (elemTokens ds e).all fun j => decide (wildcardOf ds ≠ some j)

/-- Types written in the declarations -/
def writtenTypes (ds : List Decl) : List Ty :=
  ds.flatMap fun
    | .type _ _ (some t) => [t]
    | .extraToken t => [t]
    | .defaultType t => [t]
    | _ => []

/-- The start symbol has a type, or nothing has the type `()`. -/
def rootOk (ds : List Decl) : Bool :=
  ((startOf ds).bind (plainType ds)).isSome || !(writtenTypes ds).contains .unit

/-- The type of a named symbol; a class has that of its first member, which may be a class. -/
inductive HasType (ds : List Decl) : Ident → Option Ty → Prop
  | plain {i : Ident} : isClass ds i = false → HasType ds i (plainType ds i)
  | first {i j : Ident} {T : Option Ty} : isClass ds i = true → (classMembers ds i).head? = some j → HasType ds j T →
      HasType ds i (T.or (defaultTypeOf ds))

/-- The type of an element of a right-hand side -/
inductive ElemHas (ds : List Decl) : RhsElem → Option Ty → Prop
  | one {i : Ident} {T : Option Ty} {al : Bool} : HasType ds i T → ElemHas ds ⟨[i], false, al⟩ T
  | optional {i : Ident} {al : Bool} : ElemHas ds ⟨[i], true, al⟩ (some (.option ((ownType ds i).getD .unit)))
  | any {i j : Ident} {is : List Ident} {T : Option Ty} {o al : Bool} : HasType ds i T →
      ElemHas ds ⟨i :: j :: is, o, al⟩ (T.or (defaultTypeOf ds))

/-- `Variant ds t T d`: the generated parser `t` uses the variant number `d` (0 is the variant without
data) for values of type `T`, at one of the places where it builds or expects a value. -/
inductive Variant (ds : List Decl) (t : Tables) : Option Ty → Nat → Prop
  /-- the value of a token pushed by `parse` -/
  | token {k : Nat} {i : Ident} : t.tokenNames[k]? = some (.ident i) →
      Variant ds t (plainType ds i) (t.tokenDt.getD k 0)
  /-- the value of a rule -/
  | rule {n : Nat} {u : URule} : (rulesOf ds)[n]? = some u → Variant ds t (plainType ds u.lhs) (t.ruleCode.getD n default).lhsDt
  /-- the value expected for an element of a rule -/
  | elem {n j d : Nat} {u : URule} {e : RhsElem} {T : Option Ty} : (rulesOf ds)[n]? = some u → u.rhs[j]? = some e →
      (t.ruleCode.getD n default).pats[j]? = some (some d) → ElemHas ds e T →
      Variant ds t T d
  /-- the value of `%syntax_error` -/
  | error : Variant ds t (plainType ds .error) t.errorDt

end Pomelo.Spec
