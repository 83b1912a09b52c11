import Verif.Spec.Typing
import Verif.Spec.Reading
import Verif.Spec.Macro
import Verif.Spec.Conflict
import Verif.Spec.Prec
import Verif.Model.Tables
/-!
# What each error of the macro stands for

Functions of the declarations, as far as the error does not speak of the states of the automaton.
-/

namespace Pomelo.Spec

/-- A rule without a block for a symbol with a type has an alias, or not exactly one element with a type. -/
def Uncoded (ds : List Decl) : Prop :=
  ∃ u ∈ rulesOf ds, u.code = none ∧ typedSym ds u.lhs = true ∧
    ((∃ e ∈ u.rhs, e.alias = true) ∨ (u.rhs.filter (typedElem ds)).length ≠ 1)

/-- The start symbol is an element of some right-hand side. -/
def StartUsed (ds : List Decl) : Prop :=
  ∃ s, startOf ds = some s ∧ ∃ u ∈ rulesOf ds, ∃ e ∈ u.rhs, e.toks = [s]

/-- Symbols that can be reached from the start symbol through the rules -/
inductive Reached (ds : List Decl) : Ident → Prop
  | start {s} : startOf ds = some s → Reached ds s
  | elem {u e i} : u ∈ rulesOf ds → Reached ds u.lhs → e ∈ u.rhs → e.toks = [i] → Reached ds i

/-- A rule that can be reached mentions a nonterminal other than `error` that has no rules. -/
def Missing (ds : List Decl) : Prop :=
  ∃ u ∈ rulesOf ds, Reached ds u.lhs ∧ ∃ e ∈ u.rhs, ∃ i, e.toks = [i] ∧ i.isNonTerminal = true ∧ i ≠ .error ∧
    ∀ v ∈ rulesOf ds, v.lhs ≠ i

/-- The wildcard token has a type. -/
def WildTyped (ds : List Decl) : Prop := ∃ w, wildcardOf ds = some w ∧ (ownType ds w).isSome = true

/-- The `Token` enumeration of `%token` has variants. -/
def TokenFull (ds : List Decl) : Prop := ∃ it, tokenItemOf ds = some it ∧ it.fields ≠ 0

/-- The `Parser` struct of `%parser` has fields. -/
def ParserFull (ds : List Decl) : Prop := ∃ it, parserItemOf ds = some it ∧ it.fields ≠ 0

/-- A generic parameter of `%token` is not one of `%parser`; without `%parser`, a parameter has a default. -/
def ParamMissing (ds : List Decl) : Prop :=
  ∃ it, tokenItemOf ds = some it ∧ ∃ p ∈ it.params,
    match parserItemOf ds with
    | some par => p ∉ par.params
    | none => p.dflt ≠ none

/-- The type of the values of a named symbol: a class has the type of its first member, the wildcard has none. -/
def tokenType (ds : List Decl) (i : Ident) : Option Ty :=
  if wildcardOf ds = some i then none
  else if isClass ds i then firstType ds (classMembers ds i)
  else plainType ds i

/-- A token falls back on one that has a type, and not the same type. -/
def FallbackTyped (ds : List Decl) : Prop :=
  ∃ i f T, fallbackOf ds i = some f ∧ tokenType ds f = some T ∧ tokenType ds i ≠ some T

/-- The type of the value of an element, leaving its `?` aside -/
def valueType (ds : List Decl) (e : RhsElem) : Option Ty :=
  match e.toks with
  | [i] => tokenType ds i
  | ids => firstType ds ids

/-- An element whose value is used stands for several tokens with different types. -/
def Mixed (ds : List Decl) : Prop :=
  ∃ u ∈ rulesOf ds, ∃ e ∈ u.rhs, bound ds u e = true ∧ ∃ m ∈ (elemTokens ds e).drop 1, tokenType ds m ≠ valueType ds e

/-- The value of the wildcard token is used. -/
def WildUsed (ds : List Decl) : Prop :=
  ∃ u ∈ rulesOf ds, ∃ e ∈ u.rhs, bound ds u e = true ∧ ∃ w, wildcardOf ds = some w ∧ e.toks = [w]

/-- Before the token `a` the parser has something better to do than to reduce by `r`. -/
inductive Yields (g : Grammar) (γ : List SymbolId) (a : SymbolId) (r : RuleId) : Prop
  /-- to shift the token, unless precedences say otherwise -/
  | shift {X} : ShiftsOn g γ a X →
      ((g.sym a).precedence = none ∨ (g.rule r).precedence = none ∨
        ∃ p p', (g.sym a).precedence = some p ∧ (g.rule r).precedence = some p' ∧ Tighter p p') → Yields g γ a r
  /-- to reduce by another rule: an earlier one if one of them has no precedence; otherwise the one
  of higher level; at the same level the later one if the earlier is left-associative, the earlier one if not -/
  | rule {r'} : ReducesOn g γ a r' → r' ≠ r →
      ((r' < r ∧ ((g.rule r').precedence = none ∨ (g.rule r).precedence = none)) ∨
        ∃ p p', (g.rule r).precedence = some p ∧ (g.rule r').precedence = some p' ∧
          (p.level < p'.level ∨ (p.level = p'.level ∧ ((r' < r ∧ p'.assoc ≠ .left) ∨ (r < r' ∧ p.assoc = .left))))) → Yields g γ a r

/-- `g` is the grammar of the declarations as the macro numbers it. -/
def Numbered (ord : List (SymbolId × SymbolId) → List (SymbolId × SymbolId)) (ds : List Decl) (g : Grammar) : Prop :=
  ∃ g0 sts, newFromDecls ds = .ok g0 ∧ g0.automaton ord = .ok (g, sts)

/-- What the error `e` of the macro says about the declarations -/
inductive Cause (ord : List (SymbolId × SymbolId) → List (SymbolId × SymbolId)) (ds : List Decl) : GErr → Prop
  | reading {e} : FirstFault ds e → Cause ord ds e
  | typedNoCode : Uncoded ds → Cause ord ds .typedNoCode
  | startOnRhs : StartUsed ds → Cause ord ds .startOnRhs
  | noRulesFor : Missing ds → Cause ord ds .noRulesFor
  /-- some rule gives way to something else wherever its right-hand side is complete -/
  | cannotReduce {g r} : Numbered ord ds g → r < g.rules.length → (∀ γ a, ReducesOn g γ a r → Yields g γ a r) → Cause ord ds .cannotReduce
  | conflicts {g γ a} : Numbered ord ds g → Unsettled g γ a → Cause ord ds .conflicts
  | wildcardTyped : WildTyped ds → Cause ord ds .wildcardTyped
  | tokenNotEmpty : TokenFull ds → Cause ord ds .tokenNotEmpty
  | parserNotEmpty : ParserFull ds → Cause ord ds .parserNotEmpty
  | paramMissing : ParamMissing ds → Cause ord ds .paramMissing
  | fallbackType : FallbackTyped ds → Cause ord ds .fallbackType
  | compoundType : Mixed ds → Cause ord ds .compoundType
  | wildcardAlias : WildUsed ds → Cause ord ds .wildcardAlias
  | badClass : badClass ds = true → Cause ord ds .panic
  | readTwice {g γ a} : Numbered ord ds g → ReadTwice g γ a → Cause ord ds .panic
  /-- a token falls back on itself -/
  | hang : noSelfFallback ds = false → Cause ord ds .hang

end Pomelo.Spec
