import Verif.Spec.Reading
import Verif.Model.Decl
import Mathlib.Data.List.Forall2
/-!
# Declarations in another order

`Orderly ds` says which declarations go together; `orderMatters` which pairs may not change places; `SameGrammar` when two
grammars differ in the numbers of their symbols only.
-/

namespace Pomelo.Spec

/-- A declaration is not at fault in itself, whatever comes before it. -/
def Wellformed : Decl → Prop
  | .type a i _ => i.isTerminal = true ∨ i.isNonTerminal = true ∧ a = false
  | .assoc _ ids => ids.Nodup ∧ ∀ i ∈ ids, i.isTerminal = true
  | .startSymbol i => i.isNonTerminal = true
  | .wildcard i => i.isTerminal = true
  | .fallback f ids => ids.Nodup ∧ ∀ i ∈ f :: ids, i.isTerminal = true
  | .tokenClass t ids => ∀ i ∈ t :: ids, i.isTerminal = true
  | .rule l rhs _ p => l.isNonTerminal = true ∧ rhs.findSome? elemFault = none ∧ ∀ i, p = some i → i.isTerminal = true
  | _ => True

/-- `d` forbids `d'` after it. -/
def Forbids : Decl → Decl → Prop
  | .type _ i (some _), .type _ j _ => i = j
  | .assoc _ ids, .assoc _ js => ∃ i ∈ ids, i ∈ js
  | .fallback _ ids, .fallback _ js => ∃ i ∈ ids, i ∈ js
  | d, d' => Twice d d'

/-- The declarations go together: none is wrong in itself, none forbids a later one, and the fallbacks of every token end. -/
structure Orderly (ds : List Decl) : Prop where
  sound : ∀ d ∈ ds, Wellformed d
  pairs : ds.Pairwise (fun d d' => ¬ Forbids d d')
  ends : ∀ i, Ends (fallbackOf ds) i

/-- Two declarations whose order matters: two precedence directives, two rules, two lists of members of one class, and
two `%stack_size`s or `%type`s of a symbol one of which has no type. -/
def orderMatters : Decl → Decl → Bool
  | .assoc .., .assoc .. => true
  | .rule .., .rule .. => true
  | .tokenClass t _, .tokenClass t' _ => t == t'
  | .stackSize _ ty, .stackSize _ ty' => ty.isNone || ty'.isNone
  | .type _ i ty, .type _ j ty' => i == j && (ty.isNone || ty'.isNone)
  | _, _ => false

/-- Some exchanges of adjacent declarations, none of two whose order matters -/
inductive Reordered (ds : List Decl) : List Decl → Prop
  | same : Reordered ds ds
  | swap {l d d' r} : Reordered ds (l ++ d :: d' :: r) → orderMatters d d' = false → Reordered ds (l ++ d' :: d :: r)

/-- Two precedence directives or two rules -/
def ordered : Decl → Decl → Bool
  | .assoc .., .assoc .. => true
  | .rule .., .rule .. => true
  | _, _ => false

/-- Symbols of two grammars that are the same but for their numbers: of the same written name, optional symbols for
symbols of the same name, or compounds of tokens of the same names in the same order -/
inductive SameSym (g g' : Grammar) : SymbolId → SymbolId → Prop
  | named {s s' i} : s < g.syms.length → s' < g'.syms.length → (g.sym s).name = .ident i → (g'.sym s').name = .ident i → SameSym g g' s s'
  | optional {s s' a a' i} : (a, s) ∈ g.optionals → (a', s') ∈ g'.optionals → a < g.syms.length → a' < g'.syms.length →
      (g.sym a).name = .ident i → (g'.sym a').name = .ident i → SameSym g g' s s'
  | compound {s s'} {ids : List Ident} : s < g.syms.length → s' < g'.syms.length → (g.sym s).name = .anon → (g'.sym s').name = .anon →
      List.Forall₂ (fun m i => m < g.syms.length ∧ (g.sym m).name = .ident i) (g.sym s).subs ids →
      List.Forall₂ (fun m i => m < g'.syms.length ∧ (g'.sym m).name = .ident i) (g'.sym s').subs ids → SameSym g g' s s'

/-- The same, if there is one at all -/
def SameOpt (g g' : Grammar) (o o' : Option SymbolId) : Prop :=
  match o, o' with
  | none, none => True
  | some s, some s' => SameSym g g' s s'
  | _, _ => False

/-- The same grammar but for the numbers of symbols -/
structure SameGrammar (g g' : Grammar) : Prop where
  symbols : ∀ i : Ident, (∃ s, s < g.syms.length ∧ (g.sym s).name = .ident i) ↔ ∃ s, s < g'.syms.length ∧ (g'.sym s).name = .ident i
  attributes : ∀ s s' i, s < g.syms.length → s' < g'.syms.length → (g.sym s).name = .ident i → (g'.sym s').name = .ident i →
    (g.sym s).kind = (g'.sym s').kind ∧ (g.sym s).dataType = (g'.sym s').dataType ∧ (g.sym s).precedence = (g'.sym s').precedence ∧
    SameOpt g g' (g.sym s).fallback (g'.sym s').fallback ∧ List.Forall₂ (SameSym g g') (g.sym s).subs (g'.sym s').subs
  rules : List.Forall₂ (fun r r' => SameSym g g' r.lhs r'.lhs ∧ r.code = r'.code ∧ SameOpt g g' r.precSym r'.precSym ∧
    List.Forall₂ (fun x x' => x.alias = x'.alias ∧ SameSym g g' x.sym x'.sym) r.rhs r'.rhs) g.rules g'.rules
  start : SameOpt g g' g.start g'.start
  wildcard : SameOpt g g' g.wildcard g'.wildcard
  globals : g.defaultType = g'.defaultType ∧ g.extraToken = g'.extraToken ∧ g.arg = g'.arg ∧ g.errType = g'.errType ∧
    g.syntaxError = g'.syntaxError ∧ g.parseFail = g'.parseFail ∧ g.stackOverflow = g'.stackOverflow ∧ g.tokenEnum = g'.tokenEnum ∧
    g.parserStruct = g'.parserStruct ∧ g.stackType = g'.stackType ∧ g.stackLimit = g'.stackLimit ∧ g.prec = g'.prec

end Pomelo.Spec
