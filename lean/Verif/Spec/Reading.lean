import Verif.Spec.Decls
/-!
# Which declarations are refused, and why

By names only; `Refuses ds d e`: after the declarations `ds` have been read, `d` is refused with the error `e`.
-/

namespace Pomelo.Spec

/-- After `d`, `d'` is a second use of a directive that may be used once (those about a single symbol apart). -/
def Twice : Decl → Decl → Prop
  | .syntaxError, .syntaxError => True
  | .parseFail, .parseFail => True
  | .stackOverflow, .stackOverflow => True
  | .defaultType _, .defaultType _ => True
  | .extraArgument _, .extraArgument _ => True
  | .error _, .error _ => True
  | .startSymbol _, .startSymbol _ => True
  | .wildcard _, .wildcard _ => True
  | .token _, .token _ => True
  | .parser _, .parser _ => True
  | .extraToken _, .extraToken _ => True
  | .stackSize _ (some _), .stackSize _ _ => True
  | _, _ => False

/-- Following the fallbacks from `i`, at least once, one comes to a token of `ids`. -/
inductive Meets (ds : List Decl) (ids : List Ident) : Ident → Prop
  | here {i j} : fallbackOf ds i = some j → j ∈ ids → Meets ds ids i
  | later {i j} : fallbackOf ds i = some j → Meets ds ids j → Meets ds ids i

/-- What is wrong with an element of a right-hand side -/
def elemFault (e : RhsElem) : Option GErr :=
  match e.toks with
  | [i] => if i.isTerminal || i.isNonTerminal then none else some .badSymbol
  | toks => if toks.all Ident.isTerminal then none else some .compoundNonTerminal

/-- What is wrong with the tokens of a precedence directive, the tokens `seen` having been named in it before -/
def assocFault (ds : List Decl) (seen : List Ident) : List Ident → Option GErr
  | [] => none
  | i :: ids =>
    if i.isTerminal = false then some .precOnNonTerminal
    else if i ∈ seen ∨ (precOf ds i).isSome = true then some .precTwice
    else assocFault ds (i :: seen) ids

/-- `d`, read after `ds`, is refused with the error `e`. -/
inductive Refuses (ds : List Decl) : Decl → GErr → Prop
  | twice {d d'} : d ∈ ds → Twice d d' → Refuses ds d' .alreadyDefined
  | typeAttrs {i ty} : i.isNonTerminal = true → Refuses ds (.type true i ty) .attributesOnNonTerminal
  | typeName {a i ty} : i.isTerminal = false → i.isNonTerminal = false → Refuses ds (.type a i ty) .badSymbol
  | typeTwice {a i ty} : (i.isTerminal = true ∨ i.isNonTerminal = true ∧ a = false) → (typeOf ds i).isSome = true →
      Refuses ds (.type a i ty) .alreadyDefined
  | assoc {a ids e} : assocFault ds [] ids = some e → Refuses ds (.assoc a ids) e
  | startName {i} : startDirective ds = none → i.isNonTerminal = false → Refuses ds (.startSymbol i) .startNotNonTerminal
  | wildcardName {i} : wildcardOf ds = none → i.isTerminal = false → Refuses ds (.wildcard i) .wildcardNotToken
  | fallbackName {f ids} : (∃ i ∈ f :: ids, i.isTerminal = false) → Refuses ds (.fallback f ids) .fallbackNotToken
  | fallbackLoop {f ids} : (∀ i ∈ f :: ids, i.isTerminal = true) → Meets ds ids f → Refuses ds (.fallback f ids) .fallbackLoop
  | fallbackForever {f ids} : (∀ i ∈ f :: ids, i.isTerminal = true) → ¬ Meets ds ids f → ¬ Ends (fallbackOf ds) f →
      Refuses ds (.fallback f ids) .hang
  | fallbackTwice {f ids} : (∀ i ∈ f :: ids, i.isTerminal = true) → ¬ Meets ds ids f → Ends (fallbackOf ds) f →
      (¬ ids.Nodup ∨ ∃ i ∈ ids, (fallbackOf ds i).isSome = true) → Refuses ds (.fallback f ids) .fallbackTwice
  | className {t ids} : (∃ i ∈ t :: ids, i.isTerminal = false) → Refuses ds (.tokenClass t ids) .classNotToken
  | ruleLhs {l rhs c p} : l.isNonTerminal = false → Refuses ds (.rule l rhs c p) .lhsNotNonTerminal
  | ruleElem {l rhs c p e} : l.isNonTerminal = true → rhs.findSome? elemFault = some e → Refuses ds (.rule l rhs c p) e
  | rulePrec {l rhs c i} : l.isNonTerminal = true → rhs.findSome? elemFault = none → i.isTerminal = false →
      Refuses ds (.rule l rhs c (some i)) .precSymNotToken

/-- Every declaration is admitted when its turn comes. -/
def Admitted (ds : List Decl) : Prop := ∀ l d r, ds = l ++ d :: r → ∀ e, ¬ Refuses l d e

/-- Reading `ds` ends with the error `e`: at the first declaration that is refused, or because there are no rules. -/
def FirstFault (ds : List Decl) (e : GErr) : Prop :=
  (∃ l d r, ds = l ++ d :: r ∧ Admitted l ∧ Refuses l d e) ∨ (Admitted ds ∧ rulesOf ds = [] ∧ e = .noRules)

end Pomelo.Spec
