import Verif.Spec.Causes
import Verif.Spec.Reading
/-!
# Directives about the text around the parser
-/

namespace Pomelo.Spec

/-- Directives that say what is around the parser or how large its stack is, not what it reads -/
def outer : Decl → Bool
  | .module | .include | .verbose | .syntaxError | .parseFail | .stackOverflow => true
  | .extraArgument _ | .error _ | .token _ | .parser _ | .stackSize _ _ => true
  | _ => false

/-- The other declarations -/
def bare (ds : List Decl) : List Decl := ds.filter fun d => !outer d

/-- No outer directive is used twice, and the items of `%token` and `%parser` fit. -/
structure OuterOk (ds : List Decl) : Prop where
  once : ds.Pairwise fun d d' => outer d' = true → ¬ Twice d d'
  token : ¬ TokenFull ds
  parser : ¬ ParserFull ds
  params : ¬ ParamMissing ds

end Pomelo.Spec
