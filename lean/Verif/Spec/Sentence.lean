import Verif.Spec.Conflict
import Verif.Spec.Parse
/-!
# Sentences of the written grammar, and grammars without conflicts
-/

namespace Pomelo.Spec

/-- The grammar has no LALR(1) conflict, settled or not: no shift and reduction on the same token
in the same state, and no two reductions. -/
structure NoClash (g : Grammar) : Prop where
  shiftReduce : ∀ {γ a X r}, ShiftsOn g γ a X → ¬ ReducesOn g γ a r
  reduceReduce : ∀ {γ a r r'}, ReducesOn g γ a r → ReducesOn g γ a r' → r = r'

/-- The wildcard has no fallback, and in a state where it is a lookahead of a complete rule no other rule is complete. -/
structure WildAlone (g : Grammar) : Prop where
  noFallback : ∀ {w}, g.wildcard = some w → (g.sym w).fallback = none
  reduces : ∀ {w γ a r r'}, g.wildcard = some w → ReducesOn g γ w r → ReducesOn g γ a r' → r = r'

/-- No `%left`, `%right` or `%nonassoc` -/
def noAssoc (ds : List Decl) : Bool := ds.all fun | .assoc .. => false | _ => true

/-- Not `%fallback` nor `%wildcard` -/
def keepsTokens : Decl → Bool
  | .fallback .. => false
  | .wildcard _ => false
  | _ => true

/-- The grammar in which a token only stands for itself -/
def ownTokens (ds : List Decl) : List Decl := ds.filter keepsTokens

/-- A derivation tree of the start symbol in which every token stands for itself -/
def IsOwnTree {V : Type} (ds : List Decl) (names : List SymName) (t : Tree V) : Prop := IsTree (ownTokens ds) names t

/-- A shift or a reduction -/
def _root_.Pomelo.Event.isMove {V : Type} : Event V → Bool
  | .shift _ => true
  | .reduce .. => true
  | _ => false

/-- A syntax error or the consequences of one -/
def _root_.Pomelo.Event.isSyntax {V : Type} : Event V → Bool
  | .syntaxError .. => true
  | .parseFail => true
  | .discard _ => true
  | _ => false

/-- The log has only shifts and reductions. -/
def onlyMoves {V : Type} (log : List (Event V)) : Bool := log.all Event.isMove

/-- The log has no syntax error. -/
def noSyntaxError {V : Type} (log : List (Event V)) : Bool := log.all fun ev => !ev.isSyntax

end Pomelo.Spec
