import Verif.Model.Tables
import Verif.Spec.Conflict
/-!
# States, actions and rows of the tables

How the rows of the generated tables are named: a row is the state whose items are those valid for
a prefix.
-/

namespace Pomelo.Spec

/-- The intermediate results of a run of the macro without conflicts: the numbered grammar, the
states, their actions before and after the choice of default actions -/
structure Run (ord : List (SymbolId × SymbolId) → List (SymbolId × SymbolId)) (ds : List Decl) where
  g0 : Grammar
  g : Grammar
  sts : List LState
  acts : List (List Action)
  final : List (List Action)
  decls : newFromDecls ds = .ok g0
  auto : g0.automaton ord = .ok (g, sts)
  actions : g.findActions sts = .ok (acts, 0)
  compress : g.compressTables acts = .ok final

variable {ord : List (SymbolId × SymbolId) → List (SymbolId × SymbolId)} {ds : List Decl}

/-- Items of a state -/
def Run.itemsOf (R : Run ord ds) (q : StateId) : List Item := (R.sts.getD q default).configs.map (·.item)
/-- Actions of a state before the choice of a default -/
def Run.actionsOf (R : Run ord ds) (q : StateId) : List Action := R.acts.getD q []
/-- Actions of a state with the default -/
def Run.finalOf (R : Run ord ds) (q : StateId) : List Action := R.final.getD q []
/-- Row of a state in the tables -/
def Run.row (R : Run ord ds) (q : StateId) : Nat := stateNum (R.g.resortStates R.final) q

/-- The state `q` is that of the prefix `γ`. -/
def Run.StateOf (R : Run ord ds) (γ : List SymbolId) (q : StateId) : Prop :=
  q < R.sts.length ∧ ∀ it, it ∈ R.itemsOf q ↔ Viable R.g γ it

/-- The row `n` is that of the prefix `γ`. -/
def Run.RowOf (R : Run ord ds) (γ : List SymbolId) (n : Nat) : Prop := ∃ q, R.StateOf γ q ∧ R.row q = n

/-- An action that has not lost a conflict and was not moved to the default -/
def counts : Detail → Bool
  | .shift _ | .reduce _ | .error | .accept => true
  | _ => false

/-- The actions of a list for a symbol that count -/
def actionsFor (l : List Action) (a : SymbolId) : List Detail := ((l.filter (fun x => x.la = a)).map (·.detail)).filter counts

/-- The default action of a state: that for the symbol `{default}`, or error -/
def Run.defaultOf (R : Run ord ds) (q : StateId) : Detail :=
  ((((R.finalOf q).filter (fun a => (R.g.sym a.la).name = .dflt)).map (·.detail)).filter counts).getLast?.getD .error

/-- The integer that stands for an action: rows first, then rules, then error and accept -/
def Run.encode (R : Run ord ds) : Detail → Option Nat
  | .shift k => some (R.row k)
  | .reduce r => some (R.sts.length + r)
  | .error => some (R.sts.length + R.g.rules.length)
  | .accept => some (R.sts.length + R.g.rules.length + 1)
  | _ => none

/-- The action of the state `q` for `a` after conflict resolution.  Two actions are left only if the token must
not be used there because of `%nonassoc`: the first is the error. -/
def Run.Own (R : Run ord ds) (q : StateId) (a : SymbolId) (d : Detail) : Prop := (actionsFor (R.actionsOf q) a).head? = some d

/-- The wildcard has no action in the state, or it is a token without fallback that is shifted there. -/
def Run.Quiet (R : Run ord ds) (q : StateId) : Prop := ∀ w, R.g.wildcard = some w →
  actionsFor (R.actionsOf q) w = [] ∨ ((∃ k, R.Own q w (.shift k)) ∧ (R.g.sym w).fallback = none)

/-- The wildcard is not shifted in the state. -/
def Run.NoWild (R : Run ord ds) (q : StateId) : Prop := ∀ w, R.g.wildcard = some w → ∀ k, ¬ R.Own q w (.shift k)

/-- A token of the grammar (also `$`) -/
def IsToken (g : Grammar) (a : SymbolId) : Prop := a < g.syms.length ∧ (g.sym a).kind = .terminal

end Pomelo.Spec
