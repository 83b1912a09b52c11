import Verif.Model.Tables
/-!
# The report of the states

`report_output` (mod.rs:1431-1567) and its uses in `build` (mod.rs:584-590), line by line instead of as one text: column widths and line
ends are dropped.
-/

namespace Pomelo

/-- What is written for a position of a right-hand side (mod.rs:1445-1465): `*`, a name, names with `|` between them -/
inductive Word where
  | dot
  | name (n : SymName)
  | alts (ns : List SymName)
  deriving DecidableEq, Repr

/-- The line of a configuration: the number of the rule if the dot is at the end, the left-hand side, the rest (mod.rs:1436-1467) -/
structure ItemLine where
  number : Option Nat
  lhs : SymName
  words : List Word
  deriving DecidableEq, Repr

/-- What an action line says will be done -/
inductive Deed where
  | shift (k : Nat)
  | reduce (r : Nat)
  | accept
  | error
  deriving DecidableEq, Repr

/-- The remark at the end of an action line: none, `** Parsing conflict **`, `-- dropped by precedence` -/
inductive Mark where
  | plain
  | conflict
  | dropped
  deriving DecidableEq, Repr

/-- The line of an action (mod.rs:1469-1537) -/
structure ActLine where
  la : SymName
  deed : Deed
  mark : Mark
  deriving DecidableEq, Repr

/-- The lines of a state (mod.rs:1433-1539) -/
structure Block where
  num : Nat
  items : List ItemLine
  lines : List ActLine
  deriving DecidableEq, Repr

/-- The report; the table of symbols only if `%verbose` is given (mod.rs:1540-1565) -/
structure Report where
  blocks : List Block
  symbols : Option (List (Nat × SymName))
  deriving DecidableEq, Repr

/-- mod.rs:1449-1461 -/
def Grammar.word (g : Grammar) (s : SymbolId) : Word :=
  match (g.sym s).kind with
  | .multiTerminal => .alts ((g.sym s).subs.map fun ss => (g.sym ss).name)
  | _ => .name (g.sym s).name

/-- mod.rs:1445-1465: `i` is the position reached -/
def Grammar.words (g : Grammar) (dot len : Nat) : Nat → List SymbolId → List Word
  | _, [] => if dot = len then [.dot] else []
  | i, s :: rest => (if i = dot then [.dot] else []) ++ g.word s :: g.words dot len (i + 1) rest

/-- mod.rs:1436-1467 -/
def Grammar.itemLine (g : Grammar) (it : Item) : ItemLine :=
  let len := (g.rhsSyms it.rule).length
  { number := if it.dot = len then some it.rule else none
    lhs := (g.sym (g.rule it.rule).lhs).name
    words := g.words it.dot len 0 (g.rhsSyms it.rule) }

/-- mod.rs:1469-1537; states are numbered by their ids until `resort_states` -/
def Grammar.actLine (g : Grammar) (a : Action) : Option ActLine :=
  let n := (g.sym a.la).name
  match a.detail with
  | .shift k => some ⟨n, .shift k, .plain⟩
  | .reduce r => some ⟨n, .reduce r, .plain⟩
  | .accept => some ⟨n, .accept, .plain⟩
  | .error => some ⟨n, .error, .plain⟩
  | .srConflict r => some ⟨n, .reduce r, .conflict⟩
  | .rrConflict r => some ⟨n, .reduce r, .conflict⟩
  | .ssConflict k => some ⟨n, .shift k, .conflict⟩
  | .shResolved k => some ⟨n, .shift k, .dropped⟩
  | .rdResolved r => some ⟨n, .reduce r, .dropped⟩
  | .notUsed => none

/-- `report_output` (mod.rs:1431-1567) -/
def Grammar.report (g : Grammar) (sts : List LState) (acts : List (List Action)) (verbose : Bool) : Report :=
  { blocks := sts.zipIdx.map fun (st, q) =>
      { num := q
        items := st.configs.map fun c => g.itemLine c.item
        lines := (acts.getD q []).filterMap g.actLine }
    symbols := if verbose then some (g.symbols.zipIdx.map fun (s, i) => (i, (g.sym s).name)) else none }

/-- `self.verbose` after the declarations (mod.rs:551, 1965-1967) -/
def verboseOf (ds : List Decl) : Bool := ds.any fun
  | .verbose => true
  | _ => false

/-- The report that the macro makes, if any, and whether it becomes the text of an error (mod.rs:584-590) -/
def macroReport (ord : List (SymbolId × SymbolId) → List (SymbolId × SymbolId)) (ds : List Decl) : Option (Report × Bool) :=
  match newFromDecls ds with
  | .error _ => none
  | .ok g0 =>
    match g0.automaton ord with
    | .error _ => none
    | .ok (g, sts) =>
      match g.findActions sts with
      | .error _ => none
      | .ok (acts, nconflict) =>
        if verboseOf ds || decide (nconflict > 0) then some (g.report sts acts (verboseOf ds), decide (nconflict > 0)) else none

end Pomelo
