import Verif.Model.Tables
import Verif.Spec.Decls
/-!
# Conditions under which the generated tables mean what they should

Each of them is a test that can be run on the declarations.
-/

namespace Pomelo.Spec

/-- Token classes and compounds have plain tokens as members, not classes. -/
def flat (ds : List Decl) : Bool :=
  (ds.all fun
    | .tokenClass _ ids => ids.all (fun i => !isClass ds i)
    | _ => true) &&
  (rulesOf ds).all (fun u => u.rhs.all (fun e => match e.toks with
    | [_] => true
    | toks => toks.all (fun i => !isClass ds i)))

/-- The states and the packed table of a run of the macro -/
def tableRun (ord : List (SymbolId × SymbolId) → List (SymbolId × SymbolId)) (ds : List Decl) :
    Except GErr (Grammar × List RState × Packed) := do
  let g ← newFromDecls ds
  let (g, sts) ← g.automaton ord
  let (acts, _) ← g.findActions sts
  let acts ← g.compressTables acts
  let rs := g.resortStates acts
  match g.pack rs with
  | none => throw .panic
  | some p => return (g, rs, p)

/-- Offsets of the rows of a kind -/
def ofsts (p : Packed) (isTkn : Bool) : List (Nat × Int) := if isTkn then p.tkn else p.nt

/-- Every cell of the table that can be seen from the offset of a row is an entry of that row. -/
def ownRows (g : Grammar) (rs : List RState) (p : Packed) : Bool :=
  [true, false].all fun k => (ofsts p k).all fun (pos, ofs) => p.tab.zipIdx.all fun (c, j) =>
    match c with
    | none => true
    | some a => !(decide ((a.la : Int) = (j : Int) - ofs) && (decide (a.la < g.numTerminals) == k)) ||
        (g.row rs k (rs.getD pos default).actions).contains a

/-- No row of the packed table sees entries of another one. -/
def apart (ord : List (SymbolId × SymbolId) → List (SymbolId × SymbolId)) (ds : List Decl) : Bool :=
  match tableRun ord ds with
  | .ok (g, rs, p) => ownRows g rs p
  | .error _ => false

end Pomelo.Spec
