import Verif.Spec.Tidy
import Verif.Spec.Parse
/-!
# Compounds and classes written out

`expand ds` has no compounds and no classes on right-hand sides: a rule with one of them is written once per member.
-/

namespace Pomelo.Spec

/-- What may be written in place of an element: one token of a compound or class; nothing, or one token, for a class with `?`.
(A `?` after a compound has no effect.) -/
def elemAlts (ds : List Decl) (e : RhsElem) : List (List RhsElem) :=
  match e.toks with
  | [i] =>
    if isClass ds i then (if e.optional then [[]] else []) ++ (classMembers ds i).map (fun m => [⟨[m], false, e.alias⟩])
    else [[e]]
  | toks => toks.map (fun m => [⟨[m], false, e.alias⟩])

/-- What may be written in place of a right-hand side -/
def rhsAlts (ds : List Decl) : List RhsElem → List (List RhsElem)
  | [] => [[]]
  | e :: es => (elemAlts ds e).flatMap (fun a => (rhsAlts ds es).map (a ++ ·))

/-- A rule for every choice of members -/
def expandDecl (ds : List Decl) : Decl → List Decl
  | .rule l rhs c p => (rhsAlts ds rhs).map (fun rhs' => .rule l rhs' c p)
  | d => [d]

/-- The declarations with compounds and classes written out -/
def expand (ds : List Decl) : List Decl := ds.flatMap (expandDecl ds)

/-- Compounds and classes on right-hand sides have members. -/
def occupied (ds : List Decl) : Bool :=
  (rulesOf ds).all fun u => u.rhs.all fun e => !(elemAlts ds e).isEmpty

/-- The element is neither a compound nor a class. -/
def single (ds : List Decl) (e : RhsElem) : Bool :=
  match e.toks with
  | [i] => !isClass ds i
  | _ => false

/-- No class is used with `?`, and rules with a compound or a class have a block. -/
def blocksKept (ds : List Decl) : Bool :=
  (rulesOf ds).all fun u => u.rhs.all fun e => single ds e || (u.code.isSome && !(e.optional && e.toks.length == 1))

end Pomelo.Spec
