import Verif.Spec.Outer
import Verif.Spec.Carried
/-!
# Declarations without types and blocks
-/

namespace Pomelo.Spec

/-- An element of a right-hand side without its alias -/
def _root_.Pomelo.RhsElem.plain (e : RhsElem) : RhsElem := { e with «alias» := false }

/-- A declaration without types, aliases and blocks; nothing, if it says nothing else.  A `%type` still names its symbol. -/
def _root_.Pomelo.Decl.plain : Decl → Option Decl
  | .type _ i _ => some (.type false i none)
  | .rule l rhs _ p => some (.rule l (rhs.map RhsElem.plain) none p)
  | .defaultType _ | .extraToken _ => none
  | d => if outer d then none else some d

def plain (ds : List Decl) : List Decl := ds.filterMap Decl.plain

/-- The tables without what depends on types and blocks, and without the limit of the stack -/
def _root_.Pomelo.Tables.core (t : Tables) : Tables :=
  { t with
    stackLimit := 0, tokenDt := [], errorDt := 0, rootDt := none
    ruleCode := t.ruleCode.map fun c => ⟨c.pats.map fun _ => none, none, 0⟩ }

/-! ## What the parser does, without values -/

variable {V X E α : Type}

def _root_.Pomelo.Entry.moves (e : Entry V) : Entry Unit := ⟨e.state, e.major, ⟨0, ()⟩⟩

def _root_.Pomelo.Event.moves : Event V → Event Unit
  | .reduce n _ => .reduce n []
  | .syntaxError _ ex => .syntaxError none ex
  | .parseFail => .parseFail
  | .stackOverflow _ => .stackOverflow none
  | .shift n => .shift n
  | .discard n => .discard n

/-- States and kinds on the stack, status, and everything done so far, without values and tokens handed to blocks -/
def _root_.Pomelo.Parser.moves (p : Parser V X) : Parser Unit Unit :=
  ⟨p.errorCount, p.stack.map Entry.moves, (), p.status.image fun _ => (), p.trace.map Event.moves⟩

def _root_.Pomelo.Res.moves : Res V X E α → Res Unit Unit Unit Unit
  | .ok p _ => .ok p.moves ()
  | .err p _ => .err p.moves ()
  | .panic w => .panic w

/-- A value of a wrong type was met. -/
def _root_.Pomelo.Res.mistyped : Res V X E α → Prop
  | .panic w => w = .pattern ∨ w = .rootType
  | _ => False

end Pomelo.Spec
