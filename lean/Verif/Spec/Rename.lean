import Verif.Model.Api
import Verif.Model.Emit
import Verif.Model.Report
import Verif.Spec.Run
/-! # Other names for symbols and types, other blocks -/

namespace Pomelo.Spec

/-- Other names: of the tokens, of the nonterminals but `error`, of the rest, of the types, and another block in place of each. -/
structure Renaming where
  upper : Nat → Nat
  lower : Nat → Nat
  other : Nat → Nat
  ty : Nat → Nat
  block : Nat → Nat

/-- Different names stay different.  Nothing is asked of the blocks. -/
structure Renaming.Distinct (ρ : Renaming) : Prop where
  upper : ∀ m n, ρ.upper m = ρ.upper n → m = n
  lower : ∀ m n, ρ.lower m = ρ.lower n → m = n
  other : ∀ m n, ρ.other m = ρ.other n → m = n
  ty : ∀ m n, ρ.ty m = ρ.ty n → m = n

/-- An identifier -/
def Renaming.ident (ρ : Renaming) : Ident → Ident
  | .upper n => .upper (ρ.upper n)
  | .lower n => .lower (ρ.lower n)
  | .error => .error
  | .other n => .other (ρ.other n)

/-- A type: `()`, `Option` and pairs stay what they are. -/
def Renaming.type (ρ : Renaming) : Ty → Ty
  | .unit => .unit
  | .named n => .named (ρ.ty n)
  | .option t => .option (ρ.type t)
  | .pair a b => .pair (ρ.type a) (ρ.type b)

/-- An element of a right-hand side -/
def Renaming.elem (ρ : Renaming) (e : RhsElem) : RhsElem := { e with toks := e.toks.map ρ.ident }

/-- A declaration -/
def Renaming.decl (ρ : Renaming) : Decl → Decl
  | .type a i t => .type a (ρ.ident i) (t.map ρ.type)
  | .assoc a is => .assoc a (is.map ρ.ident)
  | .defaultType t => .defaultType (ρ.type t)
  | .extraArgument t => .extraArgument (ρ.type t)
  | .error t => .error (ρ.type t)
  | .startSymbol i => .startSymbol (ρ.ident i)
  | .fallback f is => .fallback (ρ.ident f) (is.map ρ.ident)
  | .wildcard i => .wildcard (ρ.ident i)
  | .tokenClass i is => .tokenClass (ρ.ident i) (is.map ρ.ident)
  | .extraToken t => .extraToken (ρ.type t)
  | .stackSize n t => .stackSize n (t.map ρ.type)
  | .rule l r c p => .rule (ρ.ident l) (r.map ρ.elem) (c.map ρ.block) (p.map ρ.ident)
  | .module => .module
  | .include => .include
  | .syntaxError => .syntaxError
  | .parseFail => .parseFail
  | .stackOverflow => .stackOverflow
  | .token i => .token i
  | .parser i => .parser i
  | .verbose => .verbose

/-- The name of a symbol -/
def Renaming.name (ρ : Renaming) : SymName → SymName
  | .ident i => .ident (ρ.ident i)
  | .dollar => .dollar
  | .dflt => .dflt
  | .opt n => .opt n
  | .anon => .anon

/-- The code of a rule -/
def Renaming.code (ρ : Renaming) : Code → Code
  | .user n => .user (ρ.block n)
  | .forward => .forward
  | .optNone => .optNone
  | .optSome => .optSome

/-- The tables of a parser: everything is the same but the names of the tokens and the blocks. -/
def Renaming.tables (ρ : Renaming) (t : Tables) : Tables :=
  { t with tokenNames := t.tokenNames.map ρ.name
           ruleCode := t.ruleCode.map fun c => { c with code := c.code.map ρ.code } }

/-- The interface of a parser -/
def Renaming.api (ρ : Renaming) (a : Api) : Api :=
  { variants := a.variants.map fun v => { name := ρ.name v.name, attributes := v.attributes, field := v.field.map ρ.type }
    extra := a.extra.map fun x => (ρ.type x.1, x.2.map fun m => { name := ρ.name m.name, whole := m.whole })
    newArg := a.newArg.map ρ.type
    output := ρ.type a.output
    error := ρ.type a.error
    extraFns := a.extraFns.map ρ.type
    syntaxError := ρ.type a.syntaxError }

/-- The text of a rule -/
def Renaming.text (ρ : Renaming) (x : RuleText) : RuleText :=
  { vars := x.vars.map (·.map ρ.type), code := x.code.map ρ.code, result := ρ.type x.result, wrapped := ρ.type x.wrapped }

/-- A word of the report -/
def Renaming.word (ρ : Renaming) : Word → Word
  | .dot => .dot
  | .name n => .name (ρ.name n)
  | .alts ns => .alts (ns.map ρ.name)

/-- The report -/
def Renaming.report (ρ : Renaming) (r : Report) : Report :=
  { blocks := r.blocks.map fun b =>
      { num := b.num
        items := b.items.map fun i => { number := i.number, lhs := ρ.name i.lhs, words := i.words.map ρ.word }
        lines := b.lines.map fun l => { la := ρ.name l.la, deed := l.deed, mark := l.mark } }
    symbols := r.symbols.map fun l => l.map fun x => (x.1, ρ.name x.2) }

/-- The user's code for the renamed declarations, if it has to do the same: block `n` is now block `ρ.block n`. -/
def Renaming.sem {V X E : Type} (ρ : Renaming) (sem : Sem V X E) : Sem V X E := { sem with user := fun n => sem.user (ρ.block n) }

end Pomelo.Spec
