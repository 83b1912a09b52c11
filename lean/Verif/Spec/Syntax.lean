import Verif.Model.Syntax
/-!
# How declarations are written

`Says d t`: the tokens `t` are a way to write the declaration `d`.
-/

namespace Pomelo.Spec

/-- Either with or without a semicolon -/
def Semi (t : List Lexeme) : Prop := t = [] ∨ t = [.semi]

/-- `A|B|C` without the `A` -/
def pipesText (ids : List Ident) : List Lexeme := ids.flatMap (fun i => [.pipe, .ident i])

/-- `A|B|C?(alias)` -/
def elemText (e : RhsElem) : List Lexeme :=
  (match e.toks with
    | [] => []
    | i :: ids => .ident i :: pipesText ids) ++
  (if e.optional then [.question] else []) ++ (if e.alias then [.paren true] else [])

/-- `lhs ::= elements` -/
def ruleText (lhs : Ident) (rhs : List RhsElem) : List Lexeme :=
  [.ident lhs, .colons, .eq] ++ rhs.flatMap elemText

/-- `[ T ]` or nothing -/
def precText : Option Ident → List Lexeme
  | none => []
  | some i => [.bracket (some i)]

/-- `%keyword` -/
def kwText (k : Kw) : List Lexeme := [.percent, .ident k.ident]

/-- A type, or nothing -/
def tyText : Option Ty → List Lexeme
  | none => []
  | some t => [.ty t]

/-- The tokens `t` are the declaration `d`, and nothing can be added to it. -/
inductive Says : Decl → List Lexeme → Prop
  | type {n i ty} : Says (.type (decide (n ≠ 0)) i ty) ([.percent, .typeKw] ++ List.replicate n .attr ++ [.ident i] ++ tyText ty ++ [.semi])
  | module {i} : Says .module (kwText .module ++ [.ident i, .semi])
  | include {b s} : Semi s → Says .include (kwText .include ++ [.brace true b] ++ s)
  | syntaxError {b n s} : Semi s → Says .syntaxError (kwText .syntaxError ++ [.brace b (some n)] ++ s)
  | parseFail {b n s} : Semi s → Says .parseFail (kwText .parseFail ++ [.brace b (some n)] ++ s)
  | stackOverflow {b n s} : Semi s → Says .stackOverflow (kwText .stackOverflow ++ [.brace b (some n)] ++ s)
  | left {ids} : Says (.assoc .left ids) (kwText .left ++ ids.map .ident ++ [.semi])
  | right {ids} : Says (.assoc .right ids) (kwText .right ++ ids.map .ident ++ [.semi])
  | nonassoc {ids} : Says (.assoc .none ids) (kwText .nonassoc ++ ids.map .ident ++ [.semi])
  | defaultType {t} : Says (.defaultType t) (kwText .defaultType ++ [.ty t, .semi])
  | extraArgument {t} : Says (.extraArgument t) (kwText .extraArgument ++ [.ty t, .semi])
  | error {t} : Says (.error t) (kwText .error ++ [.ty t, .semi])
  | startSymbol {i} : Says (.startSymbol i) (kwText .startSymbol ++ [.ident i, .semi])
  | fallback {i ids} : Says (.fallback i ids) (kwText .fallback ++ .ident i :: ids.map .ident ++ [.semi])
  | wildcard {i} : Says (.wildcard i) (kwText .wildcard ++ [.ident i, .semi])
  | tokenClass {i ids} : Says (.tokenClass i ids) (kwText .tokenClass ++ .ident i :: ids.map .ident ++ [.semi])
  | token {it} : Says (.token it) (kwText .token ++ [.enumItem it, .semi])
  | extraToken {t} : Says (.extraToken t) (kwText .extraToken ++ [.ty t, .semi])
  | stackSize {n ty} : Says (.stackSize n ty) (kwText .stackSize ++ [.int (some n)] ++ tyText ty ++ [.semi])
  | parser {it} : Says (.parser it) (kwText .parser ++ [.structItem it, .semi])
  | verbose : Says .verbose (kwText .verbose ++ [.semi])
  /-- a rule with a block, in place of the semicolon or before it -/
  | ruleCode {l rhs p b n s} : (∀ e ∈ rhs, e.toks ≠ []) → Semi s →
      Says (.rule l rhs (some n) p) (ruleText l rhs ++ precText p ++ [.brace b (some n)] ++ s)
  /-- a rule with a semicolon -/
  | ruleSemi {l rhs p} : (∀ e ∈ rhs, e.toks ≠ []) → Says (.rule l rhs none p) (ruleText l rhs ++ precText p ++ [.semi])
  /-- a rule that ends with its precedence -/
  | rulePrec {l rhs i} : (∀ e ∈ rhs, e.toks ≠ []) → Says (.rule l rhs none (some i)) (ruleText l rhs ++ precText (some i))

/-- The tokens `ts` are the declarations `ds`.  A rule may have no end of its own if it is the last, or a directive follows. -/
inductive Writes : List Decl → List Lexeme → Prop
  | nil : Writes [] []
  | cons {d t ds ts} : Says d t → Writes ds ts → Writes (d :: ds) (t ++ ts)
  | rule {l rhs ds ts} : (∀ e ∈ rhs, e.toks ≠ []) → Writes ds ts → (ts = [] ∨ ∃ us, ts = .percent :: us) →
      Writes (.rule l rhs none none :: ds) (ruleText l rhs ++ ts)

end Pomelo.Spec
