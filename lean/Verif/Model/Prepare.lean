import Verif.Model.Decl
/-!
# `prepare`, `find_rule_precedences`, `normalize_rules`
-/

namespace Pomelo

/-- `symbol_ord` (mod.rs:608-614) -/
def SymKind.ord : SymKind → Nat
  | .terminal => 0
  | .nonTerminal => 1
  | .multiTerminal => 2

/-- The sort of `symbols` (mod.rs:606-618) -/
def Grammar.sortSymbols (g : Grammar) : Grammar :=
  { g with symbols :=
      sortBy (fun a b => (g.sym a).kind.ord < (g.sym b).kind.ord) g.symbols }

/-- mod.rs:622-629: `symbols[k..]` get the indices `k, k+1, ..`.  `num_terminals` and
`default_index` are tracked as in the loop. -/
def Grammar.assignIndices (g : Grammar) (i : Nat) : List SymbolId → Grammar
  | [] => g
  | s :: ss =>
    let g := g.modifySym s (fun b => { b with index := i })
    let g := match (g.sym s).kind with
      | .terminal => { g with numTerminals := i + 1 }
      | .nonTerminal => { g with defaultIndex := i }
      | .multiTerminal => g
    g.assignIndices (i + 1) ss

/-- `%extra_token` (mod.rs:640-648) -/
def Grammar.addExtraToken (g : Grammar) : Grammar :=
  match g.extraToken with
  | none => g
  | some et =>
    ((g.symbols.take g.numTerminals).drop 1).foldl (fun g s =>
      g.modifySym s (fun b => { b with dataType :=
        match b.dataType with
        | none => some et
        | some dt => some (.pair et dt) })) g

/-- The two rules of one optional symbol (mod.rs:656-682) -/
def Grammar.addOptional (g : Grammar) (o : SymbolId × SymbolId) : Grammar :=
  let dt := ((g.sym o.1).dataType).getD .unit
  let g := g.modifySym o.2 (fun b => { b with dataType := some (.option dt) })
  let g := g.createRule o.2 [] (some .optNone) none
  g.createRule o.2 [⟨o.1, true⟩] (some .optSome) none

/-- mod.rs:655-682.  `optional_tokens` is a `HashMap`, its iteration order is arbitrary: `ord`
stands for that order and every theorem about `build` quantifies over it. -/
def Grammar.addOptionals (g : Grammar) (ord : List (SymbolId × SymbolId) → List (SymbolId × SymbolId)) :
    Grammar :=
  { (ord g.optionals).foldl Grammar.addOptional g with optionals := [] }

/-- `prepare` (mod.rs:599-683).  `last_terminal` and `default_index` start at 0. -/
def Grammar.prepare (g : Grammar) (ord : List (SymbolId × SymbolId) → List (SymbolId × SymbolId)) :
    Grammar :=
  let g := g.sortSymbols
  let g := { g with numTerminals := 1, defaultIndex := 0 }
  let g := g.assignIndices 0 g.symbols
  let g := { g with start := some (g.start.getD (g.rule 0).lhs) }
  let g := g.addExtraToken
  g.addOptionals ord

/-- Precedence of a right-hand-side symbol as used by `find_rule_precedences`
(mod.rs:702-720): a multi-terminal has that of its first member with one. -/
def Grammar.symPrec (g : Grammar) (s : SymbolId) : Option Precedence :=
  match (g.sym s).kind with
  | .multiTerminal => (g.sym s).subs.findSome? (fun m => (g.sym m).precedence)
  | _ => (g.sym s).precedence

/-- The loop body of `find_rule_precedences` (mod.rs:696-721) -/
def Grammar.rulePrec (g : Grammar) (r : Rule) : Rule :=
  match r.precSym with
  | some ps => { r with precedence := (g.sym ps).precedence }
  | none =>
    match r.rhs.find? (fun s => (g.symPrec s.sym).isSome) with
    | some s => { r with precSym := some s.sym, precedence := g.symPrec s.sym }
    | none => r

/-- `find_rule_precedences` (mod.rs:694-723) -/
def Grammar.findRulePrecedences (g : Grammar) : Grammar :=
  { g with rules := g.rules.map g.rulePrec }

/-- `data_type.is_some()` -/
def Grammar.typed (g : Grammar) (s : SymbolId) : Bool := (g.sym s).dataType.isSome

/-- The loop body of `normalize_rules` (mod.rs:733-753): a rule without code whose LHS is typed
forwards the value of the single typed RHS symbol. -/
def Grammar.normalizeRule (g : Grammar) (r : Rule) : Except GErr Rule :=
  if g.typed r.lhs && r.code.isNone then
    if r.rhs.all (fun s => !s.alias) && (r.rhs.filter (fun s => g.typed s.sym)).length == 1 then
      .ok { r with
        rhs := r.rhs.map (fun s => if g.typed s.sym then { s with alias := true } else s)
        code := some .forward }
    else .error .typedNoCode
  else .ok r

/-- `normalize_rules` (mod.rs:731-756) -/
def Grammar.normalizeRules (g : Grammar) : Except GErr Grammar :=
  match g.rules.mapM g.normalizeRule with
  | .error e => .error e
  | .ok rules => .ok { g with rules := rules }

end Pomelo
