import Verif.Model.Report
import Verif.Spec.Conflict
import Verif.Spec.Prec
/-!
# What the report should say

The state reached by a prefix of symbols is described by one block; `blk` gives its number.
-/

namespace Pomelo.Spec

/-- A prefix after which a parser may be -/
def Live (g : Grammar) (γ : List SymbolId) : Prop := γ = [] ∨ ∃ it, Viable g γ it

/-- After `γ` may come the symbol `X` of a right-hand side, which the parser sees as the symbol `a`: a nonterminal as itself, a token as itself, a
class as one of its members. -/
def Passes (g : Grammar) (γ : List SymbolId) (a X : SymbolId) : Prop :=
  ∃ it, Viable g γ it ∧ atDot g it = some X ∧ (((g.sym X).kind = .nonTerminal ∧ a = X) ∨ Reads g X a)

/-- How a symbol of a right-hand side is written: a class by its members -/
def spell (g : Grammar) (s : SymbolId) : Word :=
  if (g.sym s).kind = .multiTerminal then .alts ((g.sym s).subs.map fun m => (g.sym m).name) else .name (g.sym s).name

/-- The text of an item: what is before the dot, the dot, what is after it -/
def itemText (g : Grammar) (it : Item) : ItemLine where
  number := if it.dot = (g.rhsSyms it.rule).length then some it.rule else none
  lhs := (g.sym (g.rule it.rule).lhs).name
  words := ((g.rhsSyms it.rule).take it.dot).map (spell g) ++ .dot :: ((g.rhsSyms it.rule).drop it.dot).map (spell g)

/-- The precedences of the token `a` and the rule `r` are related by `P`. -/
def TokRule (g : Grammar) (P : Precedence → Precedence → Prop) (a : SymbolId) (r : RuleId) : Prop :=
  ∃ p p', (g.sym a).precedence = some p ∧ (g.rule r).precedence = some p' ∧ P p p'

/-- The rule `r` gives way to `r'`: it binds looser; at the same level the later rule wins if they are left-associative, the earlier
one if they are right-associative. -/
def GivesWay (g : Grammar) (r r' : RuleId) : Prop :=
  ∃ p p', (g.rule r).precedence = some p ∧ (g.rule r').precedence = some p' ∧
    (p.level < p'.level ∨ (p.level = p'.level ∧ ((r < r' ∧ p.assoc = .left) ∨ (r' < r ∧ p'.assoc = .right))))

/-- Precedences do not choose between two rules. -/
def Undecided (g : Grammar) (r r' : RuleId) : Prop :=
  (g.rule r).precedence = none ∨ (g.rule r').precedence = none ∨
    ∃ p p', (g.rule r).precedence = some p ∧ (g.rule r').precedence = some p' ∧ Excluded p p'

/-- An unmarked shift or reduction on the name `n` -/
def unmarked (n : SymName) (l : ActLine) : Bool :=
  l.la = n && l.mark = .plain && match l.deed with
    | .shift _ => true
    | .reduce _ => true
    | _ => false

/-- The block `b` describes the state of the prefix `γ`. -/
structure Describes (g : Grammar) (blk : List SymbolId → Nat) (γ : List SymbolId) (b : Block) : Prop where
  num : b.num = blk γ
  /-- one line for each item -/
  items : ∃ its : List Item, its.Nodup ∧ (∀ it, it ∈ its ↔ Viable g γ it) ∧ b.items = its.map (itemText g)
  /-- the shifts and gotos -/
  shift_of : ∀ {n k m}, ⟨n, .shift k, m⟩ ∈ b.lines → ∃ a X, (g.sym a).name = n ∧ Passes g γ a X ∧ k = blk (γ ++ [X])
  /-- each is listed, unless a tie has made an error of it -/
  shift_in : ∀ {a X}, Passes g γ a X → (∃ m, ⟨(g.sym a).name, .shift (blk (γ ++ [X])), m⟩ ∈ b.lines) ∨
    (⟨(g.sym a).name, .error, .plain⟩ ∈ b.lines ∧ ∃ r, ReducesOn g γ a r ∧ TokRule g Excluded a r)
  error_of : ∀ {n m}, ⟨n, .error, m⟩ ∈ b.lines → m = .plain ∧ ∃ a X r, (g.sym a).name = n ∧ Passes g γ a X ∧ ReducesOn g γ a r ∧ TokRule g Excluded a r
  /-- exactly the reductions with exactly their lookaheads -/
  reduce : ∀ {n r}, (∃ m, ⟨n, .reduce r, m⟩ ∈ b.lines) ↔ ∃ a, (g.sym a).name = n ∧ ReducesOn g γ a r
  accept : ∀ {n m}, ⟨n, .accept, m⟩ ∈ b.lines ↔ m = .plain ∧ blk γ = blk [] ∧ n = (g.sym (g.start.getD 0)).name
  /-- the reasons for the remarks -/
  shift_conflict : ∀ {n k}, ⟨n, .shift k, .conflict⟩ ∈ b.lines → ∃ a X, (g.sym a).name = n ∧ Passes g γ a X ∧ k = blk (γ ++ [X]) ∧
    ((∃ Y, Y ≠ X ∧ Passes g γ a Y) ∨ ¬ (g.sym X).subs.Nodup)
  shift_dropped : ∀ {n k}, ⟨n, .shift k, .dropped⟩ ∈ b.lines → ∃ a X r, (g.sym a).name = n ∧ Passes g γ a X ∧ k = blk (γ ++ [X]) ∧
    ReducesOn g γ a r ∧ TokRule g Looser a r
  reduce_conflict : ∀ {n r}, ⟨n, .reduce r, .conflict⟩ ∈ b.lines → ∃ a, (g.sym a).name = n ∧ ReducesOn g γ a r ∧
    ((∃ X, Passes g γ a X ∧ ((g.sym a).precedence = none ∨ (g.rule r).precedence = none)) ∨ ∃ r', r' < r ∧ ReducesOn g γ a r' ∧ Undecided g r' r)
  reduce_dropped : ∀ {n r}, ⟨n, .reduce r, .dropped⟩ ∈ b.lines → ∃ a, (g.sym a).name = n ∧ ReducesOn g γ a r ∧
    ((∃ X, Passes g γ a X ∧ TokRule g Tighter a r) ∨ ∃ r', ReducesOn g γ a r' ∧ GivesWay g r r')
  /-- of all the shifts and reductions on a symbol, one is without a remark -/
  one : ∀ {n}, b.lines.countP (unmarked n) ≤ 1
  some : ∀ {a}, ((∃ X, Passes g γ a X) ∨ ∃ r, ReducesOn g γ a r) → b.lines.countP (unmarked (g.sym a).name) = 1

/-- The report describes every state once, and nothing else. -/
structure Covers (g : Grammar) (blk : List SymbolId → Nat) (rep : Report) : Prop where
  /-- prefixes share a block exactly if they are in the same state -/
  same : ∀ {γ γ'}, Live g γ → Live g γ' → (blk γ = blk γ' ↔ SameState g γ γ')
  some : ∀ k, k < rep.blocks.length → ∃ γ, Live g γ ∧ blk γ = k
  describes : ∀ γ, Live g γ → ∃ b, rep.blocks[blk γ]? = .some b ∧ Describes g blk γ b

/-- The number of lines with the remark `** Parsing conflict **` -/
def conflictLines (rep : Report) : Nat := (rep.blocks.map fun b => b.lines.countP fun l => l.mark = .conflict).sum

end Pomelo.Spec
