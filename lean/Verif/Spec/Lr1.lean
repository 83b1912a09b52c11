import Verif.Spec.Cfg
/-!
# LR(1) items of a grammar

Textbook definitions, by viable prefix and without any automaton: which items are valid after a
sequence of symbols, and with which lookahead tokens.
-/

namespace Pomelo.Spec

/-- Symbol after the dot -/
def atDot (g : Grammar) (c : Item) : Option SymbolId := (g.rhsSyms c.rule)[c.dot]?
/-- What comes after that symbol -/
def behind (g : Grammar) (c : Item) : List SymbolId := (g.rhsSyms c.rule).drop (c.dot + 1)
/-- `r` is a rule of the symbol `A` -/
def RuleOf (g : Grammar) (A : SymbolId) (r : RuleId) : Prop := r < g.rules.length ∧ (g.rule r).lhs = A

/-- The item is valid for the prefix `γ` (LR(0)) -/
inductive Viable (g : Grammar) : List SymbolId → Item → Prop
  | start {r} : RuleOf g (g.start.getD 0) r → Viable g [] ⟨r, 0⟩
  | close {γ c A r} : Viable g γ c → atDot g c = some A → RuleOf g A r → Viable g γ ⟨r, 0⟩
  | shift {γ c X} : Viable g γ c → atDot g c = some X → Viable g (γ ++ [X]) ⟨c.rule, c.dot + 1⟩

/-- Token number `n` (0 is the end of input) is a lookahead of the item for the prefix `γ`.  The
only difference with the usual LR(1) closure is in `first`: what begins behind the symbol at the
dot counts even if nothing can come after the rule the dot is in, see `Valid1`. -/
inductive Ahead (g : Grammar) : List SymbolId → Item → Nat → Prop
  | start {r} : RuleOf g (g.start.getD 0) r → Ahead g [] ⟨r, 0⟩ 0
  | first {γ c A r n} : Viable g γ c → atDot g c = some A → RuleOf g A r → Begins g (behind g c) n → Ahead g γ ⟨r, 0⟩ n
  | pass {γ c A r n} : Ahead g γ c n → atDot g c = some A → RuleOf g A r → Derives g (behind g c) [] → Ahead g γ ⟨r, 0⟩ n
  | shift {γ c X n} : Ahead g γ c n → atDot g c = some X → Ahead g (γ ++ [X]) ⟨c.rule, c.dot + 1⟩ n

/-- LR(1) items in the strict sense -/
inductive Valid1 (g : Grammar) : List SymbolId → Item → Nat → Prop
  | start {r} : RuleOf g (g.start.getD 0) r → Valid1 g [] ⟨r, 0⟩ 0
  | close {γ c A r m n} : Valid1 g γ c m → atDot g c = some A → RuleOf g A r →
      (Begins g (behind g c) n ∨ (Derives g (behind g c) [] ∧ n = m)) → Valid1 g γ ⟨r, 0⟩ n
  | shift {γ c X n} : Valid1 g γ c n → atDot g c = some X → Valid1 g (γ ++ [X]) ⟨c.rule, c.dot + 1⟩ n

/-- Every symbol of a right-hand side can begin with some token or vanish.  False for the `error`
symbol and for nonterminals that derive nothing. -/
def NoVoid (g : Grammar) : Prop :=
  ∀ r, r < g.rules.length → ∀ X ∈ g.rhsSyms r, (∃ n, Begins g [X] n) ∨ Derives g [X] []

end Pomelo.Spec
