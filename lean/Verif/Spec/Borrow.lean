import Verif.Model.Borrow
import Verif.Spec.Rows
/-! # No conflict of borrows -/

namespace Pomelo.Spec

/-- The pass does not panic, and gives back every borrow. -/
def fine (es : List BorrowEv) : Prop := borrowRun [] es = some []

/-- The sort compares two different elements of a list of length `n` at a time. -/
def compares (n : Nat) (pairs : List (Nat × Nat)) : Prop := ∀ p ∈ pairs, p.1 ≠ p.2 ∧ p.1 < n ∧ p.2 < n

/-- The passes up to the first sort of the actions, and the second one -/
structure EarlyFine (ord : List (SymbolId × SymbolId) → List (SymbolId × SymbolId)) (ds : List Decl) : Prop where
  first : ∀ g0 gN, newFromDecls ds = .ok g0 → (g0.prepare ord).findRulePrecedences.normalizeRules = .ok gN → fine gN.firstEvents
  merge : ∀ (sts : List LState) (k : StateId) (bp : List Cfg), k < sts.length → fine (mergeEvents sts k bp)
  links : ∀ g0 gN gF g sts, newFromDecls ds = .ok g0 → (g0.prepare ord).findRulePrecedences.normalizeRules = .ok gN → gN.findFirstSets = .ok gF →
    gF.findStates = .ok (g, sts) → fine (linksEvents sts)
  resolve : ∀ (q : StateId) (i j : Nat) (same : Bool), i < j → fine (resolveEvents q i j same)
  again : ∀ g0 g sts acts n, newFromDecls ds = .ok g0 → g0.automaton ord = .ok (g, sts) → g.findActions sts = .ok (acts, n) →
    ∀ q, q < sts.length → ∀ dflt ignored r, g.symbolFind .dflt = some dflt → g.ignoredActions (acts.getD q []) = .ok ignored →
      ∀ pairs, compares (acts.getD q []).length pairs → fine (g.sortEvents q (makeDefault ignored dflt r (acts.getD q [])) pairs)

/-- The first sort of the actions of every state, whatever is compared -/
def SortFine (ord : List (SymbolId × SymbolId) → List (SymbolId × SymbolId)) (ds : List Decl) : Prop :=
  ∀ g0 g sts, newFromDecls ds = .ok g0 → g0.automaton ord = .ok (g, sts) → ∀ q, q < sts.length →
    ∀ pairs, compares (g.rawActions q (sts.getD q default)).length pairs → fine (g.sortEvents q (g.rawActions q (sts.getD q default)) pairs)

/-- The numbering of the types, where it is reached -/
def TypesFine (ord : List (SymbolId × SymbolId) → List (SymbolId × SymbolId)) (ds : List Decl) : Prop :=
  ∀ R : Run ord ds, (∀ w, R.g.wildcard = some w → (R.g.sym w).dataType = none) → fine (R.g.typeEvents R.g.symbols)

end Pomelo.Spec
