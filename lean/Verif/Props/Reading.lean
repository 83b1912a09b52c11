import Verif.Proofs.Reading
import Verif.Tests
/-!
# C46: what is refused when the declarations are read, and with which error

`Verif/Spec/Reading.lean` says it by names.
-/

namespace Pomelo

open Spec

theorem newFromDecls_rules {ds : List Decl} {g : Grammar} (h : Grammar.initial.parseDecls ds = .ok g) : g.rules.isEmpty = true ↔ rulesOf ds = [] := by
  have h1 := (DInv.initial.parseDecls h).2.2 [] (by exact List.Forall₂.nil)
  rw [List.nil_append] at h1
  have h2 := h1.length_eq
  have h3 : (ds.filterMap Decl.rule?).length = (rulesOf ds).length := by
    unfold rulesOf
    clear h h1 h2
    induction ds with
    | nil => rfl
    | cons d ds ih => cases d <;> simpa [List.filterMap_cons, Decl.rule?] using ih
  rw [List.isEmpty_iff, ← List.length_eq_zero_iff, ← List.length_eq_zero_iff, ← h2, h3]

theorem newFromDecls_eq (ds : List Decl) : newFromDecls ds = match Grammar.initial.parseDecls ds with
    | .error e => .error e
    | .ok g => if g.rules.isEmpty then .error .noRules else .ok (g.symbolNew .dflt .nonTerminal).1 := by
  unfold newFromDecls
  cases Grammar.initial.parseDecls ds with
  | error e => rfl
  | ok g =>
    simp only
    have : (g.symbolNew .dflt .nonTerminal).1.rules = g.rules := by
      unfold Grammar.symbolNew
      simp only
      split <;> rfl
    rw [this]

/-- C46: reading the declarations ends with the error `e` exactly if the first declaration at fault is at fault for the
reason `e`, or there are no rules. -/
theorem C46_refused (ds : List Decl) (e : GErr) : newFromDecls ds = .error e ↔ FirstFault ds e := by
  rw [newFromDecls_eq]
  unfold FirstFault
  rw [← parseDecls_error]
  cases h : Grammar.initial.parseDecls ds with
  | error e' =>
    have : ¬ Admitted ds := by rw [admitted_parse, h]; simp
    simp [this]
  | ok g =>
    have h1 : Admitted ds := admitted_parse.2 ⟨g, h⟩
    have h2 := newFromDecls_rules h
    simp only [h1, true_and, reduceCtorEq, false_or]
    by_cases h3 : g.rules.isEmpty = true
    · rw [if_pos h3]
      simp [h2.1 h3, eq_comm]
    · rw [if_neg h3]
      have : rulesOf ds ≠ [] := fun hh => h3 (h2.2 hh)
      simp [this]

/-- C46: the declarations are read without an error exactly if every one is admitted when its turn comes and there is a rule. -/
theorem C46_read (ds : List Decl) : (∃ g, newFromDecls ds = .ok g) ↔ Admitted ds ∧ rulesOf ds ≠ [] := by
  rw [newFromDecls_eq]
  cases h : Grammar.initial.parseDecls ds with
  | error e' =>
    have : ¬ Admitted ds := by rw [admitted_parse, h]; simp
    simp [this]
  | ok g =>
    have h1 : Admitted ds := admitted_parse.2 ⟨g, h⟩
    have h2 := newFromDecls_rules h
    simp only [h1, true_and]
    by_cases h3 : g.rules.isEmpty = true
    · rw [if_pos h3]
      simp [h2.1 h3]
    · rw [if_neg h3]
      have : rulesOf ds ≠ [] := fun hh => h3 (h2.2 hh)
      simp [this]

/-! ## Declarations at fault, and not -/

namespace Readex
open Tests (U L s r)

/-- `%left A B; %fallback A C; %fallback C D; %token_class K A B; s ::= x A?; x ::= K|C [B];` -/
def good : List Decl :=
  [.assoc .left [U 0, U 1], .fallback (U 0) [U 2], .fallback (U 2) [U 3], .tokenClass (U 4) [U 0, U 1], .startSymbol (L 0),
   r (L 0) [s (L 1), s (U 0) (opt := true)], r (L 1) [⟨[U 1, U 2], false, false⟩] none (some (U 1))]

example : Admitted good ∧ rulesOf good ≠ [] := (C46_read good).1 ⟨_, rfl⟩

/-- Faults of each kind, each at the last of some declarations -/
example : Refuses [.assoc .left [U 0]] (.assoc .right [U 1, U 0]) .precTwice := .assoc (by decide)
example : Refuses [] (.assoc .right [U 1, U 2, U 1]) .precTwice := .assoc (by decide)
example : Refuses [.fallback (U 0) [U 1], .fallback (U 2) [U 0]] (.fallback (U 1) [U 2]) .fallbackLoop :=
  .fallbackLoop (by decide) (.later (j := U 0) rfl (.here (j := U 2) rfl (by decide)))
example : Refuses [.type false (L 0) (some .unit)] (.type true (L 0) none) .attributesOnNonTerminal := .typeAttrs rfl
example : Refuses [.stackSize 5 (some .unit)] (.stackSize 5 none) .alreadyDefined := .twice (d := .stackSize 5 (some .unit)) (by simp) trivial
/-- A second error in the same list does not count. -/
example : FirstFault [.assoc .left [U 0], .assoc .left [L 0], .startSymbol (U 0)] .precOnNonTerminal := (C46_refused _ _).1 rfl
/-- A loop of fallbacks that does not meet the new token -/
example : FirstFault [.fallback (U 0) [U 0], .fallback (U 0) [U 1], r (L 0) [s (U 0)]] .hang := (C46_refused _ _).1 rfl
example : FirstFault [.assoc .left [U 0]] .noRules := (C46_refused _ _).1 rfl

end Readex

end Pomelo
