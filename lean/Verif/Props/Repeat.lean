import Verif.Proofs.Repeat
import Verif.Props.Parse
/-!
# C77: no rule is written twice

Two rules with the same left-hand side and the same right-hand side are complete in the same states, with the same
look-aheads.  Precedences cannot help: which of the two wins does not depend on the token, so one of them never does.
-/

namespace Pomelo

open Spec

variable {ord : List (SymbolId × SymbolId) → List (SymbolId × SymbolId)} {ds : List Decl} {t : Tables}

/-- C77.  The macro refuses declarations where a rule is written twice, whatever the blocks, aliases and precedences of the two. -/
theorem C77 (ho : OrdOk ord) (h : Repeats ds) : ∀ t, compile ord ds ≠ .ok t :=
  fun _ hc => repeat_refused ho hc h

/-- The same as to accepted declarations: a rule is known by its two sides. -/
theorem C77_known (ho : OrdOk ord) (hc : compile ord ds = .ok t) {i j : Nat} {u v : URule} (hu : (rulesOf ds)[i]? = some u)
    (hv : (rulesOf ds)[j]? = some v) (hl : u.lhs = v.lhs) (hr : u.rhs.map RhsElem.plain = v.rhs.map RhsElem.plain) : i = j := by
  by_contra hne
  exact C77 ho ⟨i, j, u, v, hne, hu, hv, hl, hr⟩ t hc

/-- The rules of the automaton, those of the optional symbols among them, are different too. -/
theorem C77_numbered (ho : OrdOk ord) (R : Run ord ds) {i j : RuleId} (hi : i < R.g.rules.length) (hj : j < R.g.rules.length)
    (hl : (R.g.rule i).lhs = (R.g.rule j).lhs) (hr : R.g.rhsSyms i = R.g.rhsSyms j) : i = j := R.distinct ho hi hj hl hr

namespace C77ex
open Tests (U L s r)
open Examples (compiles compiles_iff tablesOf)

/-- `s ::= A B {1}; s ::= A(x) B {2};` -/
def twice : List Decl := [ r (L 0) [s (U 1), s (U 2)] (some 1), r (L 0) [s (U 1) true, s (U 2)] (some 2) ]
example : Repeats twice := ⟨0, 1, _, _, by decide, rfl, rfl, rfl, rfl⟩
example : compile id twice = .error .cannotReduce := by decide +kernel

/-- `%left A; %left B; s ::= C [A]; s ::= C [B];`: the two have different precedences, and still one of them never wins. -/
def marked : List Decl :=
  [ .assoc .left [U 1], .assoc .left [U 2], .rule (L 0) [s (U 3)] (some 1) (some (U 1)), .rule (L 0) [s (U 3)] (some 2) (some (U 2)) ]
example : Repeats marked := ⟨0, 1, _, _, by decide, rfl, rfl, rfl, rfl⟩
example : ∀ t, compile id marked ≠ .ok t := C77 OrdOk.id ⟨0, 1, _, _, by decide, rfl, rfl, rfl, rfl⟩
example : compile id marked = .error .cannotReduce := by decide +kernel

/-- `s ::= A|B; s ::= A|B;`: the two compounds are different symbols that read the same tokens. -/
def compound : List Decl := [ r (L 0) [⟨[U 1, U 2], false, false⟩], r (L 0) [⟨[U 1, U 2], false, false⟩] ]
example : Repeats compound := ⟨0, 1, _, _, by decide, rfl, rfl, rfl, rfl⟩
example : compile id compound = .error .conflicts := by decide +kernel

/-- `s ::= A? B; s ::= A? B;` -/
def optional : List Decl := [ r (L 0) [s (U 1) false true, s (U 2)], r (L 0) [s (U 1) false true, s (U 2)] ]
example : ∀ t, compile id optional ≠ .ok t := C77 OrdOk.id ⟨0, 1, _, _, by decide, rfl, rfl, rfl, rfl⟩

/-- `s ::= x A; s ::= y B; x ::= C; y ::= C;`: the same right-hand side for two symbols is fine. -/
def sides : List Decl := [ r (L 0) [s (L 1), s (U 1)], r (L 0) [s (L 2), s (U 2)], r (L 1) [s (U 3)], r (L 2) [s (U 3)] ]
example : compiles sides = true := by decide +kernel
example : ¬ Repeats sides := by
  rintro ⟨i, j, u, v, hne, hu, hv, hl, hr⟩
  exact hne (C77_known OrdOk.id (compiles_iff (by decide +kernel)) hu hv hl hr)

end C77ex

end Pomelo
