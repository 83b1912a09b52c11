import Verif.Proofs.Limit
import Verif.Props.Outer
import Verif.Props.Height
/-!
# C76: the limit of the stack decides only when to give up

A parser with less room on its stack does exactly what one with more room does, call by call, up to the push for which it has no room; there it runs the block of
`%stack_overflow` and fails.
-/

namespace Pomelo

open Spec

variable {ord : List (SymbolId × SymbolId) → List (SymbolId × SymbolId)} {ds ds' : List Decl} {t t' : Tables} {V X E : Type}

/-- C76: `ds` and `ds'` differ in outer directives, `ds'` leaves more room. -/
theorem C76 (h : compile ord ds = .ok t) (h' : compile ord ds' = .ok t') (hb : bare ds = bare ds') (hl : Roomier (stackSizeOf ds) (stackSizeOf ds'))
    (sem : Sem V X E) (fuel : Nat) (x : X) (toks : List (Tok V)) :
    runAll t sem fuel x toks = runAll t' sem fuel x toks ∨ CutShort (runAll t sem fuel x toks) (runAll t' sem fuel x toks) := by
  obtain ⟨_, t0, h1, rfl⟩ := C74_iff.1 h
  obtain ⟨_, t1, h2, rfl⟩ := C74_iff.1 h'
  rw [hb, h2] at h1
  cases Except.ok.inj h1
  exact limit_runAll (t := { t0 with stackLimit := stackSizeOf ds }) hl sem fuel x toks

/-- So what is accepted stays accepted, with the same value and the same extra argument, if the stack is made larger. -/
theorem C76_accepts (h : compile ord ds = .ok t) (h' : compile ord ds' = .ok t') (hb : bare ds = bare ds') (hl : Roomier (stackSizeOf ds) (stackSizeOf ds'))
    {sem : Sem V X E} {fuel : Nat} {x : X} {toks : List (Tok V)} {p : Parser V X} {v : V} (hr : runAll t sem fuel x toks = some (.ok p v)) :
    runAll t' sem fuel x toks = some (.ok p v) := by
  rcases C76 h h' hb hl sem fuel x toks with h1 | ⟨p1, e, tok, tr, h1, _⟩
  · rw [← h1]; exact hr
  · rw [hr] at h1; cases h1

/-- If the stack is made smaller, nothing changes unless it overflows. -/
theorem C76_less (h : compile ord ds = .ok t) (h' : compile ord ds' = .ok t') (hb : bare ds = bare ds') (hl : Roomier (stackSizeOf ds) (stackSizeOf ds'))
    {sem : Sem V X E} {fuel : Nat} {x : X} {toks : List (Tok V)} (hn : ∀ a p tok, runAll t sem fuel x toks = some a → a.parser? = some p → .stackOverflow tok ∉ p.trace) :
    runAll t sem fuel x toks = runAll t' sem fuel x toks := by
  rcases C76 h h' hb hl sem fuel x toks with h1 | ⟨p1, e, tok, tr, h1, h2, _⟩
  · exact h1
  · exact absurd (by rw [h2]; exact .head _) (hn _ p1 tok h1 rfl)

/-! ## Examples -/

namespace C76ex
open Tests (U L s r logSem)
open Examples

/-- `s ::= l { 0 }; l ::= A l { 1 }; l ::= A { 2 };` with a limit -/
def list (n : Nat) : List Decl := [.stackSize n none, r (L 0) [s (L 1)] (some 0), r (L 1) [s (U 1), s (L 1)] (some 1), r (L 1) [s (U 1)] (some 2)]

theorem list4 : compile id (list 4) = .ok (tablesOf (list 4)) := compiles_iff (by decide +kernel)
theorem list9 : compile id (list 9) = .ok (tablesOf (list 9)) := compiles_iff (by decide +kernel)
theorem list0 : compile id (list 0) = .ok (tablesOf (list 0)) := compiles_iff (by decide +kernel)

/-- The same list with no limit: what is accepted with four entries is accepted without a limit, … -/
example (fuel : Nat) (toks : List (Tok Int)) (p : Parser Int (List Nat)) (v : Int) (h : runAll (tablesOf (list 4)) logSem fuel [] toks = some (.ok p v)) :
    runAll (tablesOf (list 0)) logSem fuel [] toks = some (.ok p v) := C76_accepts list4 list0 rfl (.inl rfl) h

/-- … three elements are, … -/
example : (match runAll (tablesOf (list 4)) logSem 100 [] (List.replicate 3 ⟨1, 0⟩) with | some (.ok p _) => p.extra | _ => []) = [2, 1, 1, 0] := by decide +kernel
/-- … with four the stack of four entries overflows, that of nine does not. -/
example : (match runAll (tablesOf (list 4)) logSem 100 [] (List.replicate 4 ⟨1, 0⟩) with
      | some (.err p _) => p.trace.map (fun | .stackOverflow _ => 1 | .shift _ => 2 | _ => 0) | _ => []) = [1, 2, 2, 2] ∧
    (match runAll (tablesOf (list 9)) logSem 100 [] (List.replicate 4 ⟨1, 0⟩) with
      | some (.ok p _) => p.trace.map (fun | .stackOverflow _ => 1 | .shift _ => 2 | _ => 0) | _ => []) = [0, 0, 0, 0, 0, 2, 2, 2, 2] := by decide +kernel
example : runAll (tablesOf (list 4)) logSem 100 [] (List.replicate 4 ⟨1, 0⟩) = runAll (tablesOf (list 9)) logSem 100 [] (List.replicate 4 ⟨1, 0⟩) ∨
    CutShort (runAll (tablesOf (list 4)) logSem 100 [] (List.replicate 4 ⟨1, 0⟩)) (runAll (tablesOf (list 9)) logSem 100 [] (List.replicate 4 ⟨1, 0⟩)) :=
  C76 list4 list9 rfl (.inr (by decide)) logSem 100 [] _

end C76ex

end Pomelo
