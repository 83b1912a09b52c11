import Verif.Proofs.Outer
import Verif.Examples
/-!
# C74: the text around the parser does not change the parser

The directives `%module`, `%include`, `%verbose`, `%syntax_error`, `%parse_fail`, `%stack_overflow`, `%extra_argument`, `%error`, `%token` and `%parser` have no influence on
the tables, and `%stack_size` on nothing but the limit.  They may be refused themselves: if one is repeated, or if the items of `%token` and `%parser` do not fit.
-/

namespace Pomelo

open Spec

variable {ord : List (SymbolId × SymbolId) → List (SymbolId × SymbolId)} {ds : List Decl} {t : Tables}

theorem outerOk_iff : OuterOk ds ↔ Dress.freeAll {} ds = true ∧ (ds.foldl Dress.step {}).items = .ok () := by
  have key : Dress.freeAll {} ds = true → ((ds.foldl Dress.step {}).items = .ok () ↔ ¬ TokenFull ds ∧ ¬ ParserFull ds ∧ ¬ ParamMissing ds) := fun h => by
    obtain ⟨h1, h2⟩ := steps_items ds {} h
    exact items_iff (by rw [h1]; rfl) (by rw [h2]; rfl)
  constructor
  · rintro ⟨h1, h2, h3, h4⟩
    have hf := (freeAll_iff ds {}).2 ⟨fun d _ => free_new d, h1⟩
    exact ⟨hf, (key hf).2 ⟨h2, h3, h4⟩⟩
  · rintro ⟨h1, h2⟩
    obtain ⟨h3, h4, h5⟩ := (key h1).1 h2
    exact ⟨((freeAll_iff ds {}).1 h1).2, h3, h4, h5⟩

/-- C74: without the outer directives the macro reports the same error, or makes the same tables but for the limit of the stack. -/
theorem C74 (ord) (h : OuterOk ds) : compile ord ds = (compile ord (bare ds)).map fun t => { t with stackLimit := stackSizeOf ds } := by
  obtain ⟨h1, h2⟩ := outerOk_iff.1 h
  rw [compile_dress ord h1 h2, steps_limit]

/-- The hypothesis of C74 holds whenever the macro accepts the declarations, and then the outer directives are all that there is to choose. -/
theorem C74_iff : compile ord ds = .ok t ↔ OuterOk ds ∧ ∃ t0, compile ord (bare ds) = .ok t0 ∧ t = { t0 with stackLimit := stackSizeOf ds } := by
  constructor
  · intro h
    have ho := outerOk_iff.2 (compile_items h)
    rw [C74 ord ho] at h
    cases h0 : compile ord (bare ds) with
    | error e => rw [h0] at h; cases h
    | ok t0 => rw [h0] at h; exact ⟨ho, t0, rfl, (Except.ok.inj h).symm⟩
  · rintro ⟨ho, t0, h0, rfl⟩
    rw [C74 ord ho, h0]
    rfl

/-- So two lists of declarations that differ in outer directives only, and set the same limit, give the same parser. -/
theorem C74_same {ds' : List Decl} {t' : Tables} (hb : bare ds = bare ds') (hs : stackSizeOf ds = stackSizeOf ds') (h : compile ord ds = .ok t)
    (h' : compile ord ds' = .ok t') : t = t' := by
  obtain ⟨_, t0, h1, rfl⟩ := C74_iff.1 h
  obtain ⟨_, t1, h2, rfl⟩ := C74_iff.1 h'
  rw [hb, h2] at h1
  cases h1
  rw [hs]

/-- If one of them is accepted, the other is refused only for its outer directives. -/
theorem C74_refused {ds' : List Decl} (hb : bare ds = bare ds') (h : compile ord ds = .ok t) : (∃ t', compile ord ds' = .ok t') ↔ OuterOk ds' := by
  obtain ⟨_, t0, h1, _⟩ := C74_iff.1 h
  constructor
  · rintro ⟨t', h'⟩
    exact (C74_iff.1 h').1
  · intro ho
    exact ⟨_, C74_iff.2 ⟨ho, t0, by rw [← hb]; exact h1, rfl⟩⟩

/-! ## Examples -/

namespace C74ex
open Examples
open Tests (U L s r error1)

/-- `tests/pass/error1.rs` with everything around it: `%module; %include; %verbose; %error T; %parse_fail; %stack_overflow; %token; %parser; %stack_size 7;` in various places -/
def full : List Decl :=
  .module :: .include :: .verbose :: .error (.named 3) :: error1.take 3 ++ [.parseFail, .include, .token {}, .stackSize 7 none] ++ error1.drop 3 ++ [.stackOverflow, .parser {}]

example : bare full = bare error1 ∧ (bare full).length = 6 ∧ full.length = 18 := by decide

/-- The same tables but for the limit -/
example : ∃ t t', compile id error1 = .ok t ∧ compile id full = .ok t' ∧ t' = { t with stackLimit := 7 } ∧ t.stackLimit = 100 := by
  have h := compiles_iff (ds := error1) (by decide +kernel)
  have h' := compiles_iff (ds := full) (by decide +kernel)
  refine ⟨_, _, h, h', ?_, by decide +kernel⟩
  obtain ⟨_, t0, h1, e1⟩ := C74_iff.1 h
  obtain ⟨_, t1, h2, e2⟩ := C74_iff.1 h'
  rw [show bare full = bare error1 by decide, h1] at h2
  cases h2
  rw [e1, e2]
  rfl

/-- Refused only for a second `%parse_fail` -/
example : ¬ ∃ t, compile id (full ++ [.parseFail]) = .ok t := by
  rw [C74_refused (by decide) (compiles_iff (ds := full) (by decide +kernel))]
  rintro ⟨h, _, _, _⟩
  have h1 := (List.pairwise_append.1 h).2.2 .parseFail (by decide) .parseFail (by decide)
  exact h1 rfl trivial

/-- An error of the grammar is the same with or without outer directives: `%include; %error T; s ::= x;` -/
example : compile id [.include, .error (.named 1), r (L 0) [s (L 1)]] = compile id [r (L 0) [s (L 1)]] ∧ compile id [r (L 0) [s (L 1)]] = .error .noRulesFor :=
  ⟨C74 id (outerOk_iff.2 ⟨rfl, rfl⟩), by decide +kernel⟩

end C74ex

end Pomelo
