import Verif.Proofs.Rename2
import Verif.Examples
/-! # C62: names do not matter -/

namespace Pomelo

open Spec

/-- C62: with other names for symbols and types and other blocks the macro reports the same error, or makes the same
tables up to the names of the tokens and the blocks. -/
theorem C62_tables {ρ : Renaming} (hρ : ρ.Distinct) (ord : List (SymbolId × SymbolId) → List (SymbolId × SymbolId)) (ds : List Decl) :
    compile ord (ds.map ρ.decl) = (compile ord ds).map ρ.tables := compile_ren hρ ds ord

/-- C62: the interface of the parser, the text of its rules and the report differ in the names only. -/
theorem C62_text {ρ : Renaming} (hρ : ρ.Distinct) (ord : List (SymbolId × SymbolId) → List (SymbolId × SymbolId)) (ds : List Decl) :
    apiOf ord (ds.map ρ.decl) = (apiOf ord ds).map ρ.api ∧ textOf ord (ds.map ρ.decl) = (textOf ord ds).map (List.map ρ.text) ∧
    macroReport ord (ds.map ρ.decl) = (macroReport ord ds).map (fun x => (ρ.report x.1, x.2)) :=
  ⟨apiOf_ren hρ ds ord, textOf_ren hρ ds ord, macroReport_ren hρ ds ord⟩

/-- C62: the two parsers do the same in every call and in every run, whatever the user's code, if the code of block `ρ.block n` of
one is that of block `n` of the other. -/
theorem C62_parser {V X E : Type} {ρ : Renaming} (hρ : ρ.Distinct) {ord : List (SymbolId × SymbolId) → List (SymbolId × SymbolId)} {ds : List Decl}
    {t t' : Tables} (h : compile ord ds = .ok t) (h' : compile ord (ds.map ρ.decl) = .ok t') (sem : Sem V X E) (fuel : Nat) :
    (∀ p tok, Pomelo.parse t' sem fuel p tok = Pomelo.parse t (ρ.sem sem) fuel p tok) ∧
    (∀ p, endOfInput t' sem fuel p = endOfInput t (ρ.sem sem) fuel p) ∧
    ∀ x toks, Pomelo.runAll t' sem fuel x toks = Pomelo.runAll t (ρ.sem sem) fuel x toks := by
  rw [C62_tables hρ, h] at h'
  cases h'
  exact ⟨fun p tok => tables_parse t sem fuel p tok, fun p => tables_end t sem fuel p, fun x toks => tables_runAll t sem fuel x toks⟩

namespace C62ex

open Tests Examples

/-- `A` and `B` change places, all other tokens are moved up; nonterminals and types are moved up; every block becomes block 7. -/
def ρ : Renaming :=
  { upper := fun n => if n = 0 then 1 else if n = 1 then 0 else n + 5
    lower := fun n => n + 3
    other := fun n => n
    ty := fun n => 2 * n + 1
    block := fun _ => 7 }

/-- The hypothesis of the three theorems -/
theorem distinct : ρ.Distinct where
  upper m n h := by simp only [ρ] at h; split at h <;> split at h <;> (try split at h) <;> (try split at h) <;> omega
  lower m n h := by simp only [ρ] at h; omega
  other m n h := by simp only [ρ] at h; omega
  ty m n h := by simp only [ρ] at h; omega

/-- `%type A T0; %type s T1; %left B; %extra_token T0; s ::= x(_) {1}; x ::= x B x; x ::= A; x ::= C D?;` -/
def g : List Decl :=
  [.type false (U 0) (some (.named 0)), .type false (L 0) (some (.named 1)), .assoc .left [U 1], .extraToken (.named 0),
   r (L 0) [s (L 1) true] (some 1), r (L 1) [s (L 1), s (U 1), s (L 1)], r (L 1) [s (U 0)], r (L 1) [s (U 2), s (U 3) false true]]

/-- It is accepted, and so are the renamed declarations. -/
example : compiles g = true ∧ compiles (g.map ρ.decl) = true ∧ g.map ρ.decl ≠ g := by decide +kernel

/-- Declarations with an error: `s ::= x; x ::= A; x ::= A;`.  It is the same error. -/
def bad : List Decl := [r (L 0) [s (L 1)], r (L 1) [s (U 0)], r (L 1) [s (U 0)]]

example : (match compile id bad, compile id (bad.map ρ.decl) with
    | .error e, .error e' => decide (e = e')
    | _, _ => false) = true := by decide +kernel
end C62ex

/-- Names that become equal do matter: `s ::= A; s ::= B;` with `A` for `B` has a conflict. -/
theorem C62_distinct : ¬ ∀ (ρ : Renaming) (ds : List Decl), compile id (ds.map ρ.decl) = (compile id ds).map ρ.tables := by
  intro h
  have := h { upper := fun _ => 0, lower := id, other := id, ty := id, block := id } [Tests.r (Tests.L 0) [Tests.s (Tests.U 0)], Tests.r (Tests.L 0) [Tests.s (Tests.U 1)]]
  have h1 : Examples.compiles ([Tests.r (Tests.L 0) [Tests.s (Tests.U 0)], Tests.r (Tests.L 0) [Tests.s (Tests.U 1)]].map
      ({ upper := fun _ => 0, lower := id, other := id, ty := id, block := id } : Renaming).decl) = false := by decide +kernel
  have h2 : Examples.compiles [Tests.r (Tests.L 0) [Tests.s (Tests.U 0)], Tests.r (Tests.L 0) [Tests.s (Tests.U 1)]] = true := by decide +kernel
  rw [Examples.compiles_iff h2] at this
  unfold Examples.compiles at h1
  rw [this] at h1
  cases h1

end Pomelo
