import Verif.Proofs.MacroPanics
import Verif.Examples
/-!
# C21, C45: the macro ends, and does not panic

`GErr.fuel` stands for a loop of the model that has used up its bound, `GErr.hang` for a walk along
fallbacks that has visited more tokens than there are, `GErr.panic` for a panic of the macro.
-/

namespace Pomelo

open Spec

variable {ord : List (SymbolId × SymbolId) → List (SymbolId × SymbolId)} {ds : List Decl}

/-! ## C21 -/

/-- C21: for every list of declarations the macro ends. -/
def C21_statement : Prop := ∀ ord, OrdOk ord → ∀ ds, compile ord ds ≠ .error .fuel ∧ compile ord ds ≠ .error .hang

/-- C21 for the fixpoints, the closure and the construction of the states: they end for every list of
declarations.  The walks along fallbacks end if no token is declared as its own fallback.
Missing: that they always end; that is false, see `C21_false`. -/
theorem C21_partial (ho : OrdOk ord) (ds : List Decl) :
    compile ord ds ≠ .error .fuel ∧ (noSelfFallback ds = true → compile ord ds ≠ .error .hang) := by
  refine ⟨fun h => (compile_err ho h).1 rfl, fun hn h => ?_⟩
  have := (compile_err ho h).2 rfl
  rw [hn] at this; cases this

namespace C21ex
open Tests (U L s r)

/-- `%fallback B B; s ::= A; s ::= B;` -/
def self : List Decl := [ .fallback (U 2) [U 2], r (L 0) [s (U 1)], r (L 0) [s (U 2)] ]
/-- `%fallback B B; %fallback B C; s ::= A;` -/
def again : List Decl := [ .fallback (U 2) [U 2], .fallback (U 2) [U 3], r (L 0) [s (U 1)] ]
/-- `%fallback A B; %fallback B C; s ::= l; l ::= ; l ::= l A?; l ::= D l E; l ::= F;`, recursive, with empty rules and chained fallbacks -/
def chain : List Decl :=
  [ .fallback (U 1) [U 2], .fallback (U 2) [U 3], r (L 0) [s (L 1)], r (L 1) [], r (L 1) [s (L 1), s (U 1)],
    r (L 2) [s (U 4), s (L 2), s (U 5)], r (L 2) [s (U 6) (opt := true), s (U 3)], r (L 1) [s (U 7), s (L 2)] ]

-- the hypothesis of the second part
example : noSelfFallback chain = true ∧ Examples.compiles chain = true ∧ fallbackOf chain (U 3) = some (U 2) := by decide +kernel
-- and inputs that are refused, not looped on: a cycle of two fallbacks, a unit cycle
example : compile id [ .fallback (U 1) [U 2], .fallback (U 2) [U 1], r (L 0) [s (U 1)] ] = .error .fallbackLoop ∧
    compile id [ r (L 0) [s (L 1)], r (L 1) [s (L 1)], r (L 1) [s (U 1)] ] = .error .cannotReduce := by decide +kernel
end C21ex

/-- C21 is false: compressing the table of a grammar in which a token is its own fallback never ends. -/
theorem C21_false : ¬ C21_statement := by
  intro h
  exact (h id (fun _ => List.Perm.refl _) C21ex.self).2 (by decide +kernel)

/-- A second loop, in reading the declarations -/
theorem C21_false_decl : newFromDecls C21ex.again = .error .hang := by decide +kernel

/-- The walk of `C21_false` does not end after more steps either: it stays at the token. -/
theorem fallbackDiffers_forever {g : Grammar} {acts : List Action} {d : Detail} {s : SymbolId} (hf : (g.sym s).fallback = some s)
    (ha : ∀ a, acts.find? (fun a => a.la = s) = some a → d.cmpEq a.detail = true) (n : Nat) : g.fallbackDiffers acts d n s = .error .hang := by
  induction n with
  | zero => rfl
  | succ n ih =>
    unfold Grammar.fallbackDiffers
    rw [hf]
    simp only
    split
    · rename_i a hfa
      rw [if_pos (ha a hfa)]; exact ih
    · exact ih

/-- C21: in the first state of the witness the walk for `B` finds `B` again, with the same action. -/
theorem C21_false_forever : ∃ g sts acts, (∃ g0, newFromDecls C21ex.self = .ok g0 ∧ g0.automaton id = .ok (g, sts)) ∧
    g.findActions sts = .ok (acts, 0) ∧ ∃ a ∈ acts.getD 0 [], ∀ n, g.fallbackDiffers (acts.getD 0 []) a.detail n a.la = .error .hang := by
  have h : (match newFromDecls C21ex.self with
    | .ok g0 => match g0.automaton id with
      | .ok (g, sts) => match g.findActions sts with
        | .ok (acts, n) => n == 0 && (acts.getD 0 []).any (fun a => (g.sym a.la).fallback == some a.la &&
            ((acts.getD 0 []).find? (fun b => b.la = a.la)).all (fun b => a.detail.cmpEq b.detail))
        | .error _ => false
      | .error _ => false
    | .error _ => false) = true := by decide +kernel
  split at h
  · rename_i g0 h0
    split at h
    · rename_i g sts h1
      split at h
      · rename_i acts n h2
        rw [Bool.and_eq_true, beq_iff_eq] at h
        obtain ⟨rfl, h⟩ := h
        obtain ⟨a, ha, h⟩ := List.any_eq_true.1 h
        rw [Bool.and_eq_true, beq_iff_eq] at h
        refine ⟨g, sts, acts, ⟨g0, h0, h1⟩, h2, a, ha, fallbackDiffers_forever h.1 ?_⟩
        intro b hb
        have := h.2
        rw [hb] at this
        exact this
      · cases h
    · cases h
  · cases h

/-! ## C45 -/

/-- C45: the macro does not panic. -/
def C45_statement : Prop := ∀ ord, OrdOk ord → ∀ ds, written ds = true → compile ord ds ≠ .error .panic

/-- C45: if the macro panics, a token class is empty or begins with itself, or a token can be read as two
symbols in one state, which is a conflict.
Missing: that it never panics; that is false, see `C45_false`. -/
theorem C45_partial (ho : OrdOk ord) (hw : written ds = true) (h : compile ord ds = .error .panic) :
    badClass ds = true ∨ ∃ g0 g sts, newFromDecls ds = .ok g0 ∧ g0.automaton ord = .ok (g, sts) ∧ ∃ γ a, ReadTwice g γ a :=
  compile_panic ho hw h

/-- C45 for grammars without token classes and compounds: the macro does not panic. -/
theorem C45_plain (ho : OrdOk ord) (hf : classFree ds = true) : compile ord ds ≠ .error .panic := by
  have hf2 := hf
  unfold classFree at hf2
  rw [Bool.and_eq_true] at hf2
  intro h
  have hw : written ds = true := by
    unfold written
    refine List.all_eq_true.2 (fun u hu => List.all_eq_true.2 (fun e he => ?_))
    have := List.all_eq_true.1 (List.all_eq_true.1 hf2.2 u hu) e he
    split at this
    · rename_i tok ht; rw [ht]; rfl
    · cases this
  rcases compile_panic ho hw h with h1 | ⟨g0, g, sts, h0, h1, γ, a, h2⟩
  · unfold badClass at h1
    obtain ⟨d, hd, h1⟩ := List.any_eq_true.1 h1
    have := List.all_eq_true.1 hf2.1 d hd
    split at h1
    · cases this
    · cases h1
  · exact not_readTwice ho hf h0 h1 h2

namespace C45ex
open Tests (U L s r)

/-- `%token_class A; s ::= B;` -/
def empty : List Decl := [ .tokenClass (U 1) [], r (L 0) [s (U 2)] ]
/-- `%token_class A A B; s ::= A;` -/
def selfFirst : List Decl := [ .tokenClass (U 1) [U 1, U 2], r (L 0) [s (U 1)] ]
/-- `s ::= x; x ::= A x; x ::= A|B C;`: after `A` the token `A` leads back to the same state, or elsewhere as `A|B` -/
def twice : List Decl := [ r (L 0) [s (L 1)], r (L 1) [s (U 1), s (L 1)], r (L 1) [⟨[U 1, U 2], false, false⟩, s (U 3)] ]
/-- `%token_class N A B; s ::= x; x ::= N x; x ::= C|D x E; x ::= F;` -/
def good : List Decl :=
  [ .tokenClass (U 1) [U 2, U 3], r (L 0) [s (L 1)], r (L 1) [s (U 1), s (L 1)], r (L 1) [⟨[U 4, U 5], false, false⟩, s (L 1), s (U 6)], r (L 1) [s (U 7)] ]

-- the premisses of `C45_partial`, and both conclusions
example : written empty = true ∧ compile id empty = .error .panic ∧ badClass empty = true := by decide +kernel
example : written selfFirst = true ∧ compile id selfFirst = .error .panic ∧ badClass selfFirst = true := by decide +kernel
example : written twice = true ∧ compile id twice = .error .panic ∧ badClass twice = false := by decide +kernel
example : ∃ g0 g sts, newFromDecls twice = .ok g0 ∧ g0.automaton id = .ok (g, sts) ∧ ∃ γ a, ReadTwice g γ a :=
  (C45_partial (fun _ => List.Perm.refl _) (by decide) (by decide +kernel)).resolve_left (by decide)
-- classes that are neither empty nor circular are fine
example : written good = true ∧ badClass good = false ∧ Examples.compiles good = true := by decide +kernel
example : classFree C21ex.chain = true := by decide
end C45ex

/-- C45 is false, for each of the three reasons. -/
theorem C45_false : ¬ C45_statement := fun h => h id (fun _ => List.Perm.refl _) C45ex.empty (by decide) (by decide +kernel)

theorem C45_false_self : compile id C45ex.selfFirst = .error .panic := by decide +kernel

theorem C45_false_twice : compile id C45ex.twice = .error .panic := by decide +kernel

end Pomelo
