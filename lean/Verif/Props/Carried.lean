import Verif.Proofs.Carried
import Verif.Props.Parse
/-!
# C73: values do not steer the parser

The generated parser moves values about without looking at them.  If the code of the user does with the images of some values what other code does with the
values themselves, then parsing the images gives the image of all that parsing the values gives.  So which rules are reduced, what is shifted and discarded,
when `%syntax_error` is called and with which list of expected tokens, and how the parse ends depend on the kinds of tokens alone as long as no block fails.
-/

namespace Pomelo

open Spec

variable {t : Tables} {V V' X X' E E' : Type} {f : V → V'} {g : X → X'} {h : E → E'} {sem : Sem V X E} {sem' : Sem V' X' E'}

/-- C73, for all tables, all inputs and all code of the user, failing or not; also for runs that end in an error or a panic -/
theorem C73 (c : Carries f g h sem sem') (fuel : Nat) (x : X) (toks : List (Tok V)) :
    runAll t sem' fuel (g x) (toks.map (Tok.image f)) = (runAll t sem fuel x toks).map (Res.image f g h f) := carries_runAll c fuel x toks

/-- The same for one token given to a parser in any state, even one that no run reaches -/
theorem C73_parse (c : Carries f g h sem sem') (fuel : Nat) (p : Parser V X) (tok : Tok V) :
    parse t sem' fuel (p.image f g) (tok.image f) = (parse t sem fuel p tok).map (Res.image f g h id) := carries_parse c fuel p tok

/-- The same for `end_of_input` -/
theorem C73_end (c : Carries f g h sem sem') (fuel : Nat) (p : Parser V X) :
    endOfInput t sem' fuel (p.image f g) = (endOfInput t sem fuel p).map (Res.image f g h f) := carries_endOfInput c fuel p

/-! ## Only the kinds of tokens matter -/

/-- Code of the user that does nothing, with values that say nothing -/
def blank : Sem Unit Unit Unit := ⟨(), (), id, fun _ _ _ => (.ok (), ()), fun _ _ _ => (.ok (), ()), fun _ => ((), ()), fun _ _ => ((), ())⟩

theorem Spec.NeverFails.carries (n : NeverFails sem) : Carries (fun _ => ()) (fun _ => ()) (fun _ => ()) sem blank where
  unit := rfl
  none := rfl
  some _ := rfl
  user i args x := by
    obtain ⟨v, hv⟩ := n.user i args x
    rcases hs : sem.user i args x with ⟨_ | _, _⟩
    · rw [hs] at hv; cases hv
    · rfl
  syntaxError tok ex x := by
    obtain ⟨v, hv⟩ := n.syntaxError tok ex x
    rcases hs : sem.syntaxError tok ex x with ⟨_ | _, _⟩
    · rw [hs] at hv; cases hv
    · rfl
  parseFail _ := rfl
  stackOverflow _ _ := rfl

/-- What is left of a result without its values -/
abbrev Res.blank {α : Type} (r : Res V X E α) : Res Unit Unit Unit Unit := r.image (fun _ => ()) (fun _ => ()) (fun _ => ()) (fun _ => ())

/-- Two programs whose blocks do not fail, with values, extra arguments and errors of any types, go through the same states, shift, reduce and discard the
same, call `%syntax_error` at the same tokens with the same lists, and end in the same way, if their tokens are of the same kinds. -/
theorem C73_decides (n : NeverFails sem) (n' : NeverFails sem') {toks : List (Tok V)} {toks' : List (Tok V')} (hm : toks.map Tok.major = toks'.map Tok.major)
    (fuel : Nat) (x : X) (x' : X') : (runAll t sem fuel x toks).map Res.blank = (runAll t sem' fuel x' toks').map Res.blank := by
  have h1 := C73 (t := t) n.carries fuel x toks
  have h2 := C73 (t := t) n'.carries fuel x' toks'
  have hk : ∀ {W : Type} (l : List (Tok W)), l.map (Tok.image fun _ => ()) = (l.map Tok.major).map fun m => ⟨m, ()⟩ := by
    intro W l; rw [List.map_map]; rfl
  rw [hk] at h1 h2
  rw [hm] at h1
  exact h1.symm.trans h2

/-- The part of `C73_decides` that the caller sees: whether the input is accepted -/
theorem C73_accepts (n : NeverFails sem) (n' : NeverFails sem') {toks : List (Tok V)} {toks' : List (Tok V')} (hm : toks.map Tok.major = toks'.map Tok.major)
    (fuel : Nat) (x : X) (x' : X') : (∃ p v, runAll t sem fuel x toks = some (.ok p v)) ↔ ∃ p v, runAll t sem' fuel x' toks' = some (.ok p v) := by
  have hd := C73_decides (t := t) n n' hm fuel x x'
  constructor
  · rintro ⟨p, v, hr⟩
    rw [hr] at hd
    rcases hs : runAll t sem' fuel x' toks' with _ | (⟨q, w⟩ | ⟨q, w⟩ | w) <;> rw [hs] at hd <;> simp [Res.blank, Res.image] at hd ⊢
  · rintro ⟨p, v, hr⟩
    rw [hr] at hd
    rcases hs : runAll t sem fuel x toks with _ | (⟨q, w⟩ | ⟨q, w⟩ | w) <;> rw [hs] at hd <;> simp [Res.blank, Res.image] at hd ⊢

/-! ## Examples -/

namespace C73ex
open Tests (logSem error1)
open Examples C01ex

/-- Sums and differences of numbers counted in units of `1 / k` -/
def scaled (k : Int) : Sem Int (List Nat) Unit :=
  { unit := 0, none := 1000 * k, some := id
    user := fun n vs x => (.ok (match n, vs with | 0, [a, b] => a + b | 1, [a, b] => a - b | _, _ => -k), x ++ [n])
    syntaxError := fun _ _ x => (.error (), x), parseFail := fun x => ((), x), stackOverflow := fun _ x => ((), x) }

theorem scaled_carries (k : Int) : Carries (k * ·) id id (scaled 1) (scaled k) where
  unit := by simp [scaled]
  none := by simp [scaled]; omega
  some _ := rfl
  user n args x := by
    simp only [scaled, returned]
    rcases n with _ | _ | n <;> rcases args with _ | ⟨a, _ | ⟨b, _ | _⟩⟩ <;> simp [Int.mul_add, Int.mul_sub]
  syntaxError _ _ _ := rfl
  parseFail _ := rfl
  stackOverflow _ _ := rfl

/-- Three times every number gives three times the result, for every grammar and every input … -/
example (t : Tables) (fuel : Nat) (x : List Nat) (toks : List (Tok Int)) :
    runAll t (scaled 3) fuel x (toks.map (Tok.image (3 * ·))) = (runAll t (scaled 1) fuel x toks).map (Res.image (3 * ·) id id (3 * ·)) :=
  C73 (scaled_carries 3) fuel x toks
/-- … and here are the numbers: `5 - (7 + 1)` with an absent `Neg` of 1000. -/
example : (outcome (tablesOf sums) (scaled 1) input).map (·.2) = some 997 := by decide +kernel
example : (outcome (tablesOf sums) (scaled 3) (input.map (Tok.image (3 * ·)))).map (·.2) = some 2991 := by decide +kernel
/-- Without multiplying the tokens it is another number. -/
example : (outcome (tablesOf sums) (scaled 3) input).map (·.2) = some 2997 := by decide +kernel

theorem log_neverFails : NeverFails logSem := ⟨fun _ _ _ => ⟨0, rfl⟩, fun _ _ _ => ⟨0, rfl⟩⟩

/-- Values are texts, nothing is logged. -/
def texts : Sem String Unit Nat :=
  { unit := "", none := "none", some := id, user := fun _ vs x => (.ok (String.join vs), x), syntaxError := fun _ _ x => (.ok "error", x)
    parseFail := fun x => (1, x), stackOverflow := fun _ x => (2, x) }

theorem texts_neverFails : NeverFails texts := ⟨fun _ _ _ => ⟨_, rfl⟩, fun _ _ _ => ⟨_, rfl⟩⟩

/-- `tests/pass/error1.rs` with two errors in its input: texts or numbers, the same is shifted, reduced and discarded. -/
def wrong : List Nat := [2, 3, 4, 1, 3, 1, 2, 3, 4, 1, 2, 2, 2, 1]

example (fuel : Nat) : (runAll (tablesOf error1) logSem fuel [] (wrong.map (⟨·, 7⟩))).map Res.blank =
    (runAll (tablesOf error1) texts fuel () (wrong.map (⟨·, "x"⟩))).map Res.blank :=
  C73_decides log_neverFails texts_neverFails rfl fuel [] ()

/-- What they have in common is not empty: the input is accepted after two errors. -/
example : (outcome (tablesOf error1) logSem (wrong.map (⟨·, 7⟩))).map (fun x => (x.1.extra, (x.1.trace.filter fun | .discard _ => true | _ => false).length)) =
    some ([1, 99, 0, 1, 99, 0], 4) := by decide +kernel

end C73ex

open Tests Examples in
/-- Blocks that fail do steer the parser: with the same tables and the same tokens, one `%syntax_error` fails and the other does not. -/
theorem C73_failing : ∃ (ds : List Decl) (t : Tables) (sem sem' : Sem Int (List Nat) Unit) (toks : List (Tok Int)), compile id ds = .ok t ∧ NeverFails sem ∧
    (∀ n args x, ∃ v, (sem'.user n args x).1 = .ok v) ∧ ¬ ∀ fuel x, (runAll t sem fuel x toks).map Res.blank = (runAll t sem' fuel x toks).map Res.blank := by
  refine ⟨error1, tablesOf error1, logSem, strictSem, C73ex.wrong.map (⟨·, 7⟩), compiles_iff (by decide +kernel), C73ex.log_neverFails, fun _ _ _ => ⟨0, rfl⟩, fun h => ?_⟩
  have h1 := h 1000 []
  have h2 : (match (runAll (tablesOf error1) logSem 1000 [] (C73ex.wrong.map (⟨·, 7⟩))).map Res.blank with | some (.ok _ _) => true | _ => false) = true := by
    decide +kernel
  rw [h1] at h2
  revert h2
  decide +kernel

end Pomelo
