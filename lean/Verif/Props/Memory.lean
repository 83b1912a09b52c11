import Verif.Proofs.Memory
import Verif.Proofs.Count
import Verif.Examples
/-!
# C78: nothing but the fields of the parser is remembered

Two parsers with the same stack, the same count of errors, the same status and the same extra argument do the same from there on, however they got there.  The log of the
model is not read by anything.
-/

namespace Pomelo

open Spec

variable {t : Tables} {V X E : Type} {p q : Parser V X}

/-- C78: one call of `parse`, for any tables -/
theorem C78 (h : SameMemory p q) (sem : Sem V X E) (fuel : Nat) (tok : Tok V) : SameEnd p q (parse t sem fuel p tok) (parse t sem fuel q tok) := by
  obtain ⟨o, hp, hq, _⟩ := SameMemory.of_after h
  have h1 : parse t sem fuel p tok = (parse t sem fuel o tok).map (Res.after p.trace) := by
    conv => lhs; rw [hp]
    exact parseToken_after _ o fuel _ _
  have h2 : parse t sem fuel q tok = (parse t sem fuel o tok).map (Res.after q.trace) := by
    conv => lhs; rw [hq]
    exact parseToken_after _ o fuel _ _
  rw [h1, h2]
  exact sameEnd_after p q _

/-- The end of the input -/
theorem C78_end (h : SameMemory p q) (sem : Sem V X E) (fuel : Nat) : SameEnd p q (endOfInput t sem fuel p) (endOfInput t sem fuel q) := by
  obtain ⟨o, hp, hq, _⟩ := SameMemory.of_after h
  have h1 : endOfInput t sem fuel p = (endOfInput t sem fuel o).map (Res.after p.trace) := by
    conv => lhs; rw [hp]
    exact endOfInput_after _ o fuel
  have h2 : endOfInput t sem fuel q = (endOfInput t sem fuel o).map (Res.after q.trace) := by
    conv => lhs; rw [hq]
    exact endOfInput_after _ o fuel
  rw [h1, h2]
  exact sameEnd_after p q _

/-- Inputs that lead to the same memory can be continued alike. -/
theorem C78_continue {sem : Sem V X E} {fuel : Nat} {x y : X} {toks toks' : List (Tok V)} (hp : feed t sem fuel (Parser.new sem x) toks = some (.ok p ()))
    (hq : feed t sem fuel (Parser.new sem y) toks' = some (.ok q ())) (h : SameMemory p q) (rest : List (Tok V)) :
    SameEnd p q (runAll t sem fuel x (toks ++ rest)) (runAll t sem fuel y (toks' ++ rest)) := by
  obtain ⟨o, h1, h2, _⟩ := SameMemory.of_after h
  have e1 : runAll t sem fuel x (toks ++ rest) = (finish t sem fuel o rest).map (Res.after p.trace) := by
    rw [← finish_after, ← h1]
    unfold runAll finish
    rw [feed_then hp]
    cases feed t sem fuel p rest with
    | none => rfl
    | some r => cases r <;> rfl
  have e2 : runAll t sem fuel y (toks' ++ rest) = (finish t sem fuel o rest).map (Res.after q.trace) := by
    rw [← finish_after, ← h2]
    unfold runAll finish
    rw [feed_then hq]
    cases feed t sem fuel q rest with
    | none => rfl
    | some r => cases r <;> rfl
  rw [e1, e2]
  exact sameEnd_after p q _

/-- In a grammar with the error symbol not even the count of errors is remembered: parsers that differ only in the count do the same.  This is why nothing is muted there (C30). -/
theorem C78_error (he : t.errorSymbol ≠ 0) (h : p.forget = q.forget) (sem : Sem V X E) (fuel : Nat) (tok : Tok V) :
    (parse t sem fuel p tok).map Res.forget = (parse t sem fuel q tok).map Res.forget := parseToken_forget he fuel _ _ h

theorem C78_error_end (he : t.errorSymbol ≠ 0) (h : p.forget = q.forget) (sem : Sem V X E) (fuel : Nat) :
    (endOfInput t sem fuel p).map Res.forget = (endOfInput t sem fuel q).map Res.forget := endOfInput_forget he fuel h

/-! ## Examples -/

namespace C78ex
open Tests (U L s r)
open Examples

/-- `s ::= l { 0 }; l ::= l A { 1 }; l ::= A { 2 };` -/
def list : List Decl := [r (L 0) [s (L 1)] (some 0), r (L 1) [s (L 1), s (U 1)] (some 1), r (L 1) [s (U 1)] (some 2)]

def sem : Sem Unit Unit Unit := ⟨(), (), id, fun _ _ _ => (.ok (), ()), fun _ _ _ => (.ok (), ()), fun _ => ((), ()), fun _ _ => ((), ())⟩

/-- The parser after some elements -/
def at' (n : Nat) : Parser Unit Unit :=
  match feed (tablesOf list) sem 100 (Parser.new sem ()) (List.replicate n ⟨1, ()⟩) with
  | some (.ok p ()) => p
  | _ => Parser.new sem ()

def memory (p : Parser Unit Unit) : Nat × List (Nat × Nat × Nat) × Bool :=
  (p.errorCount, p.stack.map (fun e => (e.state, e.major, e.minor.tag)), match p.status with | .normal => true | _ => false)

theorem same_of {p q : Parser Unit Unit} (h : memory p = memory q) (hn : (memory p).2.2 = true) : SameMemory p q := by
  have hs : ∀ a : Parser Unit Unit, (memory a).2.2 = true → a.status = .normal := by
    intro a ha
    simp only [memory] at ha
    cases hst : a.status with
    | normal => rfl
    | _ => rw [hst] at ha; cases ha
  refine ⟨congrArg (·.1) h, ?_, rfl, (hs p hn).trans (hs q (h ▸ hn)).symm⟩
  have h2 : p.stack.map (fun e => (e.state, e.major, e.minor.tag)) = q.stack.map (fun e => (e.state, e.major, e.minor.tag)) := congrArg (·.2.1) h
  refine List.map_inj_right ?_ |>.1 h2
  rintro ⟨a, b, c, ⟨⟩⟩ ⟨a', b', c', ⟨⟩⟩ he
  simp only [Prod.mk.injEq] at he
  obtain ⟨rfl, rfl, rfl⟩ := he
  rfl

/-- After two elements and after five the parser is the same but for the log, … -/
theorem two_five : SameMemory (at' 2) (at' 5) := same_of (by decide +kernel) (by decide +kernel)
example : (at' 2).trace.length = 3 ∧ (at' 5).trace.length = 9 ∧ (at' 2).stack.length = 3 := by decide +kernel
/-- … so the next token and the end do the same, … -/
example (fuel : Nat) (tok : Tok Unit) : SameEnd (at' 2) (at' 5) (parse (tablesOf list) sem fuel (at' 2) tok) (parse (tablesOf list) sem fuel (at' 5) tok) :=
  C78 two_five sem fuel tok
example (fuel : Nat) : SameEnd (at' 2) (at' 5) (endOfInput (tablesOf list) sem fuel (at' 2)) (endOfInput (tablesOf list) sem fuel (at' 5)) := C78_end two_five sem fuel
/-- … which is not the case after one element. -/
example : ¬ SameMemory (at' 1) (at' 2) := fun h => absurd (congrArg List.length h.stack) (by decide +kernel)

theorem feeds {n : Nat} (h : (match feed (tablesOf list) sem 100 (Parser.new sem ()) (List.replicate n ⟨1, ()⟩) with | some (.ok _ ()) => true | _ => false) = true) :
    feed (tablesOf list) sem 100 (Parser.new sem ()) (List.replicate n ⟨1, ()⟩) = some (.ok (at' n) ()) := by
  unfold at'
  split at h
  · next p hp => rw [hp]
  · cases h

/-- Whatever follows -/
example (rest : List (Tok Unit)) : SameEnd (at' 2) (at' 5) (runAll (tablesOf list) sem 100 () (List.replicate 2 ⟨1, ()⟩ ++ rest))
    (runAll (tablesOf list) sem 100 () (List.replicate 5 ⟨1, ()⟩ ++ rest)) :=
  C78_continue (feeds (by decide +kernel)) (feeds (by decide +kernel)) two_five rest

/-- The grammar of tests/pass/error1.rs has the error symbol: with any count the next token does the same. -/
example (fuel c : Nat) (tok : Tok Unit) : (parse (tablesOf Tests.error1) sem fuel { Parser.new sem () with errorCount := c } tok).map Res.forget =
    (parse (tablesOf Tests.error1) sem fuel (Parser.new sem ()) tok).map Res.forget := C78_error (t := tablesOf Tests.error1) (p := { Parser.new sem () with errorCount := c }) (q := Parser.new sem ()) (by decide +kernel) rfl sem fuel tok
example (fuel c : Nat) : (endOfInput (tablesOf Tests.error1) sem fuel { Parser.new sem () with errorCount := c }).map Res.forget =
    (endOfInput (tablesOf Tests.error1) sem fuel (Parser.new sem ())).map Res.forget := C78_error_end (t := tablesOf Tests.error1) (p := { Parser.new sem () with errorCount := c }) (q := Parser.new sem ()) (by decide +kernel) rfl sem fuel

/-- How many events a token causes in a fresh parser with a count -/
def events (ds : List Decl) (c : Nat) (tok : Nat) : Option Nat :=
  match parse (tablesOf ds) sem 100 { Parser.new sem () with errorCount := c } ⟨tok, ()⟩ with
  | some (.ok p ()) => some p.trace.length
  | some (.err p _) => some p.trace.length
  | _ => none

/-- Without the error symbol (tests/pass/error2.rs) the count decides whether the wrong token is reported. -/
example : (tablesOf Tests.error2).errorSymbol = 0 ∧ events Tests.error2 0 3 = some 2 ∧ events Tests.error2 1 3 = some 1 := by decide +kernel

end C78ex

end Pomelo
