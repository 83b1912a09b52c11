import Verif.Tests
import Verif.Spec.Run
/-!
# Concrete runs used to show that the hypotheses of the theorems can be met

`Check` functions are evaluated by the kernel (`decide +kernel`).
-/

namespace Pomelo.Examples

open Pomelo.Tests (U L s r sem logSem strictSem error1 error2 optional)

/-- Tables of a list of declarations that is known to compile -/
def tablesOf (ds : List Decl) : Tables :=
  match compile id ds with
  | .ok t => t
  | .error _ => default

/-- The declarations compile -/
def compiles (ds : List Decl) : Bool :=
  match compile id ds with
  | .ok _ => true
  | .error _ => false

theorem compiles_iff {ds : List Decl} (h : compiles ds = true) : compile id ds = .ok (tablesOf ds) := by
  unfold compiles at h; unfold tablesOf
  cases hc : compile id ds with
  | ok t => rfl
  | error e => rw [hc] at h; cases h

/-- Grammar and states of a list of declarations, before conflicts are looked for -/
def autoOf (ds : List Decl) : Option (Grammar × List LState) :=
  match newFromDecls ds with
  | .ok g0 => match g0.automaton id with
    | .ok x => some x
    | .error _ => none
  | .error _ => none

theorem autoOf_iff {ds : List Decl} {x : Grammar × List LState} (h : autoOf ds = some x) :
    ∃ g0, newFromDecls ds = .ok g0 ∧ g0.automaton id = .ok x := by
  unfold autoOf at h
  split at h
  · rename_i g0 h0
    split at h
    · rename_i y hy
      cases h
      exact ⟨g0, h0, hy⟩
    · cases h
  · cases h

/-- The number of conflicts the macro counts, if it gets that far -/
def conflicts (ds : List Decl) : Option Nat :=
  (autoOf ds).bind (fun x => match x.1.findActions x.2 with
    | .ok (_, n) => some n
    | .error _ => none)

/-- Tokens without values -/
def tk (l : List Nat) : List (Tok Int) := l.map (fun n => ⟨n, 0⟩)

/-- Decidable version of `Tok.Valid` -/
def validB {X E : Type} (t : Tables) (m : Sem Int X E) (tok : Tok Int) : Bool :=
  decide (0 < tok.major) && decide (tok.major < t.numTerminals) &&
    (decide (t.tokenDt.getD tok.major 0 ≠ 0) || decide (tok.val = m.unit))

theorem validB_iff {X E : Type} {t : Tables} {m : Sem Int X E} {tok : Tok Int} (h : validB t m tok = true) :
    tok.Valid t m := by
  simp only [validB, Bool.and_eq_true, Bool.or_eq_true, decide_eq_true_eq] at h
  refine ⟨h.1.1, h.1.2, ?_⟩
  intro h0
  rcases h.2 with h2 | h2
  · exact absurd h0 h2
  · exact h2

/-- All tokens are valid and feeding them leaves a parser that satisfies `f`. -/
def reachB {X E : Type} (t : Tables) (m : Sem Int X E) (x : X) (toks : List (Tok Int))
    (f : Parser Int X → Bool) : Bool :=
  toks.all (validB t m) &&
    match feed t m 1000 (Parser.new m x) toks with
    | some (.ok p ()) => f p
    | some (.err p _) => f p
    | _ => false

theorem feed_reach {V X E : Type} {t : Tables} {m : Sem V X E} {fuel : Nat} :
    ∀ {toks : List (Tok V)} {p p' : Parser V X} {res : Res V X E Unit}, Reach t m p →
      (∀ tok ∈ toks, tok.Valid t m) → feed t m fuel p toks = some res → res.parser? = some p' →
      Reach t m p' := by
  intro toks
  induction toks with
  | nil => intro p p' res hp _ h h2; simp only [feed, Option.some.injEq] at h; subst h; cases h2; exact hp
  | cons tok toks ih =>
    intro p p' res hp hv h h2
    unfold feed at h
    cases hq : parse t m fuel p tok with
    | none => rw [hq] at h; cases h
    | some q =>
      rw [hq] at h
      cases q with
      | ok p1 u =>
        exact ih (Reach.parse hp (hv tok (by simp)) hq rfl) (fun a ha => hv a (by simp [ha])) h h2
      | err p1 e => cases h; exact Reach.parse hp (hv tok (by simp)) hq h2
      | panic w => cases h; cases h2

theorem exists_reach {X E : Type} {t : Tables} {m : Sem Int X E} {x : X} {toks : List (Tok Int)}
    {f : Parser Int X → Bool} (h : reachB t m x toks f = true) : ∃ p, Reach t m p ∧ f p = true := by
  unfold reachB at h
  rw [Bool.and_eq_true, List.all_eq_true] at h
  obtain ⟨hv, h⟩ := h
  cases hq : feed t m 1000 (Parser.new m x) toks with
  | none => rw [hq] at h; cases h
  | some q =>
    rw [hq] at h
    cases q with
    | ok p u => exact ⟨p, feed_reach (Reach.new x) (fun a ha => validB_iff (hv a ha)) hq rfl, h⟩
    | err p e => exact ⟨p, feed_reach (Reach.new x) (fun a ha => validB_iff (hv a ha)) hq rfl, h⟩
    | panic w => cases h

/-- Feeding the tokens and then one more: the last call satisfies `f`. -/
def callB {X E : Type} (t : Tables) (m : Sem Int X E) (x : X) (toks : List (Tok Int)) (tok : Tok Int)
    (f : Parser Int X → Res Int X E Unit → Bool) : Bool :=
  toks.all (validB t m) && validB t m tok &&
    match feed t m 1000 (Parser.new m x) toks with
    | some (.ok p ()) => match parse t m 1000 p tok with
      | some r => f p r
      | none => false
    | _ => false

theorem exists_call {X E : Type} {t : Tables} {m : Sem Int X E} {x : X} {toks : List (Tok Int)} {tok : Tok Int}
    {f : Parser Int X → Res Int X E Unit → Bool} (h : callB t m x toks tok f = true) :
    ∃ p r, Reach t m p ∧ tok.Valid t m ∧ parse t m 1000 p tok = some r ∧ f p r = true := by
  unfold callB at h
  rw [Bool.and_eq_true, Bool.and_eq_true, List.all_eq_true] at h
  obtain ⟨⟨hv, hv2⟩, h⟩ := h
  cases hq : feed t m 1000 (Parser.new m x) toks with
  | none => rw [hq] at h; cases h
  | some q =>
    rw [hq] at h
    cases q with
    | panic w => cases h
    | err p e => cases h
    | ok p u =>
      simp only at h
      cases hr : parse t m 1000 p tok with
      | none => rw [hr] at h; cases h
      | some r =>
        rw [hr] at h
        exact ⟨p, r, feed_reach (Reach.new x) (fun a ha => validB_iff (hv a ha)) hq rfl, validB_iff hv2, hr, h⟩

/-- Feeding the tokens and then ending the input: the last call satisfies `f`. -/
def endB {X E : Type} (t : Tables) (m : Sem Int X E) (x : X) (toks : List (Tok Int))
    (f : Parser Int X → Res Int X E Int → Bool) : Bool :=
  toks.all (validB t m) &&
    match feed t m 1000 (Parser.new m x) toks with
    | some (.ok p ()) => match endOfInput t m 1000 p with
      | some r => f p r
      | none => false
    | _ => false

theorem exists_end {X E : Type} {t : Tables} {m : Sem Int X E} {x : X} {toks : List (Tok Int)}
    {f : Parser Int X → Res Int X E Int → Bool} (h : endB t m x toks f = true) :
    ∃ p r, Reach t m p ∧ endOfInput t m 1000 p = some r ∧ f p r = true := by
  unfold endB at h
  rw [Bool.and_eq_true, List.all_eq_true] at h
  obtain ⟨hv, h⟩ := h
  cases hq : feed t m 1000 (Parser.new m x) toks with
  | none => rw [hq] at h; cases h
  | some q =>
    rw [hq] at h
    cases q with
    | panic w => cases h
    | err p e => cases h
    | ok p u =>
      simp only at h
      cases hr : endOfInput t m 1000 p with
      | none => rw [hr] at h; cases h
      | some r =>
        rw [hr] at h
        exact ⟨p, r, feed_reach (Reach.new x) (fun a ha => validB_iff (hv a ha)) hq rfl, hr, h⟩

/-- Kind of an event, for checks -/
def kind {V : Type} : Event V → Nat
  | .reduce _ _ => 0
  | .syntaxError _ _ => 1
  | .parseFail => 2
  | .stackOverflow _ => 3
  | .shift _ => 4
  | .discard _ => 5

/-- The parser is in the normal state and its next action on `la` is the error action. -/
def errorNext {V X : Type} (t : Tables) (p : Parser V X) (la : Nat) : Bool :=
  match p.status, p.stack with
  | .normal, top :: _ => match t.findShift top.state la with
    | .ok a => decide (a = t.nState + t.nRule)
    | .error _ => false
  | _, _ => false

theorem errorNext_iff {V X : Type} {t : Tables} {p : Parser V X} {la : Nat} (h : errorNext t p la = true) :
    p.status = .normal ∧ ∃ top rest, p.stack = top :: rest ∧ t.findShift top.state la = .ok (t.nState + t.nRule) := by
  unfold errorNext at h
  split at h
  · rename_i top rest h1 h2
    refine ⟨h1, top, rest, h2, ?_⟩
    cases hf : t.findShift top.state la with
    | error w => rw [hf] at h; cases h
    | ok a => rw [hf] at h; simp only [decide_eq_true_eq] at h; rw [h]
  · cases h

/-- `%stack_size 4; s ::= l; l ::= A l; l ::= A; l ::= B;` -/
def limited : List Decl :=
  [ .stackSize 4 none
  , r (L 0) [s (L 1)], r (L 1) [s (U 1), s (L 1)], r (L 1) [s (U 1)], r (L 1) [s (U 2)] ]

end Pomelo.Examples
