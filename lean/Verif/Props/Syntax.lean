import Verif.Proofs.Syntax
import Verif.Props.Causes
/-!
# C48: the text of the declarations is read as written

`Verif/Spec/Syntax.lean` says how declarations are written.
-/

namespace Pomelo

open Spec

variable {ord : List (SymbolId × SymbolId) → List (SymbolId × SymbolId)}

/-- C48: the tokens are read as the declarations `ds` exactly if they are a way to write `ds`; otherwise there is an error. -/
theorem C48_read (ts : List Lexeme) (ds : List Decl) : parseText ts = some ds ↔ Writes ds ts := parseText_iff ts ds

/-- C48: the syntax is not ambiguous. -/
theorem C48_unique {ts : List Lexeme} {ds ds' : List Decl} (h : Writes ds ts) (h' : Writes ds' ts) : ds = ds' := by
  have h := (C48_read ts ds).2 h
  rw [(C48_read ts ds').2 h'] at h
  exact (Option.some.inj h).symm

theorem semi_nil : Semi [] := .inl rfl

theorem says_exists (d : Decl) (h : ∀ l rhs c p, d = .rule l rhs c p → ∀ e ∈ rhs, e.toks ≠ []) : ∃ t, Says d t := by
  cases d with
  | module => exact ⟨_, .module (i := .error)⟩
  | «include» => exact ⟨_, .include (b := none) semi_nil⟩
  | syntaxError => exact ⟨_, .syntaxError (b := false) (n := 0) semi_nil⟩
  | parseFail => exact ⟨_, .parseFail (b := false) (n := 0) semi_nil⟩
  | stackOverflow => exact ⟨_, .stackOverflow (b := false) (n := 0) semi_nil⟩
  | type a i ty => cases a
                   · exact ⟨_, .type (n := 0)⟩
                   · exact ⟨_, .type (n := 1)⟩
  | assoc a ids => cases a
                   · exact ⟨_, .left⟩
                   · exact ⟨_, .right⟩
                   · exact ⟨_, .nonassoc⟩
  | defaultType t => exact ⟨_, .defaultType⟩
  | extraArgument t => exact ⟨_, .extraArgument⟩
  | error t => exact ⟨_, .error⟩
  | startSymbol i => exact ⟨_, .startSymbol⟩
  | fallback i ids => exact ⟨_, .fallback⟩
  | wildcard i => exact ⟨_, .wildcard⟩
  | tokenClass i ids => exact ⟨_, .tokenClass⟩
  | token it => exact ⟨_, .token⟩
  | extraToken t => exact ⟨_, .extraToken⟩
  | stackSize n ty => exact ⟨_, .stackSize⟩
  | parser it => exact ⟨_, .parser⟩
  | verbose => exact ⟨_, .verbose⟩
  | rule l rhs c p =>
    have := h l rhs c p rfl
    cases c with
    | none => exact ⟨_, .ruleSemi this⟩
    | some n => exact ⟨_, .ruleCode (b := false) this semi_nil⟩

/-- C48: every list of declarations whose elements name symbols can be written, and only those. -/
theorem C48_written (ds : List Decl) : (∃ ts, parseText ts = some ds) ↔ written ds = true := by
  constructor
  · rintro ⟨ts, h⟩
    exact writes_written ((C48_read ts ds).1 h)
  · intro h
    suffices ∃ ts, Writes ds ts by
      obtain ⟨ts, h⟩ := this
      exact ⟨ts, (C48_read ts ds).2 h⟩
    have h' : ∀ d ∈ ds, ∀ l rhs c p, d = .rule l rhs c p → ∀ e ∈ rhs, e.toks ≠ [] := by
      rintro d hd l rhs c p rfl e he ht
      unfold written at h
      have h1 := List.all_eq_true.1 h ⟨l, rhs, c, p⟩ (by unfold rulesOf; exact List.mem_filterMap.2 ⟨_, hd, rfl⟩)
      have h2 := List.all_eq_true.1 h1 e he
      rw [ht] at h2; cases h2
    clear h
    induction ds with
    | nil => exact ⟨[], .nil⟩
    | cons d ds ih =>
      obtain ⟨ts, h1⟩ := ih (fun d' hd' => h' d' (by simp [hd']))
      obtain ⟨t, h2⟩ := says_exists d (h' d (by simp))
      exact ⟨t ++ ts, .cons h2 h1⟩

/-- C48, C47: from the text to the error and its reason -/
theorem C48_cause (ho : OrdOk ord) {ts : List Lexeme} {e : GErr} (h : pomeloImpl ord ts = some (.error e)) :
    ∃ ds, Writes ds ts ∧ ((e = .fallbackType ∨ e = .compoundType → flat ds = true) → Cause ord ds e) := by
  unfold pomeloImpl at h
  rw [Option.map_eq_some_iff] at h
  obtain ⟨ds, h1, h2⟩ := h
  have hw := (C48_read ts ds).1 h1
  exact ⟨ds, hw, fun hf => C47_cause ho (writes_written hw) h2 hf⟩

/-! ## Texts -/

namespace Textex
open Tests (U L s r)

/-- `%type #[a] A T; %left B C; s ::= A|B?(x) c [B] { } d ::= ; %token enum T {}; %stack_size 5; e ::= f` -/
def text : List Lexeme :=
  [.percent, .typeKw, .attr, .ident (U 0), .ty (.named 1), .semi, .percent, .ident Kw.left.ident, .ident (U 1), .ident (U 2), .semi,
   .ident (L 20), .colons, .eq, .ident (U 0), .pipe, .ident (U 1), .question, .paren true, .ident (L 21), .bracket (some (U 1)), .brace false (some 7),
   .ident (L 22), .colons, .eq, .semi, .percent, .ident Kw.token.ident, .enumItem {}, .semi, .percent, .ident Kw.stackSize.ident, .int (some 5), .semi,
   .ident (L 23), .colons, .eq, .ident (L 24)]

def decls : List Decl :=
  [.type true (U 0) (some (.named 1)), .assoc .left [U 1, U 2], r (L 20) [⟨[U 0, U 1], true, true⟩, s (L 21)] (some 7) (some (U 1)), r (L 22) [],
   .token {}, .stackSize 5 none, r (L 23) [s (L 24)]]

theorem text_read : parseText text = some decls := by decide
example : Writes decls text := (C48_read _ _).1 text_read
example : written decls = true := (C48_written _).1 ⟨_, text_read⟩

/-- Keywords are identifiers elsewhere: `%start_symbol left; left ::= error;` -/
example : parseText [.percent, .ident Kw.startSymbol.ident, .ident Kw.left.ident, .semi, .ident Kw.left.ident, .colons, .eq, .ident .error, .semi] =
    some [.startSymbol (L 5), r (L 5) [s .error]] := by decide

/-- `a ::= B  c ::= D`: the end of the first rule is not found.  The comment in lib.rs:251 has the `;` as optional. -/
def unended : List Lexeme := [.ident (L 20), .colons, .eq, .ident (U 1), .ident (L 21), .colons, .eq, .ident (U 2)]
/-- With precedences in place of the `;` it is: `a ::= B [P]  c ::= D` -/
example : parseText [.ident (L 20), .colons, .eq, .ident (U 1), .bracket (some (U 3)), .ident (L 21), .colons, .eq, .ident (U 2)] =
    some [r (L 20) [s (U 1)] none (some (U 3)), r (L 21) [s (U 2)]] := by decide

/-- `number ::= Integer(A); { A }`, from the documentation of `%token_class` (src/lib.rs:735) -/
def documented : List Lexeme := [.ident (L 20), .colons, .eq, .ident (U 1), .paren true, .semi, .brace true (some 0)]

-- the premiss of `C48_cause`: `s ::= A; s ::= s B;`
example : pomeloImpl id [.ident (L 20), .colons, .eq, .ident (U 1), .semi, .ident (L 20), .colons, .eq, .ident (L 20), .ident (U 2), .semi] =
    some (.error .startOnRhs) := by decide +kernel

end Textex

/-- Rules as in the comment of lib.rs:251, one after the other: `id ::= rhs1 rhs2 ... [[precedence]] [ { code } ] [;]` -/
inductive Commented : List Decl → List Lexeme → Prop
  | nil : Commented [] []
  | cons {l rhs p c s ds ts} : (∀ e ∈ rhs, e.toks ≠ []) → Semi s → Commented ds ts →
      Commented (.rule l rhs c p :: ds) (ruleText l rhs ++ precText p ++ (match c with | some n => [.brace false (some n)] | none => []) ++ s ++ ts)

/-- C48: not everything that is written as in the comment is read. -/
theorem C48_comment : ∃ ds ts, Commented ds ts ∧ parseText ts = none := by
  refine ⟨[.rule (.lower 20) [⟨[.upper 1], false, false⟩] none none, .rule (.lower 21) [⟨[.upper 2], false, false⟩] none none], Textex.unended, ?_, by decide⟩
  have h2 : Commented [.rule (.lower 21) [⟨[.upper 2], false, false⟩] none none] _ :=
    .cons (l := .lower 21) (rhs := [⟨[.upper 2], false, false⟩]) (p := none) (c := none) (s := []) (by simp) semi_nil .nil
  exact .cons (l := .lower 20) (rhs := [⟨[.upper 1], false, false⟩]) (p := none) (c := none) (s := []) (by simp) semi_nil h2

/-- C48: the rules in the documentation of `%token_class` are not read. -/
theorem C48_documented : parseText Textex.documented = none := by decide

end Pomelo
