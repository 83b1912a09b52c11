import Verif.Props.Complete
import Verif.Props.Prefix
import Verif.Props.Safe
/-!
# Classes of classes

`resort_states` takes every action on a symbol whose index is not below that of `{default}` for the default action of the
state (mod.rs:1391-1397).  Token classes have such indices.  A shift of a class remains in the automaton if the class
is a member of another class, so then the state shifts *every* token that is not in its row.  The properties below fail for
this reason alone: the rows of the tables do not overlap, and there is no conflict nor precedence.
-/

namespace Pomelo

open Spec

namespace Nestex
open Tests (U L s r logSem)
open Examples

/-- `%token_class C1 A B; %token_class C0 C1 C; s ::= C0 D; s ::= C0 E;` (numbers: A 1, B 2, C 3, D 4, E 5) -/
def nest : List Decl :=
  [ .tokenClass (U 1) [U 2, U 3], .tokenClass (U 0) [U 1, U 4], r (L 0) [s (U 0), s (U 5)], r (L 0) [s (U 0), s (U 6)] ]

theorem nest_names : (tablesOf nest).tokenNames = [.dollar, .ident (U 2), .ident (U 3), .ident (U 4), .ident (U 5), .ident (U 6)] := by decide +kernel

theorem nest_taken {i j : Ident} (h : TakenFor nest i j) : j = i := by
  cases h with
  | self => rfl
  | fallback h => exact absurd h (by show none ≠ _; simp)
  | wildcard h => exact absurd h (by show none ≠ _; simp)

/-- What fits `C0` is a token that is a direct member of `C0`. -/
theorem nest_class {T : Tree Int} {ts es} (h : Spec.Fits nest (tablesOf nest).tokenNames (T :: ts) (s (U 0) :: es)) :
    ∃ k, T = .tok k ∧ ∃ i ∈ [U 1, U 4], (tablesOf nest).tokenNames[k.major]? = some (.ident i) := by
  generalize he : s (U 0) :: es = l at h
  cases h with
  | @tok k i j e ts es h1 h2 h3 h4 =>
    cases he
    refine ⟨_, rfl, j, ?_, by rw [h1, nest_taken h2]⟩
    have h3 := h3.2
    rw [if_pos (by decide)] at h3
    have hm : classMembers nest (U 0) = [U 1, U 4] := by decide
    rwa [hm] at h3
  | absent => cases he
  | present => cases he
  | @rule n u kids _ _ _ h1 h2 h3 =>
    exfalso
    have hl : u.lhs = L 0 := by
      have : ∀ u ∈ rulesOf nest, u.lhs = L 0 := by decide
      exact this u (List.mem_of_getElem? h1)
    rw [hl] at he
    simp [s, U, L] at he

/-- Every sentence begins with `C`, or with what would be named like the class `C1`. -/
theorem nest_first {T : Tree Int} (h : IsTree nest (tablesOf nest).tokenNames T) : ∃ k l, T.yield = k :: l ∧ k.major = 3 := by
  obtain ⟨i, hs, h⟩ := h
  have hi : i = L 0 := by cases hs; rfl
  subst hi
  generalize he : [(⟨[L 0], false, false⟩ : RhsElem)] = es at h
  generalize hT : [T] = Ts at h
  cases h with
  | nil => cases he
  | tok h1 h2 h3 h4 =>
    cases he
    exfalso
    have h3 := h3.2
    rw [if_neg (by decide)] at h3
    rw [nest_taken h2] at h3
    subst h3
    rw [nest_names] at h1
    have := List.mem_of_getElem? h1
    simp [U, L] at this
  | absent => cases he
  | present => cases he
  | @rule n u kids al ts es' h1 h2 h3 =>
    cases hT
    have key : ∃ l, u.rhs = s (U 0) :: l := by
      have : ∀ u ∈ rulesOf nest, u.rhs.head? = some (s (U 0)) := by decide
      have := this u (List.mem_of_getElem? h1)
      cases hu : u.rhs with
      | nil => rw [hu] at this; cases this
      | cons a l => rw [hu] at this; simp at this; exact ⟨l, by rw [this]⟩
    obtain ⟨l, hl⟩ := key
    rw [hl] at h2
    cases kids with
    | nil => cases h2
    | cons a kids =>
      obtain ⟨k, rfl, i, hi, hk⟩ := nest_class h2
      refine ⟨k, Tree.yields kids, by simp [Tree.yield, Tree.yields], ?_⟩
      rw [nest_names] at hk
      match hm : k.major, hk with
      | 0, hk => simp at hk
      | 1, hk => simp at hk; subst hk; revert hi; decide
      | 2, hk => simp at hk; subst hk; revert hi; decide
      | 3, _ => rfl
      | 4, hk => simp at hk; subst hk; revert hi; decide
      | 5, hk => simp at hk; subst hk; revert hi; decide
      | n + 6, hk => simp at hk

theorem nest_accepts : ∃ p, AcceptedRun (tablesOf nest) logSem [] (tk [4, 4]) p 0 ∧ p.extra = [] ∧ (∀ tok ex, Event.syntaxError tok ex ∉ p.trace) ∧
    runAll (tablesOf nest) logSem 1000 [] (tk [4, 4]) = some (.ok p 0) := C01ex.acceptedB_iff (by decide +kernel)

/-- `%token_class C1 A B; %token_class C0 C1 C; s ::= x D; x ::= E; x ::= E C0;` (numbers: A 1, B 2, C 3, D 4, E 5) -/
def nest2 : List Decl :=
  [ .tokenClass (U 1) [U 2, U 3], .tokenClass (U 0) [U 1, U 4], r (L 0) [s (L 1), s (U 5)], r (L 1) [s (U 6)], r (L 1) [s (U 6), s (U 0)] ]

/-- The tree of `E D` -/
def nestTree : Tree Int := .rule 0 [.rule 1 [.tok ⟨5, 0⟩], .tok ⟨4, 0⟩]

theorem nest2_names : (tablesOf nest2).tokenNames = [.dollar, .ident (U 2), .ident (U 3), .ident (U 4), .ident (U 5), .ident (U 6)] := by decide +kernel

theorem nestTree_ok : IsOwnTree nest2 (tablesOf nest2).tokenNames nestTree := by
  rw [nest2_names]
  exact ⟨L 0, by decide, .rule (u := ⟨L 0, [s (L 1), s (U 5)], none, none⟩) (by rfl)
    (.rule (u := ⟨L 1, [s (U 6)], none, none⟩) (by rfl) (.tok (i := U 6) (j := U 6) (by rfl) .self ⟨rfl, rfl⟩ .nil)
      (.tok (i := U 5) (j := U 5) (by rfl) .self ⟨rfl, rfl⟩ .nil)) .nil⟩

/-- The run ends with `Err` after a syntax error. -/
def runRefuses (t : Tables) (m : Sem Int (List Nat) Unit) (toks : List (Tok Int)) : Bool :=
  match runAll t m 1000 [] toks with
  | some (.err p _) => !noSyntaxError p.trace
  | _ => false

theorem runRefuses_iff {t : Tables} {m : Sem Int (List Nat) Unit} {T : Tree Int} (h : runRefuses t m T.yield = true) {ds : List Decl} :
    ¬ (AcceptsTree ds t m [] T ∨ FailsTree ds t m [] T ∨ OverflowsTree t m [] T) := by
  unfold runRefuses at h
  split at h
  · rename_i p0 e0 hw
    rintro (⟨v, p, f, _, h2, _⟩ | ⟨e, p, f, _, h2, h4⟩ | ⟨_, e, p, f, tok, log, h2, _, h4⟩)
    all_goals
      have h3 := runAll_mono h2 (Nat.le_max_left f 1000)
      rw [runAll_mono hw (Nat.le_max_right f 1000)] at h3
      cases h3
    · rw [onlyMoves_noSyntax h4] at h; cases h
    · rw [h4] at h; cases h
  · cases h

end Nestex

open Nestex Examples Tests in
/-- C01 fails with classes of classes even where no rows collide: `D D` is accepted, though every sentence begins with a
member of the class, which `D` is not. -/
theorem C01_nested : ∃ ds t p, compile id ds = .ok t ∧ apart id ds = true ∧ noAssoc ds = true ∧ AcceptedRun t logSem [] (tk [4, 4]) p 0 ∧
    (∀ tok ex, Event.syntaxError tok ex ∉ p.trace) ∧ ¬ ∃ T, IsTree ds t.tokenNames T ∧ T.yield = tk [4, 4] := by
  obtain ⟨p, h1, _, h2, _⟩ := nest_accepts
  refine ⟨nest, _, p, compiles_iff (by decide +kernel), by decide +kernel, by decide, h1, h2, ?_⟩
  rintro ⟨T, h4, h5⟩
  obtain ⟨k, l, h6, h7⟩ := nest_first h4
  rw [h6] at h5
  cases h5
  cases h7

open Nestex Examples Tests in
/-- C03 fails with classes of classes even where no rows collide and the root is fine: the sentence `E D` is refused. -/
theorem C03_nested : ∃ ds t, ∃ T : Tree Int, compile id ds = .ok t ∧ apart id ds = true ∧ rootOk ds = true ∧ noAssoc ds = true ∧ wildcardOf ds = none ∧
    IsOwnTree ds t.tokenNames T ∧ (∀ tok ∈ T.yield, tok.Valid t logSem) ∧
    ¬ (AcceptsTree ds t logSem [] T ∨ FailsTree ds t logSem [] T ∨ OverflowsTree t logSem [] T) :=
  ⟨nest2, _, nestTree, compiles_iff (by decide +kernel), by decide +kernel, by decide, by decide, by decide, nestTree_ok,
    fun tok ht => validB_iff (List.all_eq_true.1 (by decide +kernel : nestTree.yield.all (validB _ _) = true) tok ht),
    runRefuses_iff (by decide +kernel)⟩

open Nestex Examples Tests Safex in
/-- C07 fails with classes of classes even where the other conditions of `C07_partial` hold: after `E` the end of input is *shifted*, and the
parser panics. -/
theorem C07_nested : ∃ ds t p, compile id ds = .ok t ∧ apart id ds = true ∧ rootOk ds = true ∧ aliasOk ds = true ∧ noSelfFallback ds = true ∧
    OkReach t logSem p ∧ ¬ NoPanic t logSem p (· = .shiftEnd) := by
  obtain ⟨p, h1, h2⟩ := exists_ok (t := tablesOf nest2) (m := logSem) (x := []) (toks := tk [5]) (f := fun p => panicsEnd (tablesOf nest2) logSem .shiftEnd p) (by decide +kernel)
  exact ⟨nest2, _, p, compiles_iff (by decide +kernel), by decide +kernel, by decide, by decide, by decide, h1, panicsEnd_iff h2 rfl⟩

end Pomelo
