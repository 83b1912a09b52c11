import Verif.Props.Expected
import Verif.Props.Height
import Verif.Props.Nested
/-!
# C03 and C60 with a wildcard: where the hypotheses are met, and why they are needed
-/

namespace Pomelo

open Spec

variable {ord : List (SymbolId × SymbolId) → List (SymbolId × SymbolId)} {ds : List Decl} {t : Tables} {V X E : Type}

/-- The test of the second condition of `WildAlone` on the actions -/
def Spec.Run.wildB (R : Run ord ds) : Bool :=
  match R.g.wildcard with
  | none => true
  | some w => (List.range R.sts.length).all fun q => (actionsFor (R.actionsOf q) w).all fun
    | .reduce r => (R.actionsOf q).all fun a => match a.detail with
      | .reduce r' => r == r'
      | _ => true
    | _ => true

/-- The test of the first condition -/
def Spec.Run.wildFb (R : Run ord ds) : Bool := R.g.wildcard.all fun w => (R.g.sym w).fallback.isNone

theorem Made.lives_reduce {R : Run ord ds} {hc : compile ord ds = .ok t} {dflt : SymbolId} (m : Made (R.cspec hc) dflt) (hs : R.g.Settled R.sts) {q : StateId} {a : SymbolId} {r : RuleId}
    (h : R.g.CanReduce R.sts q a r) : lives (onSym a (R.actionsOf q)) = [.reduce r] := by
  have hkk : (R.g.sym a).kind ≠ .nonTerminal := by rw [h.2.1]; simp
  have hq := (canReduce_rule m.inv m.auto h).2.1
  obtain ⟨sh, rd, h1, h2, hout⟩ := m.outcome hq hkk
  have hrm := (h2 r).2 h
  have hout : R.g.Outcome a sh rd (lives (onSym a (R.actionsOf q))) := hout
  generalize lives (onSym a (R.actionsOf q)) = L at hout
  cases hout with
  | nothing _ e => rw [e] at hrm; cases hrm
  | @shift k e e2 => exact absurd h (hs.sr ((h1 k).1 (e ▸ List.mem_singleton_self _)))
  | reduce e => rw [hs.rr ((h2 _).1 e) h]
  | @error k _ c e => exact absurd h (hs.sr ((h1 k).1 (e ▸ List.mem_singleton_self _)))

theorem Spec.Run.wildB_iff (ho : OrdOk ord) (hc : compile ord ds = .ok t) (hf : flat ds = true) (R : Run ord ds) (hn : NoClash R.g) (h : R.wildB = true) {w : SymbolId}
    {γ : List SymbolId} {a : SymbolId} {r r' : RuleId} (hw : R.g.wildcard = some w) (h1 : ReducesOn R.g γ w r) (h2 : ReducesOn R.g γ a r') : r = r' := by
  obtain ⟨dflt, m⟩ := (R.cspec hc).made ho hf
  have hs : R.g.Settled R.sts := NoClash.settled m.inv m.auto m.aspec hn
  unfold Run.wildB at h
  rw [hw] at h
  simp only [List.all_eq_true, List.mem_range] at h
  obtain ⟨q, hp⟩ : ∃ q, R.g.Path R.sts γ q := by
    obtain ⟨_, _, γ', h3, h4⟩ := h1
    exact viable_path m.inv m.auto ((h3 _).2 h4.viable)
  have hr1 : R.g.CanReduce R.sts q w r := (reducesOn_iff m.inv m.auto hp).1 h1
  have hr2 : R.g.CanReduce R.sts q a r' := (reducesOn_iff m.inv m.auto hp).1 h2
  have hq := (canReduce_rule m.inv m.auto hr1).2.1
  have m1 : Detail.reduce r ∈ actionsFor (R.actionsOf q) w := by rw [actionsFor_eq, m.lives_reduce hs hr1]; exact List.mem_singleton_self _
  have m2 : (⟨a, .reduce r'⟩ : Action) ∈ R.actionsOf q := mem_of_lives (by rw [m.lives_reduce hs hr2]; exact List.mem_singleton_self _)
  have := h q hq _ m1
  simp only [List.all_eq_true] at this
  simpa using this _ m2

theorem Spec.Run.wildFb_iff (R : Run ord ds) (h : R.wildFb = true) {w : SymbolId} (hw : R.g.wildcard = some w) : (R.g.sym w).fallback = none := by
  unfold Run.wildFb at h
  rw [hw] at h
  simpa using h

/-! ## Why the hypotheses are needed -/

namespace Wildx
open Tests (U L s r logSem)
open Examples

theorem taken_names : (tablesOf C24ex.taken).tokenNames = [.dollar, .ident (U 1), .ident (U 0), .ident (U 5)] := by decide +kernel

/-- The tree of `X T` -/
def takenTree : Tree Int := .rule 0 [.rule 2 [.tok ⟨3, 0⟩], .tok ⟨1, 0⟩]

theorem takenTree_ok : IsOwnTree C24ex.taken (tablesOf C24ex.taken).tokenNames takenTree := by
  rw [taken_names]
  exact ⟨L 0, by decide, .rule (u := ⟨L 0, [s (L 1), s (U 1)], none, none⟩) (by rfl)
    (.rule (u := ⟨L 1, [s (U 5)], none, none⟩) (by rfl) (.tok (i := U 5) (j := U 5) (by rfl) .self ⟨rfl, rfl⟩ .nil)
      (.tok (i := U 1) (j := U 1) (by rfl) .self ⟨rfl, rfl⟩ .nil)) .nil⟩

/-- `%wildcard W; %fallback F W; s ::= b A; s ::= X W B; s ::= X F; b ::= X;` (numbers: W 1, F 2, A 3, X 4, B 5): after `X` the wildcard is
shifted, and `b ::= X` is the default nevertheless, because `W` falls back -/
def falls : List Decl :=
  [ .wildcard (U 9), .fallback (U 8) [U 9], r (L 0) [s (L 1), s (U 1)], r (L 0) [s (U 2), s (U 9), s (U 3)], r (L 0) [s (U 2), s (U 8)], r (L 1) [s (U 2)] ]

theorem falls_names : (tablesOf falls).tokenNames = [.dollar, .ident (U 9), .ident (U 8), .ident (U 1), .ident (U 2), .ident (U 3)] := by decide +kernel

/-- The tree of `X A` -/
def fallsTree : Tree Int := .rule 0 [.rule 3 [.tok ⟨4, 0⟩], .tok ⟨3, 0⟩]

theorem fallsTree_ok : IsOwnTree falls (tablesOf falls).tokenNames fallsTree := by
  rw [falls_names]
  exact ⟨L 0, by decide, .rule (u := ⟨L 0, [s (L 1), s (U 1)], none, none⟩) (by rfl)
    (.rule (u := ⟨L 1, [s (U 2)], none, none⟩) (by rfl) (.tok (i := U 2) (j := U 2) (by rfl) .self ⟨rfl, rfl⟩ .nil)
      (.tok (i := U 1) (j := U 1) (by rfl) .self ⟨rfl, rfl⟩ .nil)) .nil⟩

/-- `%default_type T; %wildcard W; %token_class K W; s ::= K(x) { };`: the class has the default type, the wildcard has no type -/
def typed : List Decl := [ .wildcard (U 9), .defaultType (.named 1), .tokenClass (U 5) [U 9], r (L 0) [s (U 5) true] (some 0) ]

theorem typed_names : (tablesOf typed).tokenNames = [.dollar, .ident (U 9)] := by decide +kernel

def typedTree : Tree Int := .rule 0 [.tok ⟨1, 0⟩]

theorem typedTree_ok : IsOwnTree typed (tablesOf typed).tokenNames typedTree := by
  rw [typed_names]
  exact ⟨L 0, by decide, .rule (u := ⟨L 0, [s (U 5) true], some 0, none⟩) (by rfl)
    (.tok (i := U 9) (j := U 9) (by rfl) .self ⟨rfl, by decide⟩ .nil) .nil⟩

/-- `%wildcard Any; %type X i; %type s i; %type l i; %type i i; s ::= l; l ::= { 0 }; l ::= l(a) i(b) { 1 }; i ::= X; i ::= LP Any RP { 2 };
i ::= Any { 3 }` (numbers: Any 1, X 2, LP 3, RP 4): rules are reduced on the wildcard, and it is shifted -/
def skip : List Decl :=
  [ .wildcard (U 9), .type false (U 1) (some (.named 0)), .type false (L 0) (some (.named 0)), .type false (L 1) (some (.named 0)), .type false (L 2) (some (.named 0))
  , r (L 0) [s (L 1)], r (L 1) [] (some 0), r (L 1) [s (L 1) true, s (L 2) true] (some 1), r (L 2) [s (U 1)], r (L 2) [s (U 2), s (U 9), s (U 3)] (some 2)
  , r (L 2) [s (U 9)] (some 3) ]

theorem skip_names : (tablesOf skip).tokenNames = [.dollar, .ident (U 9), .ident (U 1), .ident (U 2), .ident (U 3)] := by decide +kernel

/-- The tree of `X(5) LP Any RP Any` -/
def skipTree : Tree Int := .rule 0 [.rule 2 [.rule 2 [.rule 2 [.rule 1 [], .rule 3 [.tok ⟨2, 5⟩]], .rule 4 [.tok ⟨3, 0⟩, .tok ⟨1, 0⟩, .tok ⟨4, 0⟩]], .rule 5 [.tok ⟨1, 0⟩]]]

theorem skipTree_ok : IsOwnTree skip (tablesOf skip).tokenNames skipTree := by
  rw [skip_names]
  exact ⟨L 0, by decide, .rule (u := ⟨L 0, [s (L 1)], none, none⟩) (by rfl)
    (.rule (u := ⟨L 1, [s (L 1) true, s (L 2) true], some 1, none⟩) (by rfl)
      (.rule (u := ⟨L 1, [s (L 1) true, s (L 2) true], some 1, none⟩) (by rfl)
        (.rule (u := ⟨L 1, [s (L 1) true, s (L 2) true], some 1, none⟩) (by rfl)
          (.rule (u := ⟨L 1, [], some 0, none⟩) (by rfl) .nil
            (.rule (u := ⟨L 2, [s (U 1)], none, none⟩) (by rfl) (.tok (i := U 1) (j := U 1) (by rfl) .self ⟨rfl, rfl⟩ .nil) .nil))
          (.rule (u := ⟨L 2, [s (U 2), s (U 9), s (U 3)], some 2, none⟩) (by rfl)
            (.tok (i := U 2) (j := U 2) (by rfl) .self ⟨rfl, rfl⟩ (.tok (i := U 9) (j := U 9) (by rfl) .self ⟨rfl, rfl⟩
              (.tok (i := U 3) (j := U 3) (by rfl) .self ⟨rfl, rfl⟩ .nil))) .nil))
        (.rule (u := ⟨L 2, [s (U 9)], some 3, none⟩) (by rfl) (.tok (i := U 9) (j := U 9) (by rfl) .self ⟨rfl, rfl⟩ .nil) .nil)) .nil) .nil⟩

theorem skip_alone : ∀ R : Run id skip, WildAlone R.g :=
  run_of_test (f := fun R => R.wildB && R.wildFb) (by decide +kernel) (by
    intro R h
    rw [Bool.and_eq_true] at h
    exact ⟨fun hw => R.wildFb_iff h.2 hw, fun hw h1 h2 => R.wildB_iff OrdOk.id (compiles_iff (by decide +kernel)) (by decide) (noClash_of_noAssoc OrdOk.id R (by decide)) h.1 hw h1 h2⟩)

theorem skip_valid : ∀ tok ∈ skipTree.yield, tok.Valid (tablesOf skip) logSem :=
  fun tok ht => validB_iff (List.all_eq_true.1 (by decide +kernel : skipTree.yield.all (validB _ _) = true) tok ht)

end Wildx

/-- C03 with a wildcard, for the grammars that meet the condition `P` -/
def C03_wildcard_statement (P : List Decl → Grammar → Prop) : Prop :=
  ∀ ds t, ∀ R : Run id ds, ∀ T : Tree Int, compile id ds = .ok t → flat ds = true → apart id ds = true → rootOk ds = true → noAssoc ds = true → P ds R.g →
    IsOwnTree ds t.tokenNames T → (∀ tok ∈ T.yield, tok.Valid t Tests.logSem) →
    AcceptsTree ds t Tests.logSem [] T ∨ FailsTree ds t Tests.logSem [] T ∨ OverflowsTree t Tests.logSem [] T

/-- The two conditions of `WildAlone` and `wildUnbound` suffice. -/
theorem C03_wildcard_enough : C03_wildcard_statement (fun ds g => WildAlone g ∧ wildUnbound ds = true) :=
  fun _ _ R _ hc hf hA hr hn hP h hv => C03_wildcard_partial OrdOk.id hc hf hA hr R (noClash_of_noAssoc OrdOk.id R hn) hP.1 hP.2 _ _ h hv

open Wildx Examples Tests Nestex in
/-- Without the second condition of `WildAlone` C03 fails with a wildcard, even where no rows collide and nothing is ambiguous: the sentence `X T` of
`s ::= a T; s ::= b Any Any; a ::= X; b ::= X; %wildcard Any;` is refused, because after `X` the parser reduces as for the wildcard. -/
theorem C03_wildcard_false : ¬ C03_wildcard_statement (fun ds g => (∀ w, g.wildcard = some w → (g.sym w).fallback = none) ∧ wildUnbound ds = true) := by
  intro h
  obtain ⟨R⟩ := run_exists (compiles_iff (by decide +kernel) : compile id C24ex.taken = .ok (tablesOf C24ex.taken))
  exact runRefuses_iff (by decide +kernel) (h C24ex.taken _ R takenTree (compiles_iff (by decide +kernel)) (by decide) (by decide +kernel) (by decide) (by decide)
    ⟨run_of_test (P := fun R => ∀ w, R.g.wildcard = some w → (R.g.sym w).fallback = none) (f := (·.wildFb)) (by decide +kernel) (fun R h w hw => R.wildFb_iff h hw) R, by decide⟩ takenTree_ok
    (fun tok ht => validB_iff (List.all_eq_true.1 (by decide +kernel : takenTree.yield.all (validB _ _) = true) tok ht)))

open Wildx Examples Tests Nestex in
/-- Nor is the first condition superfluous: if the wildcard has a fallback, its shift does not count when the default is chosen, and the sentence
`X A` of `Wildx.falls` is refused, because after `X` the token `A` is shifted as the wildcard. -/
theorem C03_wildcard_fallback : ¬ C03_wildcard_statement (fun ds g =>
    (∀ w γ a r r', g.wildcard = some w → ReducesOn g γ w r → ReducesOn g γ a r' → r = r') ∧ wildUnbound ds = true) := by
  intro h
  obtain ⟨R⟩ := run_exists (compiles_iff (by decide +kernel) : compile id falls = .ok (tablesOf falls))
  have hc : compile id falls = .ok (tablesOf falls) := compiles_iff (by decide +kernel)
  exact runRefuses_iff (by decide +kernel) (h falls _ R fallsTree hc (by decide) (by decide +kernel) (by decide) (by decide)
    ⟨fun _ _ _ _ _ hw h1 h2 => R.wildB_iff OrdOk.id hc (by decide) (noClash_of_noAssoc OrdOk.id R (by decide))
      (run_of_test (P := fun R => R.wildB = true) (f := (·.wildB)) (by decide +kernel) (fun _ h => h) R) hw h1 h2, by decide⟩ fallsTree_ok
    (fun tok ht => validB_iff (List.all_eq_true.1 (by decide +kernel : fallsTree.yield.all (validB _ _) = true) tok ht)))

open Wildx Examples Tests Complex in
/-- Nor is `wildUnbound`: with a default type the wildcard is the one token that has no type, and as the first member of a class it does not
match the pattern of the class. -/
theorem C03_wildcard_typed : ¬ C03_wildcard_statement (fun _ g => WildAlone g) := by
  intro h
  have hc : compile id typed = .ok (tablesOf typed) := compiles_iff (by decide +kernel)
  obtain ⟨R⟩ := run_exists hc
  exact runPanics_iff (by decide +kernel) (h typed _ R typedTree hc (by decide) (by decide +kernel) (by decide) (by decide)
    (run_of_test (P := fun R => WildAlone R.g) (f := fun R => R.wildB && R.wildFb) (by decide +kernel) (by
      intro R h
      rw [Bool.and_eq_true] at h
      exact ⟨fun hw => R.wildFb_iff h.2 hw, fun hw h1 h2 => R.wildB_iff OrdOk.id hc (by decide) (noClash_of_noAssoc OrdOk.id R (by decide)) h.1 hw h1 h2⟩) R) typedTree_ok
    (fun tok ht => validB_iff (List.all_eq_true.1 (by decide +kernel : typedTree.yield.all (validB _ _) = true) tok ht)))

namespace Wildx
open Tests (U L s r logSem)
open Examples

-- all hypotheses of `C03_wildcard_partial` and `C60_wildcard_partial` are met; the wildcard is reduced in some states and shifted in others
example : AcceptsTree skip (tablesOf skip) logSem [] skipTree := by
  have hc : compile id skip = .ok (tablesOf skip) := compiles_iff (by decide +kernel)
  obtain ⟨R⟩ := run_exists hc
  exact (C60_wildcard_partial OrdOk.id hc (by decide) (by decide +kernel) (by decide) R (noClash_of_noAssoc OrdOk.id R (by decide)) (skip_alone R) (by decide) logSem []
    skipTree_ok skip_valid).1.2 ⟨by decide, _, _, rfl⟩
example : (runOf skip).all (fun R => R.g.wildcard.any fun w =>
    (List.range R.sts.length).any (fun q => (actionsFor (R.actionsOf q) w).any fun | .reduce _ => true | _ => false) &&
    (List.range R.sts.length).any (fun q => (actionsFor (R.actionsOf q) w).any fun | .shift _ => true | _ => false)) = true := by decide +kernel

open Expect in
-- those of `C50_complete_first_partial`: after `X LP Any`, `X` is refused at once; listed is `RP`
example : 4 ∈ [4] := by
  obtain ⟨h1, h2, p, h3, h4, r, p', h5, h6, l, tok, evs, h7, h8⟩ := reportB_iff (t := tablesOf skip) (m := logSem) (x := []) (toks := [⟨2, 5⟩, ⟨3, 0⟩, ⟨1, 0⟩]) (k := ⟨2, 0⟩) (n := 0) (ex := [4]) (by decide +kernel)
  obtain rfl := List.length_eq_zero_iff.1 h8
  have hc : compile id skip = .ok (tablesOf skip) := compiles_iff (by decide +kernel)
  obtain ⟨R⟩ := run_exists hc
  exact C50_complete_first_partial OrdOk.id hc (by decide) (by decide +kernel) (by decide +kernel) R (noClash_of_noAssoc OrdOk.id R (by decide)) (skip_alone R) (by decide) logSem (c := ⟨4, 0⟩)
    skipTree_ok (rest := [⟨1, 0⟩]) rfl skip_valid h3 h5 h6 h7

end Wildx

end Pomelo
