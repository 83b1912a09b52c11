import Verif.Proofs.Panics
import Verif.Proofs.Accepts
import Verif.Proofs.Variant
import Verif.Proofs.Fallback
import Verif.Props.Parse
import Verif.Props.Tables
import Verif.Spec.Calls
/-!
# C07, C08, C09, C35, C36, C42: what can go wrong at run time

`Verif/Spec/Calls.lean` has histories of calls, `Verif/Spec/Typing.lean` the types of symbols and the
conditions `aliasOk`, `rootOk` on declarations.
-/

namespace Pomelo

open Spec

variable {ord : List (SymbolId × SymbolId) → List (SymbolId × SymbolId)} {ds : List Decl} {t : Tables} {V X E : Type}

/-! ## C08 -/

/-- C08: before any call has returned `Err`, no call panics with "Cannot call parse after failure". -/
theorem C08_before (ho : OrdOk ord) (hc : compile ord ds = .ok t) {sem : Sem V X E} {p : Parser V X} (h : OkReach t sem p) :
    NoPanic t sem p (· = .afterFailure) := normal_parse (h.normal ho hc)

/-! ## C09 -/

/-- C09: no sequence of `parse` calls (successful or not) reaches the accepted state. -/
theorem C09_parse (ho : OrdOk ord) (hc : compile ord ds = .ok t) {sem : Sem V X E} {p : Parser V X} (h : Reach t sem p) (v : V) :
    p.status ≠ .accepted v := by
  obtain ⟨s⟩ := compile_cspec hc
  rcases s.reach_status ho sem h with h | h <;> rw [h] <;> simp

/-- C09: `end_of_input` of any parser whatever returns `Ok` only with the value of a rule of the start symbol that has just been
reduced (or with `()` if no type is recorded for the root). -/
theorem C09_end (ho : OrdOk ord) (hc : compile ord ds = .ok t) {sem : Sem V X E} {p p' : Parser V X} {fuel : Nat} {v : V}
    (h : endOfInput t sem fuel p = some (.ok p' v)) :
    p'.status = .accepted v ∧ ∃ w, RootReduced ds t sem p' w ∧ v = if t.rootDt.isSome then w else sem.unit := by
  obtain ⟨s⟩ := compile_cspec hc
  have key : ∀ {fuel : Nat} {p p' : Parser V X} {m : Minor V}, p.status = .normal → loop t sem 0 m fuel p = some (.ok p' ()) → ∀ v, p'.status = .accepted v →
      ∃ w, RootReduced ds t sem p' w ∧ v = if t.rootDt.isSome then w else sem.unit := by
    intro fuel
    induction fuel with
    | zero => intro p p' m _ h; cases h
    | succ fuel ih =>
      intro p p' m hp h v hv
      unfold loop at h
      rw [hp] at h
      simp only at h
      split at h
      · rename_i r hst
        exfalso
        cases h
        unfold step at hst
        split at hst
        · cases hst
        · split at hst
          · cases hst
          · split at hst
            · simp at hst
            · split at hst
              · split at hst
                · cases hst
                · cases hst
                · cases hst
              · split at hst
                · simp only [Step.done.injEq] at hst
                  rw [onError_status t sem hst, hp] at hv; cases hv
                · cases hst
      · rename_i p1 hst
        unfold step at hst
        split at hst
        · cases hst
        · split at hst
          · cases hst
          · split at hst
            · simp at hst
            · split at hst
              · split at hst
                · cases hst
                · cases hst
                · rename_i p2 hrd
                  cases hst
                  rcases s.reduce_accepts ho hp hrd with h1 | ⟨v1, w, h1, h2, h3⟩
                  · exact ih h1 h v hv
                  · cases fuel with
                    | zero => cases h
                    | succ fuel =>
                      unfold loop at h
                      rw [h1] at h
                      simp only [Option.some.injEq, Res.ok.injEq, and_true] at h
                      subst h
                      rw [h1] at hv
                      cases hv
                      exact ⟨w, h2, h3⟩
              · split at hst <;> cases hst
  unfold endOfInput at h
  obtain ⟨r, hpt, h⟩ := Option.map_eq_some_iff.1 h
  cases r with
  | panic w => cases h
  | err p e => cases h
  | ok p1 u =>
    simp only at h
    split at h
    · rename_i v' hst
      cases h
      refine ⟨hst, ?_⟩
      rcases parseToken_inv hpt with ⟨h1, _⟩ | ⟨hn, r', h1, h2⟩
      · cases h1
      · rcases h2 with ⟨_, _, _, h2⟩ | ⟨_, h2⟩
        · cases h2
        · subst h2; exact key hn h1 v hst
    · cases h

/-! ## C07, C35, C36 -/

/-- C07 as stated -/
def C07_statement : Prop :=
  ∀ (ord : List (SymbolId × SymbolId) → List (SymbolId × SymbolId)), OrdOk ord → ∀ (ds : List Decl) (t : Tables), compile ord ds = .ok t →
    ∀ (sem : Sem Int (List Nat) Unit) (p : Parser Int (List Nat)), OkReach t sem p → NoPanic t sem p (fun _ => True)

/-- C35 as stated -/
def C35_statement : Prop :=
  ∀ (ord : List (SymbolId × SymbolId) → List (SymbolId × SymbolId)), OrdOk ord → ∀ (ds : List Decl) (t : Tables), compile ord ds = .ok t →
    ∀ (sem : Sem Int (List Nat) Unit) (p : Parser Int (List Nat)), OkReach t sem p → NoPanic t sem p (· = .pattern)

/-- C36 as stated -/
def C36_statement : Prop :=
  ∀ (ord : List (SymbolId × SymbolId) → List (SymbolId × SymbolId)), OrdOk ord → ∀ (ds : List Decl) (t : Tables), compile ord ds = .ok t →
    ∀ (sem : Sem Int (List Nat) Unit) (p : Parser Int (List Nat)), OkReach t sem p → NoPanic t sem p (· = .rootType)

theorem OkReach.panics (ho : OrdOk ord) (hc : compile ord ds = .ok t) (hf : flat ds = true) (hA : apart ord ds = true) (hn : noSelfFallback ds = true)
    {sem : Sem V X E} {p : Parser V X} (h : OkReach t sem p) :
    NoPanic t sem p (fun w => ¬ ((w = .pattern ∧ aliasOk ds = false) ∨ (w = .rootType ∧ rootOk ds = false))) := by
  obtain ⟨s⟩ := compile_cspec hc
  obtain ⟨dflt, m⟩ := s.made ho hf
  obtain ⟨b⟩ := bridge ho s.decls s.auto
  have hfb := b.fbEnds m.inv hn
  have hs : Sound s p := by
    rcases m.reach_sound ho hA hfb sem h.reach with h1 | h1
    · exact h1
    · rw [h.normal ho hc] at h1; cases h1
  have hex : ∀ w, s.Excused w → (w = .pattern ∧ aliasOk ds = false) ∨ (w = .rootType ∧ rootOk ds = false) := by
    rintro w (⟨h1, h2⟩ | ⟨h1, h2⟩)
    · refine .inl ⟨h1, ?_⟩
      cases ha : aliasOk ds with
      | false => rfl
      | true => exact absurd (m.aliasTyped ho hf b ha) h2
    · refine .inr ⟨h1, ?_⟩
      cases ha : rootOk ds with
      | false => rfl
      | true => exact absurd (m.rootTyped ho b ha) h2
  refine ⟨fun tok fuel w hv hp hno => hno (hex w ?_), fun fuel w hp hno => hno (hex w ?_)⟩
  · exact (m.safe_parse ho hA hfb sem hs hv fuel).1 w hp
  · exact m.safe_end ho hA hfb sem hs fuel w hp

/-- C07: no call panics before one has failed.
Missing: declarations with a class inside a class (`flat`), with rows of the packed table that overlap
(`apart`), with a token that is its own fallback, with an alias at a place where a value of another type can
stand (`aliasOk`), or with an untyped start symbol and something of type `()` (`rootOk`). -/
theorem C07_partial (ho : OrdOk ord) (hc : compile ord ds = .ok t) (hf : flat ds = true) (hA : apart ord ds = true) (hn : noSelfFallback ds = true)
    (ha : aliasOk ds = true) (hr : rootOk ds = true) {sem : Sem V X E} {p : Parser V X} (h : OkReach t sem p) : NoPanic t sem p (fun _ => True) := by
  have h1 := h.panics ho hc hf hA hn
  rw [ha, hr] at h1
  have : ∀ w : Panic, ¬ ((w = .pattern ∧ true = false) ∨ (w = .rootType ∧ true = false)) := by intro w; simp
  exact ⟨fun tok fuel w hv hp _ => h1.1 tok fuel w hv hp (this w), fun fuel w hp _ => h1.2 fuel w hp (this w)⟩

/-- C35: the value of every aliased symbol has the variant that the rule expects.
Missing: as for C07 (`aliasOk` excludes in particular an alias on an untyped token that others fall back on). -/
theorem C35_partial (ho : OrdOk ord) (hc : compile ord ds = .ok t) (hf : flat ds = true) (hA : apart ord ds = true) (hn : noSelfFallback ds = true)
    (ha : aliasOk ds = true) {sem : Sem V X E} {p : Parser V X} (h : OkReach t sem p) : NoPanic t sem p (· = .pattern) := by
  have h1 := h.panics ho hc hf hA hn
  rw [ha] at h1
  have : ∀ w : Panic, w = .pattern → ¬ ((w = .pattern ∧ true = false) ∨ (w = .rootType ∧ rootOk ds = false)) := by rintro w rfl; simp
  exact ⟨fun tok fuel w hv hp e => h1.1 tok fuel w hv hp (this w e), fun fuel w hp e => h1.2 fuel w hp (this w e)⟩

/-- C36: accepting finds a value of the type of the root.
Missing: as for C07 (`rootOk` excludes an untyped start symbol when the type `()` is written somewhere). -/
theorem C36_partial (ho : OrdOk ord) (hc : compile ord ds = .ok t) (hf : flat ds = true) (hA : apart ord ds = true) (hn : noSelfFallback ds = true)
    (hr : rootOk ds = true) {sem : Sem V X E} {p : Parser V X} (h : OkReach t sem p) : NoPanic t sem p (· = .rootType) := by
  have h1 := h.panics ho hc hf hA hn
  rw [hr] at h1
  have : ∀ w : Panic, w = .rootType → ¬ ((w = .pattern ∧ aliasOk ds = false) ∨ (w = .rootType ∧ true = false)) := by rintro w rfl; simp
  exact ⟨fun tok fuel w hv hp e => h1.1 tok fuel w hv hp (this w e), fun fuel w hp e => h1.2 fuel w hp (this w e)⟩

/-! ## C42 -/

/-- C42 in full -/
def C42_statement : Prop :=
  ∀ (ord : List (SymbolId × SymbolId) → List (SymbolId × SymbolId)), OrdOk ord → ∀ (ds : List Decl) (t : Tables), compile ord ds = .ok t →
    ∀ T T' d d', Variant ds t T d → Variant ds t T' d' → (d = d' ↔ T = T')

/-- C42: two places use the same variant exactly if their types are the same.
Missing: classes of classes; there it is false, see `C42_false`. -/
theorem C42_partial (ho : OrdOk ord) (hc : compile ord ds = .ok t) (hf : flat ds = true) {T T' : Option Ty} {d d' : Nat} (h : Variant ds t T d)
    (h' : Variant ds t T' d') : d = d' ↔ T = T' := by
  obtain ⟨s⟩ := compile_cspec hc
  obtain ⟨h1, h2⟩ := s.variant ho hf h
  obtain ⟨h3, _⟩ := s.variant ho hf h'
  rw [h1, h3]
  exact tagOf_inj h2

/-- `%type C Int; %token_class A B; %token_class B C; s ::= A(x) { .. };` (A 1, B 2, C 3) -/
def nested : List Decl :=
  [ .type false (Tests.U 3) (some (.named 0)), .tokenClass (Tests.U 1) [Tests.U 2], .tokenClass (Tests.U 2) [Tests.U 3]
  , Tests.r (Tests.L 0) [Tests.s (Tests.U 1) true] (some 0) ]

/-- The type of `A` is taken from `B` before `B` has got it from `C` (mod.rs:2146-2157): the element expects a value without
data where `C` has an `Int`. -/
theorem C42_false : ¬ C42_statement := by
  intro h
  have h1 : Variant nested (Examples.tablesOf nested) (some (.named 0)) 1 := by
    have : Variant nested (Examples.tablesOf nested) (plainType nested (Tests.U 3)) ((Examples.tablesOf nested).tokenDt.getD 1 0) :=
      .token (k := 1) (by decide +kernel)
    have e1 : plainType nested (Tests.U 3) = some (.named 0) := by decide
    have e2 : (Examples.tablesOf nested).tokenDt.getD 1 0 = 1 := by decide +kernel
    rw [e1, e2] at this
    exact this
  have h2 : Variant nested (Examples.tablesOf nested) (some (.named 0)) 0 := by
    refine .elem (n := 0) (j := 0) (u := ⟨Tests.L 0, [Tests.s (Tests.U 1) true], some 0, none⟩) (e := Tests.s (Tests.U 1) true)
      (by decide +kernel) (by decide +kernel) (by decide +kernel) ?_
    have g1 : HasType nested (Tests.U 3) (some (.named 0)) := .plain (by decide)
    have g2 : HasType nested (Tests.U 2) (some (.named 0)) := .first (j := Tests.U 3) (by decide) (by decide) g1
    have g3 : HasType nested (Tests.U 1) (some (.named 0)) := .first (j := Tests.U 2) (by decide) (by decide) g2
    exact .one g3
  have := (h id OrdOk.id nested _ (Examples.compiles_iff (by decide +kernel)) _ _ _ _ h1 h2).2 rfl
  cases this

/-! ## Witnesses -/

namespace Safex
open Tests (U L s r logSem strictSem)
open Examples (compiles compiles_iff tablesOf tk validB validB_iff)

theorem feed_okReach {t : Tables} {m : Sem V X E} {fuel : Nat} : ∀ {toks : List (Tok V)} {p p' : Parser V X}, OkReach t m p →
    (∀ tok ∈ toks, tok.Valid t m) → feed t m fuel p toks = some (.ok p' ()) → OkReach t m p' := by
  intro toks
  induction toks with
  | nil => intro p p' hp _ h; cases h; exact hp
  | cons tok toks ih =>
    intro p p' hp hv h
    unfold feed at h
    cases hq : parse t m fuel p tok with
    | none => rw [hq] at h; cases h
    | some q =>
      rw [hq] at h
      cases q with
      | ok p1 u => exact ih (OkReach.parse hp (hv tok (by simp)) hq) (fun a ha => hv a (by simp [ha])) h
      | err p1 e => cases h
      | panic w => cases h

/-- The tokens can be fed to the parser, and the state that is reached satisfies `f`. -/
def okB (t : Tables) (m : Sem Int X E) (x : X) (toks : List (Tok Int)) (f : Parser Int X → Bool) : Bool :=
  toks.all (validB t m) &&
    match feed t m 1000 (Parser.new m x) toks with
    | some (.ok p ()) => f p
    | _ => false

theorem exists_ok {t : Tables} {m : Sem Int X E} {x : X} {toks : List (Tok Int)} {f : Parser Int X → Bool} (h : okB t m x toks f = true) :
    ∃ p, OkReach t m p ∧ f p = true := by
  unfold okB at h
  rw [Bool.and_eq_true, List.all_eq_true] at h
  obtain ⟨hv, h⟩ := h
  cases hq : feed t m 1000 (Parser.new m x) toks with
  | none => rw [hq] at h; cases h
  | some q =>
    rw [hq] at h
    cases q with
    | ok p u => exact ⟨p, feed_okReach (OkReach.new x) (fun a ha => validB_iff (hv a ha)) hq, h⟩
    | err p e => cases h
    | panic w => cases h

def panicsOn (t : Tables) (m : Sem Int X E) (tok : Tok Int) (w : Panic) (p : Parser Int X) : Bool :=
  validB t m tok && match parse t m 1000 p tok with
    | some (.panic w') => decide (w' = w)
    | _ => false

def panicsEnd (t : Tables) (m : Sem Int X E) (w : Panic) (p : Parser Int X) : Bool :=
  match endOfInput t m 1000 p with
    | some (.panic w') => decide (w' = w)
    | _ => false

theorem panicsOn_iff {t : Tables} {m : Sem Int X E} {tok : Tok Int} {w : Panic} {p : Parser Int X} (h : panicsOn t m tok w p = true)
    {W : Panic → Prop} (hw : W w) : ¬ NoPanic t m p W := by
  intro hn
  unfold panicsOn at h
  rw [Bool.and_eq_true] at h
  obtain ⟨hv, h⟩ := h
  split at h
  · rename_i w' hq
    rw [decide_eq_true_eq] at h
    subst h
    exact hn.1 tok 1000 w' (validB_iff hv) hq hw
  · cases h

theorem panicsEnd_iff {t : Tables} {m : Sem Int X E} {w : Panic} {p : Parser Int X} (h : panicsEnd t m w p = true)
    {W : Panic → Prop} (hw : W w) : ¬ NoPanic t m p W := by
  intro hn
  unfold panicsEnd at h
  split at h
  · rename_i w' hq
    rw [decide_eq_true_eq] at h
    subst h
    exact hn.2 1000 w' hq hw
  · cases h

/-- `%type B T; %fallback A B; %type s T; s ::= a C { } ; a ::= A(x) { };`: a `B` that is taken for an
`A` still carries its value, the rule expects none. -/
def untyped : List Decl := [.type false (U 2) (some (.named 1)), .fallback (U 1) [U 2], .type false (L 0) (some (.named 1)),
  r (L 0) [s (L 1), s (U 3)] (some 1), r (L 1) [s (U 1) true] (some 0)]

/-- `%wildcard W; %type C T; %token_class K W A; %type s T; s ::= a C { }; a ::= K(x) { };`: the same with
a class that contains the wildcard. -/
def class_ : List Decl := [.wildcard (U 9), .type false (U 3) (some (.named 1)), .tokenClass (U 5) [U 9, U 1], .type false (L 0) (some (.named 1)),
  r (L 0) [s (L 1), s (U 3)] (some 1), r (L 1) [s (U 5) true] (some 0)]

/-- `%type a (); s ::= a A; a ::= B { };`: the start symbol has no type but `()` is a type. -/
def unitRoot : List Decl := [.type false (L 1) (some .unit), r (L 0) [s (L 1), s (U 1)], r (L 1) [s (U 2)] (some 0)]

/-- `%type e T; %type N T; %left PLUS; s ::= e(x) { }; e ::= e(x) PLUS e(y) { }; e ::= N; e ::= LP e(x) RP { };
e ::= error(x) SEMI { }` with values, precedence, error recovery -/
def calc_ : List Decl := [.type false (L 1) (some (.named 1)), .type false (U 2) (some (.named 1)), .assoc .left [U 1],
  .type false .error (some (.named 1)), .type false (L 0) (some (.named 1)),
  r (L 0) [s (L 1) true] (some 0), r (L 1) [s (L 1) true, s (U 1), s (L 1) true] (some 1), r (L 1) [s (U 2)],
  r (L 1) [s (U 3), s (L 1) true, s (U 4)] (some 2), r (L 1) [s .error true, s (U 5)] (some 3)]

end Safex

open Safex in
/-- C07 fails: `s ::= a; a ::= A;` panics on the empty input. -/
theorem C07_false : ¬ C07_statement := by
  intro h
  exact panicsEnd_iff (X := List Nat) (w := .emptyStack) (by decide +kernel) trivial
    (h id OrdOk.id C12ex.tiny _ (Examples.compiles_iff (by decide +kernel)) Tests.strictSem _ (OkReach.new []))

open Safex in
/-- C35 fails for `untyped`, on the input `B C`. -/
theorem C35_false : ¬ C35_statement := by
  intro h
  obtain ⟨p, hp, hf⟩ := exists_ok (t := Examples.tablesOf untyped) (m := Tests.logSem) (x := []) (toks := Examples.tk [1])
    (f := panicsOn (Examples.tablesOf untyped) Tests.logSem ⟨3, 0⟩ .pattern) (by decide +kernel)
  exact panicsOn_iff hf (W := (· = .pattern)) rfl (h id OrdOk.id untyped _ (Examples.compiles_iff (by decide +kernel)) _ p hp)

open Safex in
/-- C35 also fails for `class_`, on the input `C C`; no fallback is involved. -/
theorem C35_false_class : ¬ C35_statement := by
  intro h
  obtain ⟨p, hp, hf⟩ := exists_ok (t := Examples.tablesOf class_) (m := Tests.logSem) (x := []) (toks := Examples.tk [2])
    (f := panicsOn (Examples.tablesOf class_) Tests.logSem ⟨2, 0⟩ .pattern) (by decide +kernel)
  exact panicsOn_iff hf (W := (· = .pattern)) rfl (h id OrdOk.id class_ _ (Examples.compiles_iff (by decide +kernel)) _ p hp)

open Safex in
/-- C36 fails for `unitRoot`, on the sentence `B A`. -/
theorem C36_false : ¬ C36_statement := by
  intro h
  obtain ⟨p, hp, hf⟩ := exists_ok (t := Examples.tablesOf unitRoot) (m := Tests.logSem) (x := []) (toks := Examples.tk [2, 1])
    (f := panicsEnd (Examples.tablesOf unitRoot) Tests.logSem .rootType) (by decide +kernel)
  exact panicsEnd_iff hf (W := (· = .rootType)) rfl (h id OrdOk.id unitRoot _ (Examples.compiles_iff (by decide +kernel)) _ p hp)

/-! ## The hypotheses can be met -/

namespace Safex
open Tests (U L s r logSem strictSem)
open Examples (compiles compiles_iff tablesOf tk)

/-- The conditions hold for a grammar with typed values, precedence and error recovery, ... -/
example : compile id calc_ = .ok (tablesOf calc_) ∧ flat calc_ = true ∧ apart id calc_ = true ∧ noSelfFallback calc_ = true ∧
    aliasOk calc_ = true ∧ rootOk calc_ = true := by decide +kernel

/-- ... which in particular never panics, ... -/
example {sem : Sem V X E} {p : Parser V X} (h : OkReach (tablesOf calc_) sem p) : NoPanic (tablesOf calc_) sem p (fun _ => True) :=
  C07_partial OrdOk.id (compiles_iff (by decide +kernel)) (by decide +kernel) (by decide +kernel) (by decide +kernel) (by decide +kernel) (by decide +kernel) h

/-- ... and there are long histories. -/
example : ∃ p, OkReach (tablesOf calc_) logSem p ∧ 3 < p.stack.length :=
  (exists_ok (toks := [⟨3, 0⟩, ⟨1, 7⟩, ⟨2, 0⟩, ⟨1, 8⟩]) (x := []) (f := fun p => decide (3 < p.stack.length)) (by decide +kernel)).imp
    fun _ h => ⟨h.1, of_decide_eq_true h.2⟩

/-- The hypothesis of `C09_end` holds for `N + N`. -/
example : ∃ p p' v, OkReach (tablesOf calc_) logSem p ∧ endOfInput (tablesOf calc_) logSem 1000 p = some (.ok p' v) := by
  obtain ⟨p, h1, h2⟩ := exists_ok (t := tablesOf calc_) (m := logSem) (x := []) (toks := [⟨1, 7⟩, ⟨2, 0⟩, ⟨1, 8⟩])
    (f := fun p => match endOfInput (tablesOf calc_) logSem 1000 p with | some (.ok _ _) => true | _ => false) (by decide +kernel)
  split at h2
  · rename_i p' v hq
    exact ⟨p, p', v, h1, hq⟩
  · cases h2

/-- The conditions that are violated are independent of the others. -/
example : (aliasOk untyped = false ∧ rootOk untyped = true ∧ apart id untyped = true ∧ flat untyped = true ∧ noSelfFallback untyped = true) ∧
    (aliasOk class_ = false ∧ rootOk class_ = true ∧ apart id class_ = true ∧ flat class_ = true ∧ noSelfFallback class_ = true) ∧
    (aliasOk unitRoot = true ∧ rootOk unitRoot = false ∧ apart id unitRoot = true ∧ flat unitRoot = true ∧ noSelfFallback unitRoot = true) := by
  decide +kernel

/-- `%extra_token` and `%type`: four different variants -/
def typed : List Decl := [.extraToken (.named 5), .type false (U 1) (some (.named 6)), .type false (L 0) (some (.named 6)),
  r (L 0) [s (U 1) true, s (U 2) true, s (L 1) true] (some 0), r (L 1) [] (some 1)]

example : Variant typed (tablesOf typed) (some (.pair (.named 5) (.named 6))) 1 ∧ Variant typed (tablesOf typed) (some (.named 5)) 2 ∧
    Variant typed (tablesOf typed) (some (.named 6)) 3 ∧ Variant typed (tablesOf typed) none 0 := by
  refine ⟨?_, ?_, ?_, ?_⟩
  · exact .token (k := 1) (i := U 1) (by decide +kernel)
  · exact .elem (n := 0) (j := 1) (u := ⟨L 0, [s (U 1) true, s (U 2) true, s (L 1) true], some 0, none⟩) (e := s (U 2) true) (by decide +kernel) (by decide +kernel) (by decide +kernel)
      (.one (.plain (by decide)))
  · exact .rule (n := 0) (u := ⟨L 0, [s (U 1) true, s (U 2) true, s (L 1) true], some 0, none⟩) (by decide +kernel)
  · exact .rule (n := 1) (u := ⟨L 1, [], some 1, none⟩) (by decide +kernel)

example : flat typed = true := by decide

/-- The wildcard has no variant of its own, whatever the default type: `%default_type T; %wildcard Any; s ::= A Any;` -/
def wild_ : List Decl := [.defaultType (.named 5), .wildcard (U 2), r (L 0) [s (U 1), s (U 2)] (some 0)]

example : Variant wild_ (tablesOf wild_) (some (.named 5)) 1 ∧ Variant wild_ (tablesOf wild_) none 0 ∧ flat wild_ = true := by
  refine ⟨?_, ?_, by decide⟩
  · exact Variant.token (ds := wild_) (t := tablesOf wild_) (k := 2) (i := U 1) (by decide +kernel)
  · exact Variant.token (ds := wild_) (t := tablesOf wild_) (k := 1) (i := U 2) (by decide +kernel)

end Safex

end Pomelo
