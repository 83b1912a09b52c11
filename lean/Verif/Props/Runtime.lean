import Verif.Proofs.RunCalls
import Verif.Examples
/-!
# Properties of the generated parser that hold for arbitrary tables

C10, C11 (stack limit), C29, C30, C31, C32, C33 (errors), C34 (extra argument), and the half of C08
that does not depend on the tables.  `t` is any set of tables, `sem` any user code.
-/

namespace Pomelo

variable {V X E : Type} {t : Tables} {sem : Sem V X E}

open Examples in
example : compile id Tests.error1 = .ok (tablesOf Tests.error1) := compiles_iff (by decide +kernel)

/-! ## C34 -/

/-- C34: a call changes the extra argument only by running user code, in the order of the log. -/
theorem C34_extra_parse {p p' : Parser V X} {tok : Tok V} {fuel : Nat} {r : Res V X E Unit}
    (h : parse t sem fuel p tok = some r) (hp' : r.parser? = some p') :
    ∃ evs, p'.trace = evs ++ p.trace ∧ p'.extra = replayAll t sem p.extra evs :=
  parseToken_logged h hp'

-- a call that changes the extra argument
open Examples in
example : ∃ p r, Reach (tablesOf Tests.error1) Tests.logSem p ∧ (⟨1, 0⟩ : Tok Int).Valid (tablesOf Tests.error1) Tests.logSem ∧
    parse (tablesOf Tests.error1) Tests.logSem 1000 p ⟨1, 0⟩ = some r ∧
    (r.parser?.map (·.extra) != some p.extra) = true :=
  exists_call (x := []) (toks := tk [2, 3, 4]) (tok := ⟨1, 0⟩) (by decide +kernel)

/-- C34 for `end_of_input`. -/
theorem C34_extra_end {p p' : Parser V X} {fuel : Nat} {r : Res V X E V}
    (h : endOfInput t sem fuel p = some r) (hp' : r.parser? = some p') :
    ∃ evs, p'.trace = evs ++ p.trace ∧ p'.extra = replayAll t sem p.extra evs := by
  unfold endOfInput at h
  rw [Option.map_eq_some_iff] at h
  obtain ⟨r1, h1, h2⟩ := h
  cases r1 with
  | panic w => cases h2; cases hp'
  | err p1 e => cases h2; cases hp'; exact parseToken_logged h1 rfl
  | ok p1 u =>
    simp only at h2
    split at h2
    · cases h2; cases hp'; exact parseToken_logged h1 rfl
    · cases h2; cases hp'

-- an `end_of_input` that succeeds after four tokens
open Examples in
example : ∃ p r, Reach (tablesOf Tests.error2) Tests.logSem p ∧
    endOfInput (tablesOf Tests.error2) Tests.logSem 1000 p = some r ∧
    (r.parser?.map (·.trace.length) == some 7) = true :=
  exists_end (x := []) (toks := tk [2, 3, 4, 1]) (by decide +kernel)

/-- C34: without user code that touches it the extra argument is returned as given to `new`. -/
theorem C34_extra_untouched (hu : ∀ n vs x, (sem.user n vs x).2 = x)
    (hs : ∀ tok ex x, (sem.syntaxError tok ex x).2 = x) (hf : ∀ x, (sem.parseFail x).2 = x)
    (ho : ∀ tok x, (sem.stackOverflow tok x).2 = x)
    {x : X} {fuel : Nat} {toks : List (Tok V)} {r : Res V X E V} {p' : Parser V X}
    (h : runAll t sem fuel x toks = some r) (hp' : r.parser? = some p') : p'.extra = x := by
  have hrun : ∀ c vs x, (runCode sem c vs x).2 = x := by
    intro c vs x; cases c with
    | none => rfl
    | some c => cases c <;> simp [runCode, hu]
  have hrep : ∀ x e, replay t sem x e = x := by
    intro x e; cases e <;> simp [replay, hrun, hs, hf, ho]
  have hall : ∀ x evs, replayAll t sem x evs = x := by
    intro x evs; unfold replayAll; induction evs with
    | nil => rfl
    | cons e es ih => simp only [List.foldr_cons]; rw [ih, hrep]
  have hfeed : ∀ toks p r p', feed t sem fuel p toks = some r → r.parser? = some p' → p'.extra = p.extra := by
    intro toks
    induction toks with
    | nil => intro p r p' h hp'; cases h; cases hp'; rfl
    | cons tok toks ih =>
      intro p r p' h hp'
      unfold feed at h
      cases hq : parse t sem fuel p tok with
      | none => rw [hq] at h; cases h
      | some q =>
        rw [hq] at h
        have h1 : ∀ p1, q.parser? = some p1 → p1.extra = p.extra := by
          intro p1 hp1
          obtain ⟨evs, _, h2⟩ := C34_extra_parse hq hp1
          rw [h2, hall]
        cases q with
        | ok p1 u => rw [ih p1 r p' h hp', h1 p1 rfl]
        | err p1 e => cases h; exact h1 _ hp'
        | panic w => cases h; cases hp'
  unfold runAll at h
  cases hq : feed t sem fuel (Parser.new sem x) toks with
  | none => rw [hq] at h; cases h
  | some q =>
    rw [hq] at h
    cases q with
    | panic w => cases h; cases hp'
    | err p e => cases h; cases hp'; exact hfeed _ _ _ _ hq rfl
    | ok p u =>
      obtain ⟨evs, _, h2⟩ := C34_extra_end h hp'
      rw [h2, hall]
      exact hfeed _ _ _ _ hq rfl

/-! ## C10, C11 -/

/-- C10: the stack never holds more than `%stack_size` entries. -/
theorem C10_bound {p : Parser V X} (h : Reach t sem p) (h0 : 0 < t.stackLimit) :
    p.stack.length ≤ t.stackLimit := reach_fits h (by omega)

-- a full stack is reachable
open Examples in
example : 0 < (tablesOf limited).stackLimit ∧ ∃ p, Reach (tablesOf limited) Tests.logSem p ∧
    (p.stack.length == 4) = true :=
  ⟨by decide +kernel, exists_reach (x := []) (toks := tk [1, 1, 1]) (by decide +kernel)⟩

/-- C10: a call behaves like that of the parser without limit, and does not run `%stack_overflow`,
unless the stack is full when something is to be pushed; then the call returns the error of the
block, which has run once and last. -/
theorem C10_overflow {p : Parser V X} {tok : Tok V} {fuel : Nat} {r : Res V X E Unit}
    (hp : Reach t sem p) (h : parse t sem fuel p tok = some r) :
    (parse { t with stackLimit := 0 } sem fuel p tok = some r ∧
      ∀ p', r.parser? = some p' → ∃ evs, p'.trace = evs ++ p.trace ∧
        ∀ e ∈ evs, ∀ tk, e ≠ .stackOverflow tk) ∨
    (0 < t.stackLimit ∧ ∃ p' x tk evs, r = .err p' (sem.stackOverflow tk x).1 ∧
      p'.extra = (sem.stackOverflow tk x).2 ∧ p'.stack.length = t.stackLimit ∧
      p'.trace = .stackOverflow tk :: evs ++ p.trace ∧ ∀ e ∈ evs, ∀ tk, e ≠ .stackOverflow tk) := by
  have conv : ∀ e : Event V, e.isOverflow = false → ∀ tk, e ≠ .stackOverflow tk := by
    intro e he tk h; subst h; cases he
  rcases parseToken_same (reach_fits hp) h with ⟨h1, h2⟩ | ⟨q, tk, h1, ⟨evs, h2, h3⟩, h4, h5⟩
  · left
    refine ⟨h1, ?_⟩
    intro p' hp'
    obtain ⟨evs, h3, h4⟩ := h2 p' hp'
    exact ⟨evs, h3, fun e he => conv e (h4 e he)⟩
  · right
    refine ⟨by omega, _, q.extra, tk, evs, h1, rfl, h5, ?_, fun e he => conv e (h3 e he)⟩
    simp [h2]

-- both cases occur: the fourth token overflows, the third does not
open Examples in
example : ∃ p r, Reach (tablesOf limited) Tests.logSem p ∧ (⟨1, 0⟩ : Tok Int).Valid (tablesOf limited) Tests.logSem ∧
    parse (tablesOf limited) Tests.logSem 1000 p ⟨1, 0⟩ = some r ∧
    (r.parser?.map (fun p => p.trace.map kind) == some [3, 4, 4, 4]) = true :=
  exists_call (x := []) (toks := tk [1, 1, 1]) (tok := ⟨1, 0⟩) (by decide +kernel)
open Examples in
example : ∃ p r, Reach (tablesOf limited) Tests.logSem p ∧ (⟨1, 0⟩ : Tok Int).Valid (tablesOf limited) Tests.logSem ∧
    parse (tablesOf limited) Tests.logSem 1000 p ⟨1, 0⟩ = some r ∧
    (r.parser?.map (fun p => p.trace.map kind) == some [4, 4, 4]) = true :=
  exists_call (x := []) (toks := tk [1, 1]) (tok := ⟨1, 0⟩) (by decide +kernel)

/-- C11: with `%stack_size 0` the `%stack_overflow` block never runs. -/
theorem C11_unlimited {p : Parser V X} (h0 : t.stackLimit = 0) (h : Reach t sem p) :
    ∀ e ∈ p.trace, ∀ tk, e ≠ .stackOverflow tk := by
  induction h with
  | new x => simp [Parser.new]
  | extra x _ ih => exact ih
  | parse hp _ h1 h2 ih =>
    rcases C10_overflow hp h1 with ⟨_, h3⟩ | ⟨h3, _⟩
    · obtain ⟨evs, h4, h5⟩ := h3 _ h2
      intro e he
      rw [h4] at he
      rcases List.mem_append.1 he with he | he
      · exact h5 e he
      · exact ih e he
    · omega

-- an unlimited parser with a stack of more entries than the limit above
open Examples in
example : (tablesOf (.stackSize 0 none :: limited.tail)).stackLimit = 0 ∧
    ∃ p, Reach (tablesOf (.stackSize 0 none :: limited.tail)) Tests.logSem p ∧
      (p.stack.length == 13) = true :=
  ⟨by decide +kernel, exists_reach (x := []) (toks := tk (List.replicate 12 1)) (by decide +kernel)⟩

/-! ## C08 (independent of the tables) -/

/-- C08: after a call that returned `Err`, `parse` panics with "Cannot call parse after failure". -/
theorem C08_latch_parse {p p' : Parser V X} {tok : Tok V} {fuel : Nat} {e : E}
    (h : parse t sem fuel p tok = some (.err p' e)) (x : X) (tok' : Tok V) (fuel' : Nat) :
    parse t sem fuel' { p' with extra := x } tok' = some (.panic .afterFailure) := by
  rcases parseToken_inv h with ⟨h1, _⟩ | ⟨_, r', hl, hr⟩
  · cases h1
  · rcases hr with ⟨p1, e', rfl, h2⟩ | ⟨h1, rfl⟩
    · cases h2; rfl
    · exact absurd rfl (h1 p' e)

/-- The result is an error -/
def Res.isErr {α : Type} : Res V X E α → Bool
  | .err _ _ => true
  | _ => false

-- a call that fails
open Examples in
example : ∃ p r, Reach (tablesOf Tests.error2) Tests.strictSem p ∧
    (⟨2, 0⟩ : Tok Int).Valid (tablesOf Tests.error2) Tests.strictSem ∧
    parse (tablesOf Tests.error2) Tests.strictSem 1000 p ⟨2, 0⟩ = some r ∧ r.isErr = true :=
  exists_call (x := []) (toks := tk [2, 3]) (tok := ⟨2, 0⟩) (by decide +kernel)

/-- C08: and so does `end_of_input`. -/
theorem C08_latch_end {p p' : Parser V X} {tok : Tok V} {fuel : Nat} {e : E}
    (h : parse t sem fuel p tok = some (.err p' e)) (x : X) (fuel' : Nat) :
    endOfInput t sem fuel' { p' with extra := x } = some (.panic .afterFailure) := by
  rcases parseToken_inv h with ⟨h1, _⟩ | ⟨_, r', hl, hr⟩
  · cases h1
  · rcases hr with ⟨p1, e', rfl, h2⟩ | ⟨h1, rfl⟩
    · cases h2; rfl
    · exact absurd rfl (h1 p' e)

/-! ## C29, C30 -/

/-- C29: in a grammar without the error symbol `%syntax_error` runs only if at least three tokens
were shifted since the last token that was discarded because of a syntax error. -/
theorem C29_muted {p : Parser V X} (h0 : t.errorSymbol = 0) (h : Reach t sem p) : Muted p.trace :=
  (reach_mute h0 h).2

-- a log with two runs of `%syntax_error`, three shifts apart, and one muted error
open Examples in
example : (tablesOf Tests.error2).errorSymbol = 0 ∧ ∃ p, Reach (tablesOf Tests.error2) Tests.logSem p ∧
    (p.trace.map kind == [5, 1, 4, 0, 4, 0, 4, 5, 4, 4, 5, 1]) = true :=
  ⟨by decide +kernel, exists_reach (x := []) (toks := tk [3, 2, 3, 3, 4, 1, 2, 2]) (by decide +kernel)⟩

/-- C30, the part that is true: with the error symbol two runs of `%syntax_error` are separated by a
shift or a reduction.  Missing: the three shifted tokens that the documentation promises. -/
theorem C30_separated_partial {p : Parser V X} (h0 : t.errorSymbol ≠ 0) (h : Reach t sem p) :
    Separated p.trace := (reach_sep h0 h).1

/-- C30 in full is false: in `error1.rs` the block runs again after a single shifted token. -/
theorem C30_false :
    ¬ ∀ (ds : List Decl) (t : Tables), compile id ds = .ok t → t.errorSymbol ≠ 0 →
      ∀ (sem : Sem Int (List Nat) Unit) (p : Parser Int (List Nat)), Reach t sem p → Muted p.trace := by
  intro h
  have hc : compile id Tests.error1 = .ok (Examples.tablesOf Tests.error1) :=
    Examples.compiles_iff (by decide +kernel)
  -- after `One Two Three Eol`, the tokens `Two Eol Two`: two errors, one shift between them
  obtain ⟨p, hp, hf⟩ := Examples.exists_reach (t := Examples.tablesOf Tests.error1) (m := Tests.logSem) (x := [])
    (toks := Examples.tk [2, 3, 4, 3, 1, 3])
    (f := fun p => (p.trace.take 2).map Examples.kind == [5, 1] && shiftsSinceError (p.trace.drop 2) == some 1)
    (by decide +kernel)
  have hm := h _ _ hc (by decide +kernel) _ p hp
  cases htr : p.trace with
  | nil => rw [htr] at hf; simp at hf
  | cons a l =>
    cases l with
    | nil => rw [htr] at hf; simp at hf
    | cons b l =>
      rw [htr] at hf
      simp only [List.take_succ_cons, List.take_zero, List.map_cons, List.map_nil, List.drop_succ_cons, List.drop_zero,
        Bool.and_eq_true, beq_iff_eq, List.cons.injEq, and_true] at hf
      obtain ⟨⟨_, hb⟩, hs⟩ := hf
      cases b with
      | syntaxError tok ex =>
        rw [htr] at hm
        have := hm [a] tok ex l rfl 1 hs
        omega
      | _ => simp [Examples.kind] at hb

-- the hypotheses of the partial theorem, with two runs of the block
open Examples in
example : (tablesOf Tests.error1).errorSymbol ≠ 0 ∧ ∃ p, Reach (tablesOf Tests.error1) Tests.logSem p ∧
    (p.trace.map kind == [5, 1, 0, 0, 4, 5, 1, 0, 0, 4, 4, 4]) = true :=
  ⟨by decide +kernel, exists_reach (x := []) (toks := tk [2, 3, 4, 3, 1, 3]) (by decide +kernel)⟩

/-! ## C31 -/

/-- C31: on a syntax error the stack is popped to the nearest entry that is the error symbol or can
shift it.  If there is none `%parse_fail` runs and the call returns its error.  If it is the error
symbol the token is discarded and nothing else happens.  Otherwise `%syntax_error` runs once; if it
succeeds its value is pushed as the error symbol (unless the stack is full) and the token is
discarded. -/
theorem C31_recovery {p q : Parser V X} {tok : Tok V} {fuel : Nat} {r : Res V X E Unit}
    {top : Entry V} {below : List (Entry V)}
    (hv : tok.Valid t sem) (h0 : t.errorSymbol ≠ 0)
    (hred : Reduces t sem tok.major (t.tokenValue sem tok).2 p q) (hq : q.status = .normal)
    (hstk : q.stack = top :: below)
    (herr : t.findShift top.state tok.major = .ok (t.nState + t.nRule))
    (h : parse t sem fuel p tok = some r) (hnp : ∀ w, r ≠ .panic w) :
    ∃ popped rest, q.stack = popped ++ rest ∧
      (∀ e ∈ popped, e.major ≠ t.errorSymbol ∧ ¬ CanShiftError t e) ∧
      ((rest = [] ∧ r = .err { q with stack := [], status := .failed, extra := (sem.parseFail q.extra).2
                                      trace := .parseFail :: q.trace } (sem.parseFail q.extra).1) ∨
       (∃ e rest', rest = e :: rest' ∧
        ((e.major = t.errorSymbol ∧
            r = .ok { q with stack := rest, errorCount := 3, trace := .discard tok.major :: q.trace } ()) ∨
         (e.major ≠ t.errorSymbol ∧ ∃ s ex, t.findReduce e.state t.errorSymbol = .ok s ∧ s < t.nState ∧
            t.expected top.state = .ok ex ∧
            ((∃ err x, sem.syntaxError (some tok) ex q.extra = (.error err, x) ∧
                r = .err { q with stack := rest, status := .failed, extra := x
                                  trace := .syntaxError (some tok) ex :: q.trace } err) ∨
             (∃ v x, sem.syntaxError (some tok) ex q.extra = (.ok v, x) ∧
                ((0 < t.stackLimit ∧ t.stackLimit ≤ rest.length) ∨
                 r = .ok { q with stack := ⟨s, t.errorSymbol, ⟨t.errorDt, v⟩⟩ :: rest, errorCount := 3, extra := x
                                  trace := .discard tok.major :: .syntaxError (some tok) ex :: q.trace } ()))))))) := by
  have hb := tokenBuild_tokenValue hv
  rcases parseToken_inv h with ⟨h1, _⟩ | ⟨_, r', hl, hr⟩
  · exact absurd h1 (hnp _)
  have hr' := loop_done hred hq (step_error hstk herr) hl
  have hm0 : tok.major ≠ 0 := by have := hv.pos; omega
  have hnp' : ∀ w, r' ≠ .panic w := by
    intro w hw; subst hw
    rcases hr with ⟨_, _, h1, _⟩ | ⟨_, h1⟩
    · cases h1
    · exact hnp w h1
  rcases onError_cases t sem q top tok.major (t.tokenValue sem tok).2 with ⟨w, h', _⟩ | ⟨h', _⟩ | ⟨ex, hex, _, h'⟩
  · exact absurd (hr'.trans h') (hnp' w)
  · exact absurd h' hm0
  · rcases h' with ⟨_, h'⟩ | ⟨h1, _⟩ | ⟨h1, _⟩
    · rcases recover_cases t sem tok.major (t.tokenValue sem tok).2 ex q.stack q with
        ⟨w, hrec⟩ | ⟨popped, rest, hsplit, hpop, hrec⟩
      · rw [hrec] at h'
        rcases h' with ⟨_, _, h', _⟩ | ⟨_, h', _⟩ | ⟨_, h', _⟩ <;> cases h'
      · refine ⟨popped, rest, hsplit, ?_, ?_⟩
        · intro e he
          obtain ⟨h1, act, h2, h3⟩ := hpop e he
          refine ⟨h1, ?_⟩
          rintro ⟨s, h4, h5⟩
          rw [h2] at h4; cases h4; omega
        · rcases hrec with ⟨hnil, hrec⟩ | ⟨e, rest', hrest, hrec⟩
          · left
            refine ⟨hnil, ?_⟩
            rw [hrec] at h'
            rcases h' with ⟨_, _, h', _⟩ | ⟨p1, h', _, h''⟩ | ⟨p1, h', hne, _⟩
            · cases h'
            · cases h'
              rw [hr', h''] at hr
              rcases hr with ⟨p2, e2, h3, h4⟩ | ⟨h3, _⟩
              · cases h3; exact h4
              · exact absurd rfl (h3 _ _)
            · cases h'; exact absurd rfl hne
          · right
            refine ⟨e, rest', hrest, ?_⟩
            rcases hrec with ⟨hmaj, hrec⟩ | ⟨hmaj, s, hs1, hs2, hrec⟩
            · left
              refine ⟨hmaj, ?_⟩
              rw [hrec] at h'
              rcases h' with ⟨_, _, h', _⟩ | ⟨p1, h', he, _⟩ | ⟨p1, h', _, h''⟩
              · cases h'
              · cases h'; rw [hrest] at he; cases he
              · cases h'
                rw [hr', h''] at hr
                rcases hr with ⟨p2, e2, h3, _⟩ | ⟨_, h4⟩
                · cases h3
                · exact h4
            · right
              refine ⟨hmaj, s, ex, hs1, hs2, hex, ?_⟩
              rcases syntaxError_cases t sem { q with stack := rest } tok.major (t.tokenValue sem tok).2 ex with
                ⟨err, x, hu, hse⟩ | ⟨v, x, hu, hse⟩
              · left
                rw [hb] at hu hse
                refine ⟨err, x, hu, ?_⟩
                rcases hrec with ⟨p1, e1, h1, hrec⟩ | ⟨p1, e1, h1, _⟩
                · rw [hse] at h1; cases h1
                  rw [hrec] at h'
                  rcases h' with ⟨_, _, h', h''⟩ | ⟨p1, h', _⟩ | ⟨p1, h', _⟩
                  · cases h'
                    rw [hr', h''] at hr
                    rcases hr with ⟨p2, e2, h3, h4⟩ | ⟨h3, _⟩
                    · cases h3; exact h4
                    · exact absurd rfl (h3 _ _)
                  · cases h'
                  · cases h'
                · rw [hse] at h1; cases h1
              · right
                rw [hb] at hu hse
                refine ⟨v, x, hu, ?_⟩
                rcases hrec with ⟨p1, e1, h1, _⟩ | ⟨p1, e1, h1, hrec⟩
                · rw [hse] at h1; cases h1
                · rw [hse] at h1; cases h1
                  rcases shift_cases t sem { q with stack := rest, extra := x, trace := .syntaxError (some tok) ex :: q.trace }
                    s t.errorSymbol ⟨t.errorDt, v⟩ with ⟨hl1, hl2, _⟩ | ⟨_, hsh⟩
                  · left; exact ⟨by omega, hl2⟩
                  · right
                    rw [hrec, hsh] at h'
                    rcases h' with ⟨_, _, h', _⟩ | ⟨p1, h', he, _⟩ | ⟨p1, h', _, h''⟩
                    · cases h'
                    · cases h'; cases he
                    · cases h'
                      rw [hr', h''] at hr
                      rcases hr with ⟨p2, e2, h3, _⟩ | ⟨_, h4⟩
                      · cases h3
                      · exact h4
    · exact absurd h1 h0
    · exact absurd h1 h0

-- the hypotheses are met (without reductions in between): `Two` after `One` in error1.rs
open Examples in
example : ∃ p r top below, Reach (tablesOf Tests.error1) Tests.logSem p ∧
    (tablesOf Tests.error1).errorSymbol ≠ 0 ∧
    (⟨2, 0⟩ : Tok Int).Valid (tablesOf Tests.error1) Tests.logSem ∧
    Reduces (tablesOf Tests.error1) Tests.logSem 2 ((tablesOf Tests.error1).tokenValue Tests.logSem ⟨2, 0⟩).2 p p ∧
    p.status = .normal ∧ p.stack = top :: below ∧
    (tablesOf Tests.error1).findShift top.state 2 =
      .ok ((tablesOf Tests.error1).nState + (tablesOf Tests.error1).nRule) ∧
    parse (tablesOf Tests.error1) Tests.logSem 1000 p ⟨2, 0⟩ = some r ∧ (∀ w, r ≠ .panic w) := by
  obtain ⟨p, r, h1, h2, h3, h4⟩ := exists_call (t := tablesOf Tests.error1) (m := Tests.logSem) (x := [])
    (toks := tk [2, 3, 4, 2]) (tok := ⟨2, 0⟩)
    (f := fun p r => errorNext (tablesOf Tests.error1) p 2 && (r.parser?.isSome)) (by decide +kernel)
  rw [Bool.and_eq_true] at h4
  obtain ⟨h5, top, rest, h6, h7⟩ := errorNext_iff h4.1
  refine ⟨p, r, top, rest, h1, by decide +kernel, h2, .refl p, h5, h6, h7, h3, ?_⟩
  intro w hw; subst hw; simp [Res.parser?] at h4

/-! ## C32 -/

/-- The parser has detected a syntax error at the end of input. -/
def EndError (t : Tables) (sem : Sem V X E) (p q : Parser V X) : Prop :=
  Reduces t sem 0 ⟨0, sem.unit⟩ p q ∧ q.status = .normal ∧
    ∃ top rest, q.stack = top :: rest ∧ t.findShift top.state 0 = .ok (t.nState + t.nRule)

/-- C32: a syntax error detected by `end_of_input` runs `%parse_fail` exactly once, as the last thing,
never `%syntax_error`, and its value is returned. -/
theorem C32_end_error {p q : Parser V X} {fuel : Nat} {r : Res V X E V} (hs : p.status = .normal)
    (herr : EndError t sem p q) (h : endOfInput t sem fuel p = some r) :
    ∃ p' evs, r = .err p' (sem.parseFail q.extra).1 ∧ p'.trace = .parseFail :: evs ++ p.trace ∧
      ∀ e ∈ evs, ∃ n vs, e = .reduce n vs := by
  obtain ⟨hred, hq, top, rest, hstk, ha⟩ := herr
  unfold endOfInput at h
  rw [Option.map_eq_some_iff] at h
  obtain ⟨r1, h1, h2⟩ := h
  rcases parseToken_inv h1 with ⟨_, h3⟩ | ⟨_, r', hl, hr⟩
  · exact absurd hs h3
  · have hr' := loop_done hred hq (step_error hstk ha) hl
    rcases onError_cases t sem q top 0 ⟨0, sem.unit⟩ with ⟨w, _, h'⟩ | ⟨_, h'⟩ | ⟨_, _, h', _⟩
    · exact absurd rfl h'
    · rw [hr', h'] at hr
      rcases hr with ⟨p2, e2, h3, h4⟩ | ⟨h3, _⟩
      · cases h3; subst h4; cases h2
        obtain ⟨evs, he1, he2⟩ := hred.events
        refine ⟨_, evs, rfl, ?_, he2⟩
        simp [parseFailed, he1]
      · exact absurd rfl (h3 _ _)
    · exact absurd rfl h'

-- `end_of_input` in the middle of a line of error2.rs
open Examples in
example : ∃ p r, Reach (tablesOf Tests.error2) Tests.logSem p ∧ p.status = .normal ∧
    EndError (tablesOf Tests.error2) Tests.logSem p p ∧
    endOfInput (tablesOf Tests.error2) Tests.logSem 1000 p = some r := by
  obtain ⟨p, r, h1, h2, h3⟩ := exists_end (t := tablesOf Tests.error2) (m := Tests.logSem) (x := [])
    (toks := tk [2, 3, 4, 1, 2]) (f := fun p _ => errorNext (tablesOf Tests.error2) p 0) (by decide +kernel)
  obtain ⟨h5, top, rest, h6, h7⟩ := errorNext_iff h3
  exact ⟨p, r, h1, h5, ⟨.refl p, h5, top, rest, h6, h7⟩, h2⟩

/-- C32: in general `end_of_input` never runs `%syntax_error`, and it runs `%parse_fail` only when it
detects a syntax error. -/
theorem C32_end_events {p p' : Parser V X} {fuel : Nat} {r : Res V X E V}
    (h : endOfInput t sem fuel p = some r) (hp' : r.parser? = some p') :
    ∃ evs, p'.trace = evs ++ p.trace ∧ (∀ e ∈ evs, ∀ tok ex, e ≠ .syntaxError tok ex) ∧
      (.parseFail ∈ evs → ∃ q, EndError t sem p q) := by
  unfold endOfInput at h
  rw [Option.map_eq_some_iff] at h
  obtain ⟨r1, h1, h2⟩ := h
  have hcon : ∀ evs : List (Event V), (∀ e ∈ evs, ∃ r vs, e = Event.reduce r vs) →
      (∀ e ∈ evs, ∀ tok ex, e ≠ .syntaxError tok ex) ∧ .parseFail ∉ evs := by
    intro evs h
    refine ⟨?_, ?_⟩
    · intro e he tok ex heq; obtain ⟨r, vs, h'⟩ := h e he; rw [h'] at heq; cases heq
    · intro he; obtain ⟨r, vs, h'⟩ := h _ he; cases h'
  -- what the call leaves behind
  have key : ∀ p1, r1.parser? = some p1 → ∃ evs, p1.trace = evs ++ p.trace ∧
      (∀ e ∈ evs, ∀ tok ex, e ≠ .syntaxError tok ex) ∧ (.parseFail ∈ evs → ∃ q, EndError t sem p q) := by
    intro p1 hp1
    rcases parseToken_inv h1 with ⟨rfl, _⟩ | ⟨_, r', hl, hr⟩
    · cases hp1
    have htr : ∃ p2, r'.parser? = some p2 ∧ p1.trace = p2.trace := by
      rcases hr with ⟨p2, e2, rfl, rfl⟩ | ⟨_, rfl⟩
      · cases hp1; exact ⟨p2, rfl, rfl⟩
      · exact ⟨p1, hp1, rfl⟩
    obtain ⟨p2, hp2, htr⟩ := htr
    rw [htr]
    obtain ⟨q, hred, hq⟩ := loop_run hl
    obtain ⟨evs, he1, he2⟩ := hred.events
    obtain ⟨hc1, hc2⟩ := hcon evs he2
    rcases hq with ⟨hqn, hst⟩ | ⟨_, rfl⟩
    · rcases step_cases t sem q 0 ⟨0, sem.unit⟩ with ⟨w, hw⟩ | ⟨top, rest, act, hstk, hact, hw⟩
      · rw [hst] at hw; cases hw; cases hp2
      · rcases hw with ⟨_, h0, _⟩ | ⟨_, _, hw⟩ | ⟨hact', hw⟩
        · exact absurd rfl h0
        · rcases hw with ⟨p3, e3, h3, hw⟩ | ⟨p3, h3, hw⟩
          · rw [hst] at hw; cases hw; cases hp2
            obtain ⟨_, vs, h4⟩ := reduce_events (t := t) (sem := sem) (by rw [h3]; rfl)
            rcases h4 with h4 | ⟨_, _, _, _, _, h4⟩
            · refine ⟨.reduce (act - t.nState) vs :: evs, by rw [h4, he1]; rfl, ?_, ?_⟩
              · intro e he; rcases List.mem_cons.1 he with rfl | he
                · intro _ _ h; cases h
                · exact hc1 e he
              · intro he; rcases List.mem_cons.1 he with h | he
                · cases h
                · exact absurd he hc2
            · refine ⟨.stackOverflow _ :: .reduce (act - t.nState) vs :: evs, by rw [h4, he1]; rfl, ?_, ?_⟩
              · intro e he; rcases List.mem_cons.1 he with rfl | he
                · intro _ _ h; cases h
                · rcases List.mem_cons.1 he with rfl | he
                  · intro _ _ h; cases h
                  · exact hc1 e he
              · intro he; rcases List.mem_cons.1 he with h | he
                · cases h
                · rcases List.mem_cons.1 he with h | he
                  · cases h
                  · exact absurd he hc2
          · rw [hst] at hw; cases hw
        · rw [hst] at hw; cases hw
          rw [hact'] at hact
          rcases onError_cases t sem q top 0 ⟨0, sem.unit⟩ with ⟨w, _, h'⟩ | ⟨_, h'⟩ | ⟨_, _, h', _⟩
          · exact absurd rfl h'
          · rw [h'] at hp2; cases hp2
            refine ⟨.parseFail :: evs, by simp [parseFailed, he1], ?_, ?_⟩
            · intro e he; rcases List.mem_cons.1 he with rfl | he
              · intro _ _ h; cases h
              · exact hc1 e he
            · intro _; exact ⟨q, hred, hqn, top, rest, hstk, hact⟩
          · exact absurd rfl h'
    · cases hp2
      exact ⟨evs, he1, hc1, fun h => absurd h hc2⟩
  cases r1 with
  | panic w => cases h2; cases hp'
  | err p1 e => cases h2; cases hp'; exact key _ rfl
  | ok p1 u =>
    simp only at h2
    split at h2
    · cases h2; cases hp'; exact key _ rfl
    · cases h2; cases hp'

/-! ## C33 -/

/-- C33: the list of expected tokens is strictly increasing, without the end of input, and contains
exactly the tokens whose action in the state is a shift or a reduction. -/
theorem C33_expected {s : Nat} {ex : List Nat} (h : t.expected s = .ok ex) :
    ex.Pairwise (· < ·) ∧ ∀ la, la ∈ ex ↔
      (0 < la ∧ la < t.numTerminals ∧ ∃ a, t.findShift s la = .ok a ∧ a < t.nState + t.nRule) :=
  expected_spec h

open Examples in
example : (match (tablesOf Tests.expected2).expected 0 with | .ok l => l | .error _ => []) = [2, 3, 4] := by
  decide +kernel

/-- C33: a token that the parser would have shifted in the failing situation is in the list. -/
theorem C33_includes_consumable {q p' : Parser V X} {top : Entry V} {below : List (Entry V)} {ex : List Nat}
    {tok : Tok V} {fuel : Nat} {r : Res V X E Unit} (hv : tok.Valid t sem)
    (hex : t.expected top.state = .ok ex) (hstk : q.stack = top :: below)
    (h : parse t sem fuel q tok = some r) (hp' : r.parser? = some p')
    (hshift : ∃ evs, p'.trace = .shift tok.major :: evs) : tok.major ∈ ex := by
  rw [(expected_spec hex).2]
  refine ⟨hv.pos, hv.lt, ?_⟩
  obtain ⟨evs0, hshift⟩ := hshift
  rcases parseToken_inv h with ⟨rfl, _⟩ | ⟨hn, r', hl, hr⟩
  · cases hp'
  rcases step_cases t sem q tok.major (t.tokenValue sem tok).2 with ⟨w, hw⟩ | ⟨top', rest, act, hstk', hact, hw⟩
  · have := loop_done (Reduces.refl q) hn hw hl
    subst this
    rcases hr with ⟨_, _, h1, _⟩ | ⟨_, rfl⟩
    · cases h1
    · cases hp'
  · rw [hstk] at hstk'; cases hstk'
    refine ⟨act, hact, ?_⟩
    rcases hw with ⟨h1, _⟩ | ⟨_, h1, _⟩ | ⟨h1, hw⟩
    · omega
    · exact h1
    · exfalso
      have hrr := loop_done (Reduces.refl q) hn hw hl
      have hnew : ∀ p2, r'.parser? = some p2 → ∃ e l, p2.trace = e :: l ∧ ∀ a, e ≠ .shift a := by
        intro p2 hp2
        rw [hrr] at hp2
        rcases onError_cases t sem q top tok.major (t.tokenValue sem tok).2 with ⟨w, h', _⟩ | ⟨_, h'⟩ | ⟨ex', _, _, h'⟩
        · rw [h'] at hp2; cases hp2
        · rw [h'] at hp2; cases hp2; exact ⟨_, _, rfl, by intro a h; cases h⟩
        · rcases h' with ⟨_, h'⟩ | ⟨_, _, h'⟩ | ⟨_, _, h'⟩
          · rcases h' with ⟨p3, e3, hrec, h'⟩ | ⟨p3, hrec, _, h'⟩ | ⟨p3, hrec, _, h'⟩
            · rw [h'] at hp2; cases hp2
              rcases recover_cases t sem tok.major (t.tokenValue sem tok).2 ex' q.stack q with
                ⟨w, hc⟩ | ⟨popped, rst, _, _, hc⟩
              · rw [hrec] at hc; cases hc
              · rcases hc with ⟨_, hc⟩ | ⟨tp, rest', _, hc⟩
                · rw [hrec] at hc; cases hc
                · rcases hc with ⟨_, hc⟩ | ⟨_, act', _, _, hc⟩
                  · rw [hrec] at hc; cases hc
                  · rcases hc with ⟨p4, e4, hs, hc⟩ | ⟨p4, e4, hs, hc⟩
                    · rw [hrec] at hc; cases hc
                      have := (syntaxError_stack (sem := sem) (p' := p2) (by rw [hs]; rfl)).2.2.2
                      exact ⟨_, _, this, by intro a h; cases h⟩
                    · have hh := shift_events (t := t) (sem := sem) (p := p4) (p' := p2) (s := act')
                        (major := t.errorSymbol) (m := e4) (by rw [← hc, hrec]; rfl)
                      rcases hh.2.2 with ⟨h5, _⟩ | ⟨h5, _⟩
                      · rw [← hc, hrec] at h5; cases h5
                      · exact ⟨_, _, h5, by intro a h; cases h⟩
            · rw [h'] at hp2; cases hp2; exact ⟨_, _, rfl, by intro a h; cases h⟩
            · rw [h'] at hp2; cases hp2; exact ⟨_, _, rfl, by intro a h; cases h⟩
          · rcases h' with ⟨p3, e3, hs, h'⟩ | ⟨p3, e3, hs, h'⟩ <;> (rw [h'] at hp2; cases hp2)
            · have := (syntaxError_stack (sem := sem) (p' := p2) (by rw [hs]; rfl)).2.2.2
              exact ⟨_, _, this, by intro a h; cases h⟩
            · exact ⟨_, _, rfl, by intro a h; cases h⟩
          · rw [h'] at hp2; cases hp2; exact ⟨_, _, rfl, by intro a h; cases h⟩
      rcases hr with ⟨p2, e2, rfl, rfl⟩ | ⟨_, rfl⟩
      · cases hp'
        obtain ⟨e, l, h1, h2⟩ := hnew p2 rfl
        rw [show p2.trace = _ from hshift] at h1; cases h1; exact h2 _ rfl
      · obtain ⟨e, l, h1, h2⟩ := hnew p' hp'
        rw [hshift] at h1; cases h1; exact h2 _ rfl

-- a token shifted after two reductions, which is in the list
open Examples in
example : ∃ p r, Reach (tablesOf Tests.expected2) Tests.logSem p ∧
    (⟨2, 0⟩ : Tok Int).Valid (tablesOf Tests.expected2) Tests.logSem ∧
    parse (tablesOf Tests.expected2) Tests.logSem 1000 p ⟨2, 0⟩ = some r ∧
    (match p.stack with
      | top :: _ => match (tablesOf Tests.expected2).expected top.state with | .ok l => l == [1, 2, 3, 4] | .error _ => false
      | [] => false) = true :=
  exists_call (x := []) (toks := tk [3]) (tok := ⟨2, 0⟩)
    (f := fun p _ => match p.stack with
      | top :: _ => match (tablesOf Tests.expected2).expected top.state with | .ok l => l == [1, 2, 3, 4] | .error _ => false
      | [] => false) (by decide +kernel)

end Pomelo
