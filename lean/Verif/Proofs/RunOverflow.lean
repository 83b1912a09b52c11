import Verif.Proofs.RunStack
/-! # The stack limit: comparison with the parser without a limit -/

namespace Pomelo

variable {V X E : Type} {t : Tables} {sem : Sem V X E}

/-- Calls of `%stack_overflow` -/
def Event.isOverflow : Event V → Bool
  | .stackOverflow _ => true
  | _ => false

/-- The tables without a stack limit -/
def Tables.unlimited (t : Tables) : Tables := { t with stackLimit := 0 }

/-- From `p` to `q` the `%stack_overflow` block did not run. -/
def NoOv (p q : Parser V X) : Prop :=
  ∃ evs, q.trace = evs ++ p.trace ∧ ∀ e ∈ evs, Event.isOverflow e = false

theorem NoOv.refl (p : Parser V X) : NoOv p p := ⟨[], by simp⟩

theorem NoOv.trans {p q r : Parser V X} (h1 : NoOv p q) (h2 : NoOv q r) : NoOv p r := by
  obtain ⟨e1, h1, g1⟩ := h1
  obtain ⟨e2, h2, g2⟩ := h2
  refine ⟨e2 ++ e1, by simp [h2, h1], ?_⟩
  intro e he
  rcases List.mem_append.1 he with h | h
  · exact g2 e h
  · exact g1 e h

theorem NoOv.same {p q : Parser V X} (h : q.trace = p.trace) : NoOv p q := ⟨[], by simp [h]⟩

theorem NoOv.one {p q : Parser V X} (e : Event V) (h : q.trace = e :: p.trace)
    (he : e.isOverflow = false) : NoOv p q := ⟨[e], by simp [h], by simp [he]⟩

/-- The result of a failed push on the stack of `q`. -/
def overflowRes {α : Type} (sem : Sem V X E) (q : Parser V X) (tok : Option (Tok V)) : Res V X E α :=
  .err { q with extra := (sem.stackOverflow tok q.extra).2, trace := .stackOverflow tok :: q.trace }
    (sem.stackOverflow tok q.extra).1

/-- Outcome `r` of an operation compared with its outcome `r0` without a limit. -/
def Same {α : Type} (t : Tables) (sem : Sem V X E) (p : Parser V X) (r r0 : Res V X E α) : Prop :=
  (r = r0 ∧ ∀ p', r.parser? = some p' → NoOv p p') ∨
  (∃ q tok, r = overflowRes sem q tok ∧ NoOv p q ∧ t.stackLimit ≠ 0 ∧ q.stack.length = t.stackLimit)

theorem Same.mono {α : Type} {p q : Parser V X} {r r0 : Res V X E α} (h0 : NoOv p q)
    (h : Same t sem q r r0) : Same t sem p r r0 := by
  rcases h with ⟨h1, h2⟩ | ⟨q', tok, h1, h2, h3⟩
  · exact .inl ⟨h1, fun p' hp' => h0.trans (h2 p' hp')⟩
  · exact .inr ⟨q', tok, h1, h0.trans h2, h3⟩

theorem findShift_unlimited (s la : Nat) : t.unlimited.findShift s la = t.findShift s la := by
  have : ∀ fuel la, t.unlimited.findShiftFuel s fuel la = t.findShiftFuel s fuel la := by
    intro fuel
    induction fuel with
    | zero => intro la; rfl
    | succ n ih => intro la; unfold Tables.findShiftFuel; simp only [ih]; rfl
  exact this _ _

theorem expected_unlimited (s : Nat) : t.unlimited.expected s = t.expected s := by
  unfold Tables.expected
  simp only [findShift_unlimited]
  rfl

theorem shift_same {p : Parser V X} {s major : Nat} {m : Minor V} (hp : Fits t p) :
    Same t sem p (shift t sem p s major m) (shift t.unlimited sem p s major m) := by
  have h0 : shift t.unlimited sem p s major m = .ok { p with stack := ⟨s, major, m⟩ :: p.stack } () := by
    simp [shift, Tables.unlimited]
  rcases shift_cases t sem p s major m with ⟨h1, h2, h⟩ | ⟨_, h⟩
  · right
    exact ⟨p, _, h, NoOv.refl p, h1, Nat.le_antisymm (hp h1) h2⟩
  · left
    refine ⟨by rw [h, h0], ?_⟩
    intro p' hp'; rw [h] at hp'; cases hp'; exact NoOv.same rfl

theorem accept_same {p : Parser V X} {m : Minor V} :
    Same t sem p (accept t sem p m) (accept t.unlimited sem p m) := by
  left; refine ⟨rfl, ?_⟩
  intro p' h
  rcases accept_cases t sem p m with h' | ⟨v', h'⟩ <;> (rw [h'] at h; cases h)
  exact NoOv.same rfl

theorem reduce_same {p : Parser V X} {r : Nat} (hp : Fits t p) :
    Same t sem p (reduce t sem p r) (reduce t.unlimited sem p r) := by
  cases hrc : t.ruleCode[r]? with
  | none =>
    left; simp [reduce, hrc, Tables.unlimited, Res.parser?]
  | some rc =>
    have hrc0 : t.unlimited.ruleCode[r]? = some rc := hrc
    by_cases hlen : p.stack.length < rc.pats.length
    · left; simp [reduce, hrc, hrc0, hlen, Res.parser?]
    · cases hvs : matchPats rc.pats (p.stack.take rc.pats.length).reverse with
      | none => left; simp [reduce, hrc, hrc0, hlen, hvs, Res.parser?]
      | some vs =>
        rcases hrun : runCode sem rc.code vs p.extra with ⟨res, x⟩
        have hone : ∀ stk, NoOv p { p with stack := stk, trace := .reduce r vs :: p.trace, extra := x } :=
          fun stk => NoOv.one (.reduce r vs) rfl rfl
        cases res with
        | error e =>
          left
          refine ⟨by simp [reduce, hrc, hrc0, hlen, hvs, hrun], ?_⟩
          intro p' hp'
          simp [reduce, hrc, hlen, hvs, hrun, Res.parser?] at hp'
          subst hp'
          exact hone _
        | ok v =>
          cases hl : t.ruleInfo[r]? with
          | none =>
            have hl0 : t.unlimited.ruleInfo[r]? = none := hl
            left; simp [reduce, hrc, hrc0, hlen, hvs, hrun, hl, hl0, Res.parser?]
          | some lhs =>
            have hl0 : t.unlimited.ruleInfo[r]? = some lhs := hl
            cases hd : p.stack.drop rc.pats.length with
            | nil => left; simp [reduce, hrc, hrc0, hlen, hvs, hrun, hl, hl0, hd, Res.parser?]
            | cons top rest =>
              cases hf : t.findReduce top.state lhs with
              | error w =>
                have hf0 : t.unlimited.findReduce top.state lhs = .error w := hf
                left; simp [reduce, hrc, hrc0, hlen, hvs, hrun, hl, hl0, hd, hf, hf0, Res.parser?]
              | ok act =>
                have hf0 : t.unlimited.findReduce top.state lhs = .ok act := hf
                by_cases h1 : act < t.nState
                · have h10 : act < t.unlimited.nState := h1
                  have e1 : reduce t sem p r = shift t sem { p with stack := p.stack.drop rc.pats.length, extra := x, trace := .reduce r vs :: p.trace } act lhs ⟨rc.lhsDt, v⟩ := by
                    simp [reduce, hrc, hlen, hvs, hrun, hl, hd, hf, h1]
                  have e2 : reduce t.unlimited sem p r = shift t.unlimited sem { p with stack := p.stack.drop rc.pats.length, extra := x, trace := .reduce r vs :: p.trace } act lhs ⟨rc.lhsDt, v⟩ := by
                    simp [reduce, hrc0, hlen, hvs, hrun, hl0, hd, hf0, h10]
                  rw [e1, e2]
                  exact Same.mono (hone _) (shift_same (fits_of_le hp (by simp)))
                · have h10 : ¬ act < t.unlimited.nState := h1
                  by_cases h2 : act = t.nState + t.nRule + 1
                  · have h20 : act = t.unlimited.nState + t.unlimited.nRule + 1 := h2
                    have e1 : reduce t sem p r = accept t sem { p with stack := p.stack.drop rc.pats.length, extra := x, trace := .reduce r vs :: p.trace } ⟨rc.lhsDt, v⟩ := by
                      simp only [reduce, hrc, hlen, hvs, hrun, hl, hd, hf, h1, if_false]
                      rw [if_pos h2]
                    have e2 : reduce t.unlimited sem p r = accept t.unlimited sem { p with stack := p.stack.drop rc.pats.length, extra := x, trace := .reduce r vs :: p.trace } ⟨rc.lhsDt, v⟩ := by
                      simp only [reduce, hrc0, hlen, hvs, hrun, hl0, hd, hf0, h10, if_false]
                      rw [if_pos h20]
                    rw [e1, e2]
                    exact Same.mono (hone _) accept_same
                  · have h20 : ¬ act = t.unlimited.nState + t.unlimited.nRule + 1 := h2
                    left; simp [reduce, hrc, hrc0, hlen, hvs, hrun, hl, hl0, hd, hf, hf0, h1, h10, h2, h20, Res.parser?]

theorem syntaxError_noOv {p p' : Parser V X} {major : Nat} {m : Minor V} {ex : List Nat}
    (h : (syntaxError t sem p major m ex).parser? = some p') : NoOv p p' :=
  NoOv.one _ (syntaxError_stack h).2.2.2 rfl

theorem recover_same {major : Nat} {m : Minor V} {ex : List Nat} :
    ∀ {stk : List (Entry V)} {p : Parser V X}, (t.stackLimit ≠ 0 → stk.length ≤ t.stackLimit) →
    Same t sem p (recover t sem major m ex stk p) (recover t.unlimited sem major m ex stk p) := by
  intro stk
  induction stk with
  | nil => intro p _; left; exact ⟨rfl, fun p' h => by cases h; exact NoOv.same rfl⟩
  | cons top rest ih =>
    intro p hfit
    by_cases h1 : top.major = t.errorSymbol
    · have h10 : top.major = t.unlimited.errorSymbol := h1
      left; refine ⟨by rw [recover, recover, if_pos h1, if_pos h10], ?_⟩
      intro p' h; simp [recover, h1, Res.parser?] at h; subst h; exact NoOv.same rfl
    · have h10 : ¬ top.major = t.unlimited.errorSymbol := h1
      cases hf : t.findReduce top.state t.errorSymbol with
      | error w =>
        have hf0 : t.unlimited.findReduce top.state t.unlimited.errorSymbol = .error w := hf
        left; simp [recover, h1, h10, hf, hf0, Res.parser?]
      | ok act =>
        have hf0 : t.unlimited.findReduce top.state t.unlimited.errorSymbol = .ok act := hf
        by_cases h2 : act < t.nState
        · have h20 : act < t.unlimited.nState := h2
          have hse : syntaxError t.unlimited sem { p with stack := top :: rest } major m ex = syntaxError t sem { p with stack := top :: rest } major m ex := rfl
          rcases hs : syntaxError t sem { p with stack := top :: rest } major m ex with ⟨p1, e⟩ | ⟨p1, e⟩ | w
          · have e1 : recover t sem major m ex (top :: rest) p = shift t sem p1 act t.errorSymbol e := by
              simp [recover, h1, hf, h2, hs]
            have e2 : recover t.unlimited sem major m ex (top :: rest) p = shift t.unlimited sem p1 act t.errorSymbol e := by
              simp only [recover, h10, hf0, h20, hse, hs, if_false, if_true]; rfl
            rw [e1, e2]
            have hst := syntaxError_stack (sem := sem) (p' := p1) (by rw [hs]; rfl)
            have hno : NoOv { p with stack := top :: rest } p1 := syntaxError_noOv (sem := sem) (by rw [hs]; rfl)
            refine Same.mono ((NoOv.same (p := p) rfl).trans hno) (shift_same ?_)
            intro h0; rw [hst.1]; exact hfit h0
          · have hno : NoOv { p with stack := top :: rest } p1 := syntaxError_noOv (sem := sem) (by rw [hs]; rfl)
            left
            refine ⟨by simp [recover, h1, h10, hf, hf0, h2, h20, hse, hs], ?_⟩
            intro p' h
            simp [recover, h1, hf, h2, hs, Res.parser?] at h; subst h
            exact (NoOv.same (p := p) rfl).trans hno
          · left; simp [recover, h1, h10, hf, hf0, h2, h20, hse, hs, Res.parser?]
        · have h20 : ¬ act < t.unlimited.nState := h2
          have e1 : recover t sem major m ex (top :: rest) p = recover t sem major m ex rest p := by
            simp [recover, h1, hf, h2]
          have e2 : recover t.unlimited sem major m ex (top :: rest) p = recover t.unlimited sem major m ex rest p := by
            simp [recover, h10, hf0, h20]
          rw [e1, e2]
          refine ih ?_
          intro h0; have := hfit h0; simp at this; omega

theorem parseFailed_noOv {p : Parser V X} : NoOv p (parseFailed sem p).1 :=
  NoOv.one .parseFail rfl rfl

theorem onError_same {p : Parser V X} {top : Entry V} {major : Nat} {m : Minor V} (hp : Fits t p) :
    Same t sem p (onError t sem p top major m) (onError t.unlimited sem p top major m) := by
  by_cases h0 : major = 0
  · left; refine ⟨by simp [onError, h0], ?_⟩
    intro p' h; simp [onError, h0, Res.parser?] at h; subst h; exact parseFailed_noOv
  · cases hex : t.expected top.state with
    | error w =>
      have hex0 : t.unlimited.expected top.state = .error w := by rw [expected_unlimited, hex]
      left; simp [onError, h0, hex, hex0, Res.parser?]
    | ok ex =>
      have hex0 : t.unlimited.expected top.state = .ok ex := by rw [expected_unlimited, hex]
      by_cases h1 : t.errorSymbol = 0
      · have h10 : t.unlimited.errorSymbol = 0 := h1
        have hse : syntaxError t.unlimited sem p major m ex = syntaxError t sem p major m ex := rfl
        left
        refine ⟨by simp [onError, hex, hex0, h0, h1, h10, hse], ?_⟩
        intro p' h
        by_cases h2 : p.errorCount = 0
        · rcases hs : syntaxError t sem p major m ex with ⟨p1, v⟩ | ⟨p1, e⟩ | w
          · have hno : NoOv p p1 := syntaxError_noOv (sem := sem) (by rw [hs]; rfl)
            simp [onError, hex, h0, h1, h2, hs, Res.parser?] at h; subst h
            exact hno.trans (NoOv.one (.discard major) rfl rfl)
          · have hno : NoOv p p1 := syntaxError_noOv (sem := sem) (by rw [hs]; rfl)
            simp [onError, hex, h0, h1, h2, hs, Res.parser?] at h; subst h
            exact hno
          · simp [onError, hex, h0, h1, h2, hs, Res.parser?] at h
        · simp [onError, hex, h0, h1, h2, Res.parser?] at h; subst h
          exact NoOv.one (.discard major) rfl rfl
      · have h10 : ¬ t.unlimited.errorSymbol = 0 := h1
        have hrec := recover_same (t := t) (sem := sem) (major := major) (m := m) (ex := ex) (stk := p.stack) (p := p) hp
        rcases hrec with ⟨he, hn⟩ | ⟨q, tok, he, hn, hl⟩
        · left
          refine ⟨by simp only [onError, hex, hex0, h0, ← he]; rfl, ?_⟩
          intro p' h
          cases hr : recover t sem major m ex p.stack p with
          | panic w => simp [onError, hex, h0, h1, hr, Res.parser?] at h
          | err p1 e =>
            simp [onError, hex, h0, h1, hr, Res.parser?] at h; subst h
            exact hn _ (by rw [hr]; rfl)
          | ok p1 u =>
            have h3 : NoOv p p1 := hn _ (by rw [hr]; rfl)
            cases hs : p1.stack with
            | nil =>
              simp [onError, hex, h0, h1, hr, hs, Res.parser?] at h; subst h
              exact h3.trans parseFailed_noOv
            | cons a b =>
              simp [onError, hex, h0, h1, hr, hs, Res.parser?] at h; subst h
              exact h3.trans (NoOv.one (.discard major) rfl rfl)
        · right
          refine ⟨q, tok, ?_, hn, hl⟩
          simp [onError, hex, h0, h1, he, overflowRes]

/-- One iteration compared with the parser without a limit. -/
theorem step_same {p : Parser V X} {major : Nat} {m : Minor V} (hp : Fits t p) :
    (step t sem p major m = step t.unlimited sem p major m ∧
      (∀ p', step t sem p major m = .again p' → NoOv p p') ∧
      (∀ r p', step t sem p major m = .done r → r.parser? = some p' → NoOv p p')) ∨
    (∃ q tok, step t sem p major m = .done (overflowRes sem q tok) ∧ NoOv p q ∧ t.stackLimit ≠ 0 ∧
      q.stack.length = t.stackLimit) := by
  cases hstk : p.stack with
  | nil => left; simp [step, hstk, Res.parser?]; intro r p' hr hp'; subst hr; cases hp'
  | cons top rest =>
    cases hf : t.findShift top.state major with
    | error w =>
      have hf0 : t.unlimited.findShift top.state major = .error w := by rw [findShift_unlimited, hf]
      left; simp [step, hstk, hf, hf0, Res.parser?]; intro r p' hr hp'; subst hr; cases hp'
    | ok act =>
      have hf0 : t.unlimited.findShift top.state major = .ok act := by rw [findShift_unlimited, hf]
      by_cases h1 : act < t.nState
      · have h10 : act < t.unlimited.nState := h1
        by_cases h0 : major = 0
        · left; subst h0; simp [step, hstk, hf, hf0, h1, h10, Res.parser?]; intro r p' hr hp'; subst hr; cases hp'
        · rcases shift_same (sem := sem) (s := act) (major := major) (m := m) hp with ⟨he, hn⟩ | ⟨q, tok, he, hn, hl⟩
          · left
            refine ⟨by simp [step, hstk, hf, hf0, h1, h10, h0, he], ?_, ?_⟩
            · intro p' h; simp [step, hstk, hf, h1, h0] at h; split at h <;> cases h
            · intro r p' h hp'
              simp only [step, hstk, hf, h1, h0, if_true, if_false] at h
              cases hsh : shift t sem p act major m with
              | panic w => rw [hsh] at h; cases h; cases hp'
              | err p1 e => rw [hsh] at h; cases h; cases hp'; exact hn _ (by rw [hsh]; rfl)
              | ok p1 u =>
                rw [hsh] at h; cases h; cases hp'
                exact (hn p1 (by rw [hsh]; rfl)).trans (NoOv.one (.shift major) rfl rfl)
          · right
            exact ⟨q, tok, by simp [step, hstk, hf, h1, h0, he, overflowRes], hn, hl⟩
      · have h10 : ¬ act < t.unlimited.nState := h1
        by_cases h2 : act < t.nState + t.nRule
        · have h20 : act < t.unlimited.nState + t.unlimited.nRule := h2
          rcases reduce_same (sem := sem) (r := act - t.nState) hp with ⟨he, hn⟩ | ⟨q, tok, he, hn, hl⟩
          · left
            have hnn : t.unlimited.nState = t.nState := rfl
            refine ⟨by simp only [step, hstk, hf, hf0, h1, h10, h2, h20, he, if_true, if_false]; rfl, ?_, ?_⟩
            · intro p' h; simp [step, hstk, hf, h1, h2] at h
              cases hr : reduce t sem p (act - t.nState) with
              | panic w => rw [hr] at h; cases h
              | err p1 e => rw [hr] at h; cases h
              | ok p1 u => rw [hr] at h; cases h; exact hn _ (by rw [hr]; rfl)
            · intro r p' h hp'
              simp only [step, hstk, hf, h1, h2, if_true, if_false] at h
              cases hr : reduce t sem p (act - t.nState) with
              | panic w => rw [hr] at h; cases h; cases hp'
              | err p1 e => rw [hr] at h; cases h; cases hp'; exact hn _ (by rw [hr]; rfl)
              | ok p1 u => rw [hr] at h; cases h
          · right
            exact ⟨q, tok, by simp [step, hstk, hf, h1, h2, he, overflowRes], hn, hl⟩
        · have h20 : ¬ act < t.unlimited.nState + t.unlimited.nRule := h2
          by_cases h3 : act = t.nState + t.nRule
          · have h30 : act = t.unlimited.nState + t.unlimited.nRule := h3
            have e1 : step t sem p major m = .done (onError t sem p top major m) := by
              simp only [step, hstk, hf, h1, h2, if_false]; rw [if_pos h3]
            have e2 : step t.unlimited sem p major m = .done (onError t.unlimited sem p top major m) := by
              simp only [step, hstk, hf0, h10, h20, if_false]; rw [if_pos h30]
            rcases onError_same (sem := sem) (top := top) (major := major) (m := m) hp with ⟨he, hn⟩ | ⟨q, tok, he, hn, hl⟩
            · left
              refine ⟨by rw [e1, e2, he], ?_, ?_⟩
              · intro p' h; rw [e1] at h; cases h
              · intro r p' h hp'; rw [e1] at h; cases h; exact hn _ hp'
            · right; exact ⟨q, tok, by rw [e1, he], hn, hl⟩
          · have h30 : ¬ act = t.unlimited.nState + t.unlimited.nRule := h3
            left; simp [step, hstk, hf, hf0, h1, h10, h2, h20, h3, h30, Res.parser?]; intro r p' hr hp'; subst hr; cases hp'

/-- The loop compared with the parser without a limit. -/
theorem loop_same {major : Nat} {m : Minor V} : ∀ {fuel : Nat} {p : Parser V X} {r : Res V X E Unit},
    Fits t p → loop t sem major m fuel p = some r →
    (loop t.unlimited sem major m fuel p = some r ∧ ∀ p', r.parser? = some p' → NoOv p p') ∨
    (∃ q tok, r = overflowRes sem q tok ∧ NoOv p q ∧ t.stackLimit ≠ 0 ∧ q.stack.length = t.stackLimit) := by
  intro fuel
  induction fuel with
  | zero => intro p r _ h; simp [loop] at h
  | succ n ih =>
    intro p r hp h
    unfold loop at h ⊢
    cases hs : p.status with
    | failed =>
      simp only [hs, Option.some.injEq] at h; subst h
      left; exact ⟨rfl, fun p' h => by cases h; exact NoOv.refl p⟩
    | accepted v =>
      simp only [hs, Option.some.injEq] at h; subst h
      left; exact ⟨rfl, fun p' h => by cases h; exact NoOv.refl p⟩
    | normal =>
      simp only [hs] at h ⊢
      rcases step_same (sem := sem) (major := major) (m := m) hp with ⟨he, hn1, hn2⟩ | ⟨q, tok, he, hn, hl⟩
      · rw [← he]
        cases hst : step t sem p major m with
        | done r' =>
          simp only [hst, Option.some.injEq] at h; subst h
          left; exact ⟨rfl, fun p' hp' => hn2 _ _ hst hp'⟩
        | again p1 =>
          simp only [hst] at h ⊢
          have h01 := hn1 _ hst
          rcases ih ((step_fits hp).1 _ hst) h with ⟨h1, h2⟩ | ⟨q, tok, h1, h2, h3⟩
          · left; exact ⟨h1, fun p' hp' => h01.trans (h2 p' hp')⟩
          · right; exact ⟨q, tok, h1, h01.trans h2, h3⟩
      · simp only [he, Option.some.injEq] at h; subst h
        right; exact ⟨q, tok, rfl, hn, hl⟩

theorem parseToken_same {p : Parser V X} {major : Nat} {m : Minor V} {fuel : Nat} {r : Res V X E Unit}
    (hp : Fits t p) (h : parseToken t sem fuel p major m = some r) :
    (parseToken t.unlimited sem fuel p major m = some r ∧ ∀ p', r.parser? = some p' → NoOv p p') ∨
    (∃ q tok, r = overflowRes sem { q with status := .failed } tok ∧ NoOv p q ∧ t.stackLimit ≠ 0 ∧
      q.stack.length = t.stackLimit) := by
  unfold parseToken at h ⊢
  cases hs : p.status with
  | failed => simp only [hs, Option.some.injEq] at h; subst h; left; exact ⟨rfl, fun p' h => by cases h⟩
  | accepted v => simp only [hs, Option.some.injEq] at h; subst h; left; exact ⟨rfl, fun p' h => by cases h⟩
  | normal =>
    simp only [hs, Option.map_eq_some_iff] at h ⊢
    obtain ⟨r', hl, hr⟩ := h
    rcases loop_same hp hl with ⟨h1, h2⟩ | ⟨q, tok, rfl, h2, h3⟩
    · left
      refine ⟨⟨r', h1, hr⟩, ?_⟩
      intro p' hp'
      subst hr
      cases r' with
      | err q e => cases hp'; exact (h2 q rfl).trans (NoOv.same rfl)
      | ok q u => cases hp'; exact h2 _ rfl
      | panic w => cases hp'
    · right; subst hr; exact ⟨q, tok, rfl, h2, h3⟩

end Pomelo
