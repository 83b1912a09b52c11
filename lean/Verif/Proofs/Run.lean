import Verif.Spec.Run
/-! # Helper lemmas about the run-time model -/

namespace Pomelo

variable {V X E : Type}

/-- Invariants of the parse loop. -/
theorem loop_inv {t : Tables} {sem : Sem V X E} {major : Nat} {m : Minor V}
    (I : Parser V X → Prop) (Q : Res V X E Unit → Prop)
    (hagain : ∀ p p', I p → p.status = .normal → step t sem p major m = .again p' → I p')
    (hdone : ∀ p r, I p → p.status = .normal → step t sem p major m = .done r → Q r)
    (hend : ∀ p, I p → p.status ≠ .normal → Q (.ok p ())) :
    ∀ fuel p r, I p → loop t sem major m fuel p = some r → Q r := by
  intro fuel
  induction fuel with
  | zero => intro p r _ h; simp [loop] at h
  | succ n ih =>
    intro p r hp h
    unfold loop at h
    cases hs : p.status with
    | normal =>
      simp only [hs] at h
      cases hst : step t sem p major m with
      | done r' => simp only [hst, Option.some.injEq] at h; subst h; exact hdone p _ hp hs hst
      | again p' => simp only [hst] at h; exact ih p' r (hagain p p' hp hs hst) h
    | failed =>
      simp only [hs, Option.some.injEq] at h; subst h; exact hend p hp (by simp [hs])
    | accepted v =>
      simp only [hs, Option.some.injEq] at h; subst h; exact hend p hp (by simp [hs])

/-- Lifts a property of the outcome of the loop to `parseToken`. -/
theorem parseToken_inv {t : Tables} {sem : Sem V X E} {major : Nat} {m : Minor V}
    {fuel : Nat} {p : Parser V X} {r : Res V X E Unit}
    (h : parseToken t sem fuel p major m = some r) :
    (r = .panic .afterFailure ∧ p.status ≠ .normal) ∨
    (p.status = .normal ∧ ∃ r', loop t sem major m fuel p = some r' ∧
      ((∃ p' e, r' = .err p' e ∧ r = .err { p' with status := .failed } e) ∨
       ((∀ p' e, r' ≠ .err p' e) ∧ r = r'))) := by
  unfold parseToken at h
  cases hs : p.status with
  | normal =>
    right
    simp only [hs, Option.map_eq_some_iff] at h
    obtain ⟨r', hr', h⟩ := h
    refine ⟨rfl, r', hr', ?_⟩
    cases r' with
    | err p' e => left; exact ⟨p', e, rfl, h.symm⟩
    | ok p' a => right; exact ⟨by simp, h.symm⟩
    | panic w => right; exact ⟨by simp, h.symm⟩
  | failed => left; simp [hs] at h; exact ⟨h.symm, by simp⟩
  | accepted v => left; simp [hs] at h; exact ⟨h.symm, by simp⟩

/-- `p'` is `p` after the user code named by the new events of the log. -/
def Logged (t : Tables) (sem : Sem V X E) (p p' : Parser V X) : Prop :=
  ∃ evs, p'.trace = evs ++ p.trace ∧ p'.extra = replayAll t sem p.extra evs

theorem Logged.refl (t : Tables) (sem : Sem V X E) (p : Parser V X) : Logged t sem p p :=
  ⟨[], by simp [replayAll]⟩

theorem Logged.trans {t : Tables} {sem : Sem V X E} {p q r : Parser V X}
    (h1 : Logged t sem p q) (h2 : Logged t sem q r) : Logged t sem p r := by
  obtain ⟨e1, ht1, hx1⟩ := h1
  obtain ⟨e2, ht2, hx2⟩ := h2
  refine ⟨e2 ++ e1, by simp [ht2, ht1], ?_⟩
  rw [hx2, hx1]
  simp [replayAll]

theorem Logged.one {t : Tables} {sem : Sem V X E} {p p' : Parser V X} (ev : Event V)
    (h1 : p'.trace = ev :: p.trace) (h2 : p'.extra = replay t sem p.extra ev) :
    Logged t sem p p' := ⟨[ev], by simp [h1], by simp [replayAll, h2]⟩

theorem Logged.same {t : Tables} {sem : Sem V X E} {p p' : Parser V X}
    (h1 : p'.trace = p.trace) (h2 : p'.extra = p.extra) :
    Logged t sem p p' := ⟨[], by simp [h1], by simp [replayAll, h2]⟩

theorem shift_logged {t : Tables} {sem : Sem V X E} {p p' : Parser V X} {s major : Nat} {m : Minor V}
    (h : (shift t sem p s major m).parser? = some p') : Logged t sem p p' := by
  unfold shift at h
  split at h
  · simp only [Res.parser?, Option.some.injEq] at h; subst h
    exact Logged.one (.stackOverflow _) rfl rfl
  · simp only [Res.parser?, Option.some.injEq] at h; subst h
    exact Logged.same rfl rfl

theorem parseFailed_logged {t : Tables} {sem : Sem V X E} {p : Parser V X} :
    Logged t sem p (parseFailed sem p).1 := Logged.one .parseFail rfl rfl

theorem syntaxError_logged {t : Tables} {sem : Sem V X E} {p p' : Parser V X} {major : Nat}
    {m : Minor V} {ex : List Nat}
    (h : (syntaxError t sem p major m ex).parser? = some p') : Logged t sem p p' := by
  unfold syntaxError at h
  simp only at h
  split at h <;> rename_i heq <;>
    (simp only [Res.parser?, Option.some.injEq] at h; subst h
     exact Logged.one (.syntaxError _ ex) rfl (by simp [replay, heq]))

theorem accept_logged {t : Tables} {sem : Sem V X E} {p p' : Parser V X} {m : Minor V}
    (h : (accept t sem p m).parser? = some p') : Logged t sem p p' := by
  unfold accept at h
  split at h
  · split at h
    · simp only [Res.parser?, Option.some.injEq] at h; subst h; exact Logged.same rfl rfl
    · simp [Res.parser?] at h
  · simp only [Res.parser?, Option.some.injEq] at h; subst h; exact Logged.same rfl rfl

theorem reduce_logged {t : Tables} {sem : Sem V X E} {p p' : Parser V X} {r : Nat}
    (h : (reduce t sem p r).parser? = some p') : Logged t sem p p' := by
  unfold reduce at h
  split at h
  · simp [Res.parser?] at h
  · rename_i rc hrc
    have hgetD : t.ruleCode.getD r default = rc := by simp [List.getD, hrc]
    split at h
    · simp [Res.parser?] at h
    · simp only at h
      split at h
      · simp [Res.parser?] at h
      · rename_i vs hvs
        split at h
        · rename_i e x heq
          simp only [Res.parser?, Option.some.injEq] at h; subst h
          exact Logged.one (.reduce r vs) rfl (by simp [replay, heq, hrc])
        · rename_i v x heq
          have hone : ∀ stk, Logged t sem p
              { p with stack := stk, trace := .reduce r vs :: p.trace, extra := x } :=
            fun stk => Logged.one (.reduce r vs) rfl (by simp [replay, heq, hrc])
          split at h
          · simp [Res.parser?] at h
          · split at h
            · simp [Res.parser?] at h
            · split at h
              · simp [Res.parser?] at h
              · split at h
                · exact (hone _).trans (shift_logged h)
                · split at h
                  · exact (hone _).trans (accept_logged h)
                  · simp [Res.parser?] at h

theorem recover_logged {t : Tables} {sem : Sem V X E} {major : Nat} {m : Minor V} {ex : List Nat} :
    ∀ {stk : List (Entry V)} {p p' : Parser V X},
    (recover t sem major m ex stk p).parser? = some p' → Logged t sem p p' := by
  intro stk
  induction stk with
  | nil => intro p p' h; simp only [recover, Res.parser?, Option.some.injEq] at h; subst h; exact Logged.same rfl rfl
  | cons top rest ih =>
    intro p p' h
    unfold recover at h
    split at h
    · simp only [Res.parser?, Option.some.injEq] at h; subst h; exact Logged.same rfl rfl
    · split at h
      · simp [Res.parser?] at h
      · split at h
        · have h0 : Logged t sem p { p with stack := top :: rest } := Logged.same rfl rfl
          split at h
          · simp [Res.parser?] at h
          · rename_i p1 e heq
            simp only [Res.parser?, Option.some.injEq] at h; subst h
            exact h0.trans (syntaxError_logged (by rw [heq]; rfl))
          · rename_i p1 e heq
            exact (h0.trans (syntaxError_logged (by rw [heq]; rfl))).trans (shift_logged h)
        · exact ih h

theorem onError_logged {t : Tables} {sem : Sem V X E} {p p' : Parser V X} {top : Entry V}
    {major : Nat} {m : Minor V}
    (h : (onError t sem p top major m).parser? = some p') : Logged t sem p p' := by
  unfold onError at h
  split at h
  · simp only [Res.parser?, Option.some.injEq] at h; subst h; exact parseFailed_logged
  · split at h
    · simp [Res.parser?] at h
    · split at h
      · split at h
        · simp [Res.parser?] at h
        · rename_i p1 e heq
          simp only [Res.parser?, Option.some.injEq] at h; subst h
          exact recover_logged (by rw [heq]; rfl)
        · rename_i p1 heq
          have h1 : Logged t sem p p1 := recover_logged (by rw [heq]; rfl)
          split at h
          · simp only [Res.parser?, Option.some.injEq] at h; subst h; exact h1.trans parseFailed_logged
          · simp only [Res.parser?, Option.some.injEq] at h; subst h
            exact h1.trans (Logged.one (.discard major) rfl rfl)
      · split at h
        · split at h
          · simp [Res.parser?] at h
          · rename_i p1 e heq
            simp only [Res.parser?, Option.some.injEq] at h; subst h
            exact syntaxError_logged (by rw [heq]; rfl)
          · rename_i p1 e heq
            have h1 : Logged t sem p p1 := syntaxError_logged (by rw [heq]; rfl)
            simp only [Res.parser?, Option.some.injEq] at h; subst h
            exact h1.trans (Logged.one (.discard major) rfl rfl)
        · simp only [Res.parser?, Option.some.injEq] at h; subst h
          exact Logged.one (.discard major) rfl rfl

/-- Case analysis of one iteration. -/
theorem step_cases (t : Tables) (sem : Sem V X E) (p : Parser V X) (major : Nat) (m : Minor V) :
    (∃ w, step t sem p major m = .done (.panic w)) ∨
    (∃ top rest act, p.stack = top :: rest ∧ t.findShift top.state major = .ok act ∧
      ((act < t.nState ∧ major ≠ 0 ∧
          ((∃ p1 e, shift t sem p act major m = .err p1 e ∧ step t sem p major m = .done (.err p1 e)) ∨
           (∃ p1, shift t sem p act major m = .ok p1 () ∧ step t sem p major m =
              .done (.ok { p1 with errorCount := p1.errorCount - 1, trace := .shift major :: p1.trace } ())))) ∨
       (t.nState ≤ act ∧ act < t.nState + t.nRule ∧
          ((∃ p1 e, reduce t sem p (act - t.nState) = .err p1 e ∧ step t sem p major m = .done (.err p1 e)) ∨
           (∃ p1, reduce t sem p (act - t.nState) = .ok p1 () ∧ step t sem p major m = .again p1))) ∨
       (act = t.nState + t.nRule ∧ step t sem p major m = .done (onError t sem p top major m)))) := by
  cases hstk : p.stack with
  | nil => left; exact ⟨.emptyStack, by simp [step, hstk]⟩
  | cons top rest =>
    cases hf : t.findShift top.state major with
    | error w => left; exact ⟨w, by simp [step, hstk, hf]⟩
    | ok act =>
      by_cases h1 : act < t.nState
      · by_cases h0 : major = 0
        · left; exact ⟨.shiftEnd, by subst h0; simp [step, hstk, hf, h1]⟩
        · cases hsh : shift t sem p act major m with
          | panic w => left; exact ⟨w, by simp [step, hstk, hf, h1, h0, hsh]⟩
          | err p1 e =>
            right; refine ⟨top, rest, act, rfl, hf, .inl ⟨h1, h0, .inl ⟨p1, e, hsh, ?_⟩⟩⟩
            simp [step, hstk, hf, h1, h0, hsh]
          | ok p1 u =>
            right; refine ⟨top, rest, act, rfl, hf, .inl ⟨h1, h0, .inr ⟨p1, hsh, ?_⟩⟩⟩
            simp [step, hstk, hf, h1, h0, hsh]
      · by_cases h2 : act < t.nState + t.nRule
        · cases hr : reduce t sem p (act - t.nState) with
          | panic w => left; exact ⟨w, by simp [step, hstk, hf, h1, h2, hr]⟩
          | err p1 e =>
            right; refine ⟨top, rest, act, rfl, hf, .inr (.inl ⟨by omega, h2, .inl ⟨p1, e, hr, ?_⟩⟩)⟩
            simp [step, hstk, hf, h1, h2, hr]
          | ok p1 u =>
            right; refine ⟨top, rest, act, rfl, hf, .inr (.inl ⟨by omega, h2, .inr ⟨p1, hr, ?_⟩⟩)⟩
            simp [step, hstk, hf, h1, h2, hr]
        · by_cases h3 : act = t.nState + t.nRule
          · right; refine ⟨top, rest, act, rfl, hf, .inr (.inr ⟨h3, ?_⟩)⟩
            subst h3
            simp [step, hstk, hf]
            intro h; omega
          · left; exact ⟨.badAction, by simp [step, hstk, hf, h1, h2, h3]⟩

theorem step_logged {t : Tables} {sem : Sem V X E} {p : Parser V X} {major : Nat} {m : Minor V} :
    (∀ p', step t sem p major m = .again p' → Logged t sem p p') ∧
    (∀ r p', step t sem p major m = .done r → r.parser? = some p' → Logged t sem p p') := by
  rcases step_cases t sem p major m with ⟨w, h⟩ | ⟨top, rest, act, _, _, h⟩
  · rw [h]; refine ⟨by simp, ?_⟩
    intro r p' hr hp; cases hr; simp [Res.parser?] at hp
  · rcases h with ⟨_, _, h⟩ | ⟨_, _, h⟩ | ⟨_, h⟩
    · rcases h with ⟨p1, e, h1, h⟩ | ⟨p1, h1, h⟩
      · rw [h]; refine ⟨by simp, ?_⟩
        intro r p' hr hp; cases hr
        exact shift_logged (by rw [h1]; exact hp)
      · rw [h]; refine ⟨by simp, ?_⟩
        intro r p' hr hp; cases hr
        simp only [Res.parser?, Option.some.injEq] at hp; subst hp
        exact (shift_logged (by rw [h1]; rfl)).trans (Logged.one (.shift major) rfl rfl)
    · rcases h with ⟨p1, e, h1, h⟩ | ⟨p1, h1, h⟩
      · rw [h]; refine ⟨by simp, ?_⟩
        intro r p' hr hp; cases hr
        exact reduce_logged (by rw [h1]; exact hp)
      · rw [h]; refine ⟨?_, by simp⟩
        intro p' hr; cases hr
        exact reduce_logged (by rw [h1]; rfl)
    · rw [h]; refine ⟨by simp, ?_⟩
      intro r p' hr hp; cases hr
      exact onError_logged hp

theorem loop_logged {t : Tables} {sem : Sem V X E} {major : Nat} {m : Minor V} {fuel : Nat}
    {p p' : Parser V X} {r : Res V X E Unit}
    (h : loop t sem major m fuel p = some r) (h2 : r.parser? = some p') : Logged t sem p p' := by
  refine loop_inv (t := t) (sem := sem) (major := major) (m := m) (fun q => Logged t sem p q)
    (fun r => ∀ p', r.parser? = some p' → Logged t sem p p') ?_ ?_ ?_ fuel p r (Logged.refl _ _ _) h p' h2
  · intro q q' hq _ hs; exact hq.trans (step_logged.1 _ hs)
  · intro q r hq _ hs p' hp'; exact hq.trans (step_logged.2 _ _ hs hp')
  · intro q hq _ p' hp'; simp only [Res.parser?, Option.some.injEq] at hp'; subst hp'; exact hq

theorem parseToken_logged {t : Tables} {sem : Sem V X E} {major : Nat} {m : Minor V} {fuel : Nat}
    {p p' : Parser V X} {r : Res V X E Unit}
    (h : parseToken t sem fuel p major m = some r) (h2 : r.parser? = some p') : Logged t sem p p' := by
  rcases parseToken_inv h with ⟨rfl, _⟩ | ⟨_, r', hl, hr⟩
  · simp [Res.parser?] at h2
  · rcases hr with ⟨p1, e, rfl, rfl⟩ | ⟨_, rfl⟩
    · have := loop_logged hl (p' := p1) rfl
      simp only [Res.parser?, Option.some.injEq] at h2; subst h2
      exact this.trans (Logged.same rfl rfl)
    · exact loop_logged hl h2

end Pomelo
