import Verif.Proofs.RunOverflow
/-! # Syntax errors: what is logged, muting, the token shown to the user -/

namespace Pomelo

variable {V X E : Type} {t : Tables} {sem : Sem V X E}

/-! ## Shape of the log -/

theorem shift_events {p p' : Parser V X} {s major : Nat} {m : Minor V}
    (h : (shift t sem p s major m).parser? = some p') :
    p'.errorCount = p.errorCount ∧ p'.status = p.status ∧
    ((shift t sem p s major m = .ok p' () ∧ p'.trace = p.trace ∧ p'.stack = ⟨s, major, m⟩ :: p.stack) ∨
     (p'.trace = .stackOverflow (t.tokenBuild sem major m) :: p.trace ∧ p'.stack = p.stack ∧
      ∃ e, shift t sem p s major m = .err p' e)) := by
  rcases shift_cases t sem p s major m with ⟨_, _, h'⟩ | ⟨_, h'⟩
  · rw [h'] at h; cases h; exact ⟨rfl, rfl, .inr ⟨rfl, rfl, _, h'⟩⟩
  · rw [h'] at h; cases h; exact ⟨rfl, rfl, .inl ⟨h', rfl, rfl⟩⟩

theorem reduce_events {p p' : Parser V X} {r : Nat}
    (h : (reduce t sem p r).parser? = some p') :
    p'.errorCount = p.errorCount ∧ ∃ vs,
    (p'.trace = .reduce r vs :: p.trace ∨
     (∃ lhs m e, t.ruleInfo[r]? = some lhs ∧ reduce t sem p r = .err p' e ∧
       p'.trace = .stackOverflow (t.tokenBuild sem lhs m) :: .reduce r vs :: p.trace)) := by
  rcases reduce_cases t sem p r with ⟨w, h'⟩ | ⟨rc, vs, _, _, _, h'⟩
  · rw [h'] at h; cases h
  · rcases h' with ⟨e, x, _, h'⟩ | ⟨v, x, lhs, top, rest, act, _, hl, hd, _, h'⟩
    · rw [h'] at h; cases h; exact ⟨rfl, vs, .inl rfl⟩
    · rcases h' with ⟨_, h'⟩ | ⟨_, _, h'⟩
      · rw [h'] at h
        obtain ⟨h1, _, h2⟩ := shift_events h
        rcases h2 with ⟨_, h2, _⟩ | ⟨h2, _, e, h3⟩
        · exact ⟨h1, vs, .inl h2⟩
        · exact ⟨h1, vs, .inr ⟨lhs, _, e, hl, by rw [h']; exact h3, h2⟩⟩
      · rw [h'] at h
        rcases accept_cases t sem _ ⟨rc.lhsDt, v⟩ with h'' | ⟨v', h''⟩ <;> (rw [h''] at h; cases h)
        exact ⟨rfl, vs, .inl rfl⟩

/-! ## Muting without the error symbol -/

theorem Muted.nil : Muted ([] : List (Event V)) := by
  intro l1 tok ex l2 h; simp at h

theorem Muted.cons {e : Event V} {l : List (Event V)} (h : Muted l)
    (he : ∀ tok ex, e = .syntaxError tok ex → ∀ n, shiftsSinceError l = some n → 3 ≤ n) :
    Muted (e :: l) := by
  intro l1 tok ex l2 hl n hn
  cases l1 with
  | nil => simp at hl; obtain ⟨rfl, rfl⟩ := hl; exact he _ _ rfl n hn
  | cons a l1 => simp at hl; exact h l1 tok ex l2 hl.2 n hn

/-- Number of tokens still to be shifted before `%syntax_error` runs again -/
def muteCount (l : List (Event V)) : Nat :=
  match shiftsSinceError l with
  | none => 0
  | some n => 3 - n

/-- Invariant: the counter is what the log says, and the log is muted. -/
def MuteInv (p : Parser V X) : Prop := p.errorCount = muteCount p.trace ∧ Muted p.trace

theorem reduce_mute {p p' : Parser V X} {r : Nat} (hp : MuteInv p)
    (h : (reduce t sem p r).parser? = some p') : MuteInv p' := by
  obtain ⟨h1, vs, h2⟩ := reduce_events h
  rcases h2 with h2 | ⟨lhs, m, _, _, _, h2⟩
  · refine ⟨?_, ?_⟩
    · rw [h1, h2, hp.1]; rfl
    · rw [h2]; exact hp.2.cons (by intro _ _ h; cases h)
  · refine ⟨?_, ?_⟩
    · rw [h1, h2, hp.1]; rfl
    · rw [h2]; exact (hp.2.cons (by intro _ _ h; cases h)).cons (by intro _ _ h; cases h)

theorem shift_mute {p p' : Parser V X} {s major : Nat} {m : Minor V} (hp : MuteInv p)
    (h : (shift t sem p s major m).parser? = some p') : MuteInv p' := by
  obtain ⟨h1, _, h2⟩ := shift_events h
  rcases h2 with ⟨_, h2, _⟩ | ⟨h2, _⟩
  · exact ⟨by rw [h1, h2, hp.1], by rw [h2]; exact hp.2⟩
  · refine ⟨by rw [h1, h2, hp.1]; rfl, by rw [h2]; exact hp.2.cons (by intro _ _ h; cases h)⟩

theorem syntaxError_mute {p p' : Parser V X} {major : Nat} {m : Minor V} {ex : List Nat} (hp : MuteInv p)
    (h0 : p.errorCount = 0)
    (h : (syntaxError t sem p major m ex).parser? = some p') : MuteInv p' := by
  obtain ⟨_, h1, _, h2⟩ := syntaxError_stack h
  refine ⟨by rw [h1, h2, hp.1]; rfl, ?_⟩
  rw [h2]; refine hp.2.cons ?_
  intro _ _ _ n hn
  have := hp.1
  rw [h0] at this; unfold muteCount at this; rw [hn] at this
  simp only at this; omega

theorem discard_mute {p : Parser V X} (hp : MuteInv p) (major : Nat) :
    MuteInv { p with errorCount := 3, trace := .discard major :: p.trace } :=
  ⟨rfl, hp.2.cons (by intro _ _ h; cases h)⟩

theorem parseFailed_mute {p : Parser V X} (hp : MuteInv p) : MuteInv (parseFailed sem p).1 :=
  ⟨hp.1, hp.2.cons (by intro _ _ h; cases h)⟩

theorem onError_mute {p p' : Parser V X} {top : Entry V} {major : Nat} {m : Minor V}
    (h0 : t.errorSymbol = 0) (hp : MuteInv p)
    (h : (onError t sem p top major m).parser? = some p') : MuteInv p' := by
  rcases onError_cases t sem p top major m with ⟨w, h', _⟩ | ⟨_, h'⟩ | ⟨ex, _, _, h'⟩
  · rw [h'] at h; cases h
  · rw [h'] at h; cases h; exact parseFailed_mute hp
  · rcases h' with ⟨h1, _⟩ | ⟨_, hc, h'⟩ | ⟨_, hc, h'⟩
    · exact absurd h0 h1
    · rcases h' with ⟨p1, e, hs, h'⟩ | ⟨p1, v, hs, h'⟩
      · rw [h'] at h; cases h
        exact syntaxError_mute (sem := sem) hp hc (by rw [hs]; rfl)
      · rw [h'] at h; cases h
        exact discard_mute (syntaxError_mute (sem := sem) hp hc (by rw [hs]; rfl)) major
    · rw [h'] at h; cases h; exact discard_mute hp major

theorem step_mute {p : Parser V X} {major : Nat} {m : Minor V} (h0 : t.errorSymbol = 0) (hp : MuteInv p) :
    (∀ p', step t sem p major m = .again p' → MuteInv p') ∧
    (∀ r p', step t sem p major m = .done r → r.parser? = some p' → MuteInv p') := by
  rcases step_cases t sem p major m with ⟨w, h⟩ | ⟨top, rest, act, _, _, h⟩
  · rw [h]; refine ⟨by simp, ?_⟩
    intro r p' hr hp; cases hr; simp [Res.parser?] at hp
  · rcases h with ⟨_, _, h⟩ | ⟨_, _, h⟩ | ⟨_, h⟩
    · rcases h with ⟨p1, e, h1, h⟩ | ⟨p1, h1, h⟩
      · rw [h]; refine ⟨by simp, ?_⟩
        intro r p' hr hp'; cases hr
        exact shift_mute hp (by rw [h1]; exact hp')
      · rw [h]; refine ⟨by simp, ?_⟩
        intro r p' hr hp'; cases hr; cases hp'
        obtain ⟨hc, hm⟩ : MuteInv p1 := shift_mute (sem := sem) hp (by rw [h1]; rfl)
        refine ⟨?_, hm.cons (by intro _ _ h; cases h)⟩
        show p1.errorCount - 1 = muteCount (.shift major :: p1.trace)
        rw [hc]; unfold muteCount
        simp only [shiftsSinceError]
        cases shiftsSinceError p1.trace with
        | none => rfl
        | some n => simp only [Option.map_some]; omega
    · rcases h with ⟨p1, e, h1, h⟩ | ⟨p1, h1, h⟩
      · rw [h]; refine ⟨by simp, ?_⟩
        intro r p' hr hp'; cases hr
        exact reduce_mute hp (by rw [h1]; exact hp')
      · rw [h]; refine ⟨?_, by simp⟩
        intro p' hr; cases hr
        exact reduce_mute hp (by rw [h1]; rfl)
    · rw [h]; refine ⟨by simp, ?_⟩
      intro r p' hr hp'; cases hr
      exact onError_mute h0 hp hp'

/-- Lifts an invariant of iterations to calls. -/
theorem parseToken_lift {I : Parser V X → Prop} {major : Nat} {m : Minor V}
    (hfail : ∀ p, I p → I { p with status := .failed })
    (hstep : ∀ p, I p →
      (∀ p', step t sem p major m = .again p' → I p') ∧
      (∀ r p', step t sem p major m = .done r → r.parser? = some p' → I p'))
    {p p' : Parser V X} {fuel : Nat} {r : Res V X E Unit} (hp : I p)
    (h : parseToken t sem fuel p major m = some r) (h2 : r.parser? = some p') : I p' := by
  rcases parseToken_inv h with ⟨rfl, _⟩ | ⟨_, r', hl, hr⟩
  · simp [Res.parser?] at h2
  · have key : ∀ p', r'.parser? = some p' → I p' :=
      loop_inv (t := t) (sem := sem) (major := major) (m := m) I
        (fun r => ∀ p', r.parser? = some p' → I p')
        (fun q q' hq _ hs => (hstep q hq).1 _ hs)
        (fun q r hq _ hs p' hp' => (hstep q hq).2 _ _ hs hp')
        (fun q hq _ p' hp' => by cases hp'; exact hq) fuel p r' hp hl
    rcases hr with ⟨p1, e, rfl, rfl⟩ | ⟨_, rfl⟩
    · cases h2; exact hfail _ (key p1 rfl)
    · exact key p' h2

theorem reach_mute {p : Parser V X} (h0 : t.errorSymbol = 0) (h : Reach t sem p) : MuteInv p := by
  induction h with
  | new x => exact ⟨rfl, Muted.nil⟩
  | parse _ _ h1 h2 ih =>
    exact parseToken_lift (fun _ h => h) (fun _ hp => step_mute h0 hp) ih h1 h2
  | extra x _ ih => exact ih

/-! ## Separation of error reports with the error symbol -/

/-- The newest shift, reduction or run of `%syntax_error` is a run of `%syntax_error`. -/
def quiet : List (Event V) → Bool
  | [] => false
  | .syntaxError _ _ :: _ => true
  | .shift _ :: _ => false
  | .reduce _ _ :: _ => false
  | _ :: l => quiet l

theorem quiet_of_split {mid : List (Event V)} {t2 : Option (Tok V)} {e2 : List Nat} {l2 : List (Event V)}
    (h : ∀ e ∈ mid, Event.isProgress e = false) :
    quiet (mid ++ .syntaxError t2 e2 :: l2) = true := by
  induction mid with
  | nil => rfl
  | cons a mid ih =>
    have ha := h a (by simp)
    have ih := ih (fun e he => h e (by simp [he]))
    cases a <;> simp_all [quiet, Event.isProgress]

theorem Separated.nil : Separated ([] : List (Event V)) := by
  intro l1 t1 e1 mid t2 e2 l2 h; simp at h

theorem Separated.cons {e : Event V} {l : List (Event V)} (h : Separated l)
    (he : ∀ tok ex, e = .syntaxError tok ex → quiet l = false) : Separated (e :: l) := by
  intro l1 t1 e1 mid t2 e2 l2 hl
  cases l1 with
  | nil =>
    simp only [List.nil_append, List.cons.injEq] at hl
    obtain ⟨rfl, rfl⟩ := hl
    have hq := he _ _ rfl
    apply Classical.byContradiction
    intro hno
    have := quiet_of_split (t2 := t2) (e2 := e2) (l2 := l2) (mid := mid) (by
      intro e he
      cases hp : e.isProgress with
      | false => rfl
      | true => exact absurd ⟨e, he, hp⟩ hno)
    rw [this] at hq; cases hq
  | cons a l1 =>
    simp only [List.cons_append, List.cons.injEq] at hl
    exact h l1 t1 e1 mid t2 e2 l2 hl.2

/-- The top of the stack is the error symbol -/
def TopIsError (t : Tables) (p : Parser V X) : Prop :=
  ∃ top rest, p.stack = top :: rest ∧ top.major = t.errorSymbol

/-- Invariant -/
def SepInv (t : Tables) (p : Parser V X) : Prop :=
  Separated p.trace ∧ (p.status = .normal → quiet p.trace = true → TopIsError t p)

theorem reduce_sep {p p' : Parser V X} {r : Nat} (hp : SepInv t p)
    (h : (reduce t sem p r).parser? = some p') : SepInv t p' := by
  obtain ⟨h1, vs, h2⟩ := reduce_events h
  rcases h2 with h2 | ⟨lhs, m, _, _, _, h2⟩
  · refine ⟨by rw [h2]; exact hp.1.cons (by intro _ _ h; cases h), ?_⟩
    rw [h2]; intro _ hq; simp [quiet] at hq
  · refine ⟨by rw [h2]; exact (hp.1.cons (by intro _ _ h; cases h)).cons (by intro _ _ h; cases h), ?_⟩
    rw [h2]; intro _ hq; simp [quiet] at hq

theorem onError_sep {p p' : Parser V X} {top : Entry V} {major : Nat} {m : Minor V}
    {r : Res V X E Unit}
    (h0 : t.errorSymbol ≠ 0) (hp : SepInv t p) (hn : p.status = .normal)
    (h : onError t sem p top major m = r) (hp' : r.parser? = some p') :
    Separated p'.trace ∧ (r = .ok p' () → quiet p'.trace = true → TopIsError t p') := by
  rcases onError_cases t sem p top major m with ⟨w, h', _⟩ | ⟨_, h'⟩ | ⟨ex, _, _, h'⟩
  · rw [h'] at h; subst h; cases hp'
  · rw [h'] at h; subst h; cases hp'
    exact ⟨hp.1.cons (by intro _ _ h; cases h), by intro h; cases h⟩
  · rcases h' with ⟨_, h'⟩ | ⟨h1, _, _⟩ | ⟨h1, _, _⟩
    · -- what the recovery does to the log
      have hrec : ∀ r1 p1, recover t sem major m ex p.stack p = r1 → r1.parser? = some p1 →
          Separated p1.trace ∧ (r1 = .ok p1 () → quiet p1.trace = true → p1.stack = [] ∨ TopIsError t p1) := by
        intro r1 p1 hr1 hp1
        rcases recover_cases t sem major m ex p.stack p with ⟨w, h''⟩ | ⟨popped, rst, hr, hpop, h''⟩
        · rw [h''] at hr1; subst hr1; cases hp1
        · rcases h'' with ⟨_, h''⟩ | ⟨tp, rest', hrest, h''⟩
          · rw [h''] at hr1; subst hr1; cases hp1; exact ⟨hp.1, fun _ _ => .inl rfl⟩
          · rcases h'' with ⟨htp, h''⟩ | ⟨htp, act, _, _, h''⟩
            · rw [h''] at hr1; subst hr1; cases hp1
              exact ⟨hp.1, fun _ _ => .inr ⟨tp, rest', hrest, htp⟩⟩
            · -- the error symbol is shifted: the log cannot be quiet
              have hq : quiet p.trace = false := by
                cases hq : quiet p.trace with
                | false => rfl
                | true =>
                  obtain ⟨tp', rs', hs', hm'⟩ := hp.2 hn hq
                  cases popped with
                  | nil =>
                    simp only [List.nil_append] at hr
                    rw [hrest, hs'] at hr; cases hr; exact absurd hm' htp
                  | cons a b =>
                    rw [hs'] at hr; cases hr
                    exact absurd hm' (hpop tp' (by simp)).1
              rcases h'' with ⟨p2, e, hs, h''⟩ | ⟨p2, e, hs, h''⟩
              · obtain ⟨_, _, _, htr⟩ := syntaxError_stack (sem := sem) (p' := p2) (by rw [hs]; rfl)
                rw [h''] at hr1; subst hr1; cases hp1
                exact ⟨by rw [htr]; exact hp.1.cons (fun _ _ _ => hq), by intro h; cases h⟩
              · obtain ⟨hst2, _, _, htr⟩ := syntaxError_stack (sem := sem) (p' := p2) (by rw [hs]; rfl)
                rw [h''] at hr1
                subst hr1
                obtain ⟨_, _, h3⟩ := shift_events hp1
                have hsep : Separated p2.trace := by rw [htr]; exact hp.1.cons (fun _ _ _ => hq)
                rcases h3 with ⟨_, h3, h4⟩ | ⟨h3, _, e', h4⟩
                · exact ⟨by rw [h3]; exact hsep, fun _ _ => .inr ⟨_, _, h4, rfl⟩⟩
                · refine ⟨by rw [h3]; exact hsep.cons (by intro _ _ h; cases h), ?_⟩
                  intro h; rw [h4] at h; cases h
      rcases h' with ⟨p1, e, hr, h'⟩ | ⟨p1, hr, hs, h'⟩ | ⟨p1, hr, hs, h'⟩
      · rw [h'] at h; subst h; cases hp'
        exact ⟨(hrec _ p' hr rfl).1, by intro h; cases h⟩
      · rw [h'] at h; subst h; cases hp'
        exact ⟨(hrec _ p1 hr rfl).1.cons (by intro _ _ h; cases h), by intro h; cases h⟩
      · rw [h'] at h; subst h; cases hp'
        obtain ⟨h1, h2⟩ := hrec _ p1 hr rfl
        refine ⟨h1.cons (by intro _ _ h; cases h), ?_⟩
        intro _ hq
        rcases h2 rfl hq with h2 | h2
        · exact absurd h2 hs
        · exact h2
    · exact absurd h1 h0
    · exact absurd h1 h0

theorem step_sep {p : Parser V X} {major : Nat} {m : Minor V} (h0 : t.errorSymbol ≠ 0)
    (hn : p.status = .normal) (hp : SepInv t p) :
    (∀ p', step t sem p major m = .again p' → SepInv t p') ∧
    (∀ r p', step t sem p major m = .done r → r.parser? = some p' →
      Separated p'.trace ∧ (r = .ok p' () → quiet p'.trace = true → TopIsError t p')) := by
  rcases step_cases t sem p major m with ⟨w, h⟩ | ⟨top, rest, act, hstk, _, h⟩
  · rw [h]; refine ⟨by simp, ?_⟩
    intro r p' hr hp; cases hr; simp [Res.parser?] at hp
  · rcases h with ⟨_, _, h⟩ | ⟨_, _, h⟩ | ⟨_, h⟩
    · rcases h with ⟨p1, e, h1, h⟩ | ⟨p1, h1, h⟩
      · rw [h]; refine ⟨by simp, ?_⟩
        intro r p' hr hp'; cases hr
        have hpp : p1 = p' := by cases hp'; rfl
        subst hpp
        obtain ⟨_, _, h2⟩ := shift_events (t := t) (sem := sem) (p := p) (p' := p1) (s := act) (major := major) (m := m) (by rw [h1]; rfl)
        rcases h2 with ⟨h2, _⟩ | ⟨h2, _⟩
        · rw [h1] at h2; cases h2
        · exact ⟨by rw [h2]; exact hp.1.cons (by intro _ _ h; cases h), by intro h; cases h⟩
      · rw [h]; refine ⟨by simp, ?_⟩
        intro r p' hr hp'; cases hr; cases hp'
        obtain ⟨_, _, h2⟩ := shift_events (t := t) (sem := sem) (p := p) (p' := p1) (s := act) (major := major) (m := m) (by rw [h1]; rfl)
        rcases h2 with ⟨_, h2, _⟩ | ⟨_, _, _, h2⟩
        · refine ⟨?_, ?_⟩
          · show Separated (.shift major :: p1.trace)
            rw [h2]; exact hp.1.cons (by intro _ _ h; cases h)
          · intro _ hq; simp [quiet] at hq
        · rw [h1] at h2; cases h2
    · rcases h with ⟨p1, e, h1, h⟩ | ⟨p1, h1, h⟩
      · rw [h]; refine ⟨by simp, ?_⟩
        intro r p' hr hp'; cases hr; cases hp'
        exact ⟨(reduce_sep (sem := sem) hp (by rw [h1]; rfl)).1, by intro h; cases h⟩
      · rw [h]; refine ⟨?_, by simp⟩
        intro p' hr; cases hr
        exact reduce_sep hp (by rw [h1]; rfl)
    · rw [h]; refine ⟨by simp, ?_⟩
      intro r p' hr hp'; cases hr
      exact onError_sep h0 hp hn rfl hp'

theorem parseToken_sep {p p' : Parser V X} {major : Nat} {m : Minor V} {fuel : Nat} {r : Res V X E Unit}
    (h0 : t.errorSymbol ≠ 0) (hp : SepInv t p)
    (h : parseToken t sem fuel p major m = some r) (h2 : r.parser? = some p') : SepInv t p' := by
  rcases parseToken_inv h with ⟨rfl, _⟩ | ⟨hn, r', hl, hr⟩
  · simp [Res.parser?] at h2
  · have key : ∀ p', r'.parser? = some p' →
        Separated p'.trace ∧ (r' = .ok p' () → p'.status = .normal → quiet p'.trace = true → TopIsError t p') :=
      loop_inv (t := t) (sem := sem) (major := major) (m := m) (SepInv t)
        (fun r => ∀ p', r.parser? = some p' →
          Separated p'.trace ∧ (r = .ok p' () → p'.status = .normal → quiet p'.trace = true → TopIsError t p'))
        (fun q q' hq hs hst => (step_sep h0 hs hq).1 _ hst)
        (fun q r hq hs hst p' hp' => by
          have := (step_sep h0 hs hq).2 _ _ hst hp'
          exact ⟨this.1, fun h _ => this.2 h⟩)
        (fun q hq hs p' hp' => by cases hp'; exact ⟨hq.1, fun _ h => absurd h hs⟩) fuel p r' hp hl
    rcases hr with ⟨p1, e, rfl, rfl⟩ | ⟨hne, rfl⟩
    · cases h2; exact ⟨(key p1 rfl).1, by intro h; cases h⟩
    · have := key p' h2
      refine ⟨this.1, ?_⟩
      cases r with
      | err p1 e => exact absurd rfl (hne p1 e)
      | panic w => cases h2
      | ok p1 u => cases h2; exact this.2 rfl

theorem reach_sep {p : Parser V X} (h0 : t.errorSymbol ≠ 0) (h : Reach t sem p) : SepInv t p := by
  induction h with
  | new x => exact ⟨Separated.nil, by intro _ h; cases h⟩
  | parse _ _ h1 h2 ih => exact parseToken_sep h0 ih h1 h2
  | extra x _ ih => exact ih

/-! ## Expected tokens -/

theorem filterM_except {α ε : Type} (f : α → Except ε Bool) :
    ∀ (l l' : List α), l.filterM f = .ok l' →
      (∀ a ∈ l, ∃ b, f a = .ok b) ∧ l' = l.filter (fun a => match f a with | .ok b => b | .error _ => false) := by
  suffices H : ∀ (l acc l' : List α), List.filterAuxM f l acc = .ok l' →
      (∀ a ∈ l, ∃ b, f a = .ok b) ∧
      l' = (l.filter (fun a => match f a with | .ok b => b | .error _ => false)).reverse ++ acc by
    intro l l' h
    unfold List.filterM at h
    cases hx : List.filterAuxM f l [] with
    | error e => rw [hx] at h; cases h
    | ok l1 =>
      rw [hx] at h
      cases h
      obtain ⟨h1, h2⟩ := H _ _ _ hx
      exact ⟨h1, by simp [h2]⟩
  intro l
  induction l with
  | nil => intro acc l' h; cases h; simp
  | cons a l ih =>
    intro acc l' h
    unfold List.filterAuxM at h
    cases hx : f a with
    | error e => rw [hx] at h; cases h
    | ok b =>
      rw [hx] at h
      have h' : List.filterAuxM f l (cond b (a :: acc) acc) = .ok l' := h
      obtain ⟨h1, h2⟩ := ih _ _ h'
      refine ⟨?_, ?_⟩
      · intro c hc
        rcases List.mem_cons.1 hc with rfl | hc
        · exact ⟨b, hx⟩
        · exact h1 c hc
      · rw [h2]; cases b <;> simp [hx]

theorem expected_spec {s : Nat} {ex : List Nat} (h : t.expected s = .ok ex) :
    ex.Pairwise (· < ·) ∧
    ∀ la, la ∈ ex ↔ (0 < la ∧ la < t.numTerminals ∧ ∃ a, t.findShift s la = .ok a ∧ a < t.nState + t.nRule) := by
  obtain ⟨h1, h2⟩ := filterM_except _ _ _ h
  constructor
  · rw [h2]
    refine List.Pairwise.filter _ ?_
    exact List.Pairwise.sublist (List.drop_sublist _ _) List.pairwise_lt_range
  · intro la
    rw [h2, List.mem_filter]
    have hmem : la ∈ (List.range t.numTerminals).drop 1 ↔ 0 < la ∧ la < t.numTerminals := by
      rw [List.mem_drop_iff_getElem]
      simp only [List.length_range, List.getElem_range]
      constructor
      · rintro ⟨i, hi, rfl⟩; omega
      · rintro ⟨h1, h2⟩; exact ⟨la - 1, by omega, by omega⟩
    rw [hmem, and_assoc]
    cases hf : t.findShift s la with
    | error w => simp [Except.map]
    | ok a => simp [Except.map]

/-! ## The token shown to the user -/

theorem tokenBuild_tokenValue {tok : Tok V} (hv : tok.Valid t sem) :
    t.tokenBuild sem tok.major (t.tokenValue sem tok).2 = some tok := by
  obtain ⟨h1, h2, h3⟩ := hv
  unfold Tables.tokenBuild Tables.tokenValue
  simp only [h1, h2, and_self, if_true]
  by_cases h : t.tokenDt.getD tok.major 0 = 0
  · simp [← h3 h]
  · rw [if_neg h, if_neg h]

theorem tokenBuild_none {i : Nat} (m : Minor V) (h : t.numTerminals ≤ i) : t.tokenBuild sem i m = none := by
  unfold Tables.tokenBuild; rw [if_neg]; omega

/-- Nonterminals have indices above those of the tokens. -/
structure LhsOk (t : Tables) : Prop where
  rules : ∀ (r lhs : Nat), t.ruleInfo[r]? = some lhs → t.numTerminals ≤ lhs
  error : t.errorSymbol ≠ 0 → t.numTerminals ≤ t.errorSymbol

/-- An event shows the given token, if it shows one. -/
def Shows (tok : Option (Tok V)) : Event V → Prop
  | .syntaxError tk _ => tk = tok
  | .stackOverflow tk => tk = tok ∨ tk = none
  | .discard a => tok.map (·.major) = some a
  | .shift a => tok.map (·.major) = some a
  | _ => True

/-- All new events show the token -/
def NewShow (tok : Option (Tok V)) (p q : Parser V X) : Prop :=
  ∃ evs, q.trace = evs ++ p.trace ∧ ∀ e ∈ evs, Shows tok e

theorem NewShow.refl (tok : Option (Tok V)) (p : Parser V X) : NewShow tok p p := ⟨[], by simp⟩

theorem NewShow.cons {tok : Option (Tok V)} {p q : Parser V X} {r : Parser V X} (h : NewShow tok p q)
    (e : Event V) (h2 : r.trace = e :: q.trace) (he : Shows tok e) : NewShow tok p r := by
  obtain ⟨evs, h1, h3⟩ := h
  refine ⟨e :: evs, by rw [h2, h1]; rfl, ?_⟩
  intro e' he'
  rcases List.mem_cons.1 he' with rfl | he'
  · exact he
  · exact h3 _ he'

theorem NewShow.same {tok : Option (Tok V)} {p q : Parser V X} {r : Parser V X} (h : NewShow tok p q)
    (h2 : r.trace = q.trace) : NewShow tok p r := by
  obtain ⟨evs, h1, h3⟩ := h
  exact ⟨evs, by rw [h2, h1], h3⟩

theorem reduce_shows {tok : Option (Tok V)} {p0 p p' : Parser V X} {r : Nat} (hl : LhsOk t)
    (hp : NewShow tok p0 p) (h : (reduce t sem p r).parser? = some p') : NewShow tok p0 p' := by
  obtain ⟨_, vs, h2⟩ := reduce_events h
  rcases h2 with h2 | ⟨lhs, m, _, hlhs, _, h2⟩
  · exact hp.cons _ h2 trivial
  · rw [tokenBuild_none m (hl.rules _ _ hlhs)] at h2
    refine (hp.cons (r := { p with trace := .reduce r vs :: p.trace }) (.reduce r vs) rfl trivial).cons _ h2 ?_
    exact .inr rfl

theorem shift_shows {tok : Option (Tok V)} {p0 p p' : Parser V X} {s major : Nat} {m : Minor V}
    (ht : t.tokenBuild sem major m = tok ∨ t.tokenBuild sem major m = none)
    (hp : NewShow tok p0 p) (h : (shift t sem p s major m).parser? = some p') : NewShow tok p0 p' := by
  obtain ⟨_, _, h2⟩ := shift_events h
  rcases h2 with ⟨_, h2, _⟩ | ⟨h2, _⟩
  · exact hp.same h2
  · exact hp.cons _ h2 ht

theorem syntaxError_shows {tok : Option (Tok V)} {p0 p p' : Parser V X} {major : Nat} {m : Minor V} {ex : List Nat}
    (ht : t.tokenBuild sem major m = tok)
    (hp : NewShow tok p0 p) (h : (syntaxError t sem p major m ex).parser? = some p') : NewShow tok p0 p' := by
  obtain ⟨_, _, _, h2⟩ := syntaxError_stack h
  exact hp.cons _ h2 ht

theorem recover_shows {tok : Option (Tok V)} {p0 p p' : Parser V X} {stk : List (Entry V)} {major : Nat}
    {m : Minor V} {ex : List Nat} (hl : LhsOk t) (h0 : t.errorSymbol ≠ 0)
    (ht : t.tokenBuild sem major m = tok)
    (hp : NewShow tok p0 p) (h : (recover t sem major m ex stk p).parser? = some p') : NewShow tok p0 p' := by
  rcases recover_cases t sem major m ex stk p with ⟨w, h'⟩ | ⟨popped, rest, hr, _, h'⟩
  · rw [h'] at h; cases h
  · rcases h' with ⟨_, h'⟩ | ⟨top, rest', hrest, h'⟩
    · rw [h'] at h; cases h; exact hp.same rfl
    · rcases h' with ⟨_, h'⟩ | ⟨_, act, _, _, h'⟩
      · rw [h'] at h; cases h; exact hp.same rfl
      · rcases h' with ⟨p1, e, hs, h'⟩ | ⟨p1, e, hs, h'⟩
        · rw [h'] at h; cases h
          exact syntaxError_shows (sem := sem) ht (hp.same (r := { p with stack := rest }) rfl) (by rw [hs]; rfl)
        · rw [h'] at h
          have h1 : NewShow tok p0 p1 :=
            syntaxError_shows (sem := sem) ht (hp.same (r := { p with stack := rest }) rfl) (by rw [hs]; rfl)
          exact shift_shows (.inr (tokenBuild_none _ (hl.error h0))) h1 h

theorem onError_shows {tok : Option (Tok V)} {p0 p p' : Parser V X} {top : Entry V} {major : Nat} {m : Minor V}
    (hl : LhsOk t) (ht : t.tokenBuild sem major m = tok) (htm : major ≠ 0 → tok.map (·.major) = some major)
    (hp : NewShow tok p0 p) (h : (onError t sem p top major m).parser? = some p') : NewShow tok p0 p' := by
  rcases onError_cases t sem p top major m with ⟨w, h', _⟩ | ⟨_, h'⟩ | ⟨ex, _, hm, h'⟩
  · rw [h'] at h; cases h
  · rw [h'] at h; cases h; exact hp.cons .parseFail rfl trivial
  · rcases h' with ⟨h0, h'⟩ | ⟨_, _, h'⟩ | ⟨_, _, h'⟩
    · rcases h' with ⟨p1, e, hr, h'⟩ | ⟨p1, hr, _, h'⟩ | ⟨p1, hr, _, h'⟩
      · rw [h'] at h; cases h; exact recover_shows (sem := sem) hl h0 ht hp (by rw [hr]; rfl)
      · rw [h'] at h; cases h
        have h1 : NewShow tok p0 p1 := recover_shows (sem := sem) hl h0 ht hp (by rw [hr]; rfl)
        exact h1.cons .parseFail rfl trivial
      · rw [h'] at h; cases h
        have h1 : NewShow tok p0 p1 := recover_shows (sem := sem) hl h0 ht hp (by rw [hr]; rfl)
        exact h1.cons (.discard major) rfl (htm hm)
    · rcases h' with ⟨p1, e, hr, h'⟩ | ⟨p1, e, hr, h'⟩ <;> (rw [h'] at h; cases h)
      · exact syntaxError_shows (sem := sem) ht hp (by rw [hr]; rfl)
      · have h1 : NewShow tok p0 p1 := syntaxError_shows (sem := sem) ht hp (by rw [hr]; rfl)
        exact h1.cons (.discard major) rfl (htm hm)
    · rw [h'] at h; cases h; exact hp.cons (.discard major) rfl (htm hm)

theorem step_shows {tok : Option (Tok V)} {p0 p : Parser V X} {major : Nat} {m : Minor V}
    (hl : LhsOk t) (ht : t.tokenBuild sem major m = tok) (htm : major ≠ 0 → tok.map (·.major) = some major)
    (hp : NewShow tok p0 p) :
    (∀ p', step t sem p major m = .again p' → NewShow tok p0 p') ∧
    (∀ r p', step t sem p major m = .done r → r.parser? = some p' → NewShow tok p0 p') := by
  rcases step_cases t sem p major m with ⟨w, h⟩ | ⟨top, rest, act, _, _, h⟩
  · rw [h]; refine ⟨by simp, ?_⟩
    intro r p' hr hp; cases hr; simp [Res.parser?] at hp
  · rcases h with ⟨_, hm, h⟩ | ⟨_, _, h⟩ | ⟨_, h⟩
    · rcases h with ⟨p1, e, h1, h⟩ | ⟨p1, h1, h⟩
      · rw [h]; refine ⟨by simp, ?_⟩
        intro r p' hr hp'; cases hr
        exact shift_shows (.inl ht) hp (by rw [h1]; exact hp')
      · rw [h]; refine ⟨by simp, ?_⟩
        intro r p' hr hp'; cases hr; cases hp'
        have h2 : NewShow tok p0 p1 := shift_shows (sem := sem) (.inl ht) hp (by rw [h1]; rfl)
        exact h2.cons (.shift major) rfl (htm hm)
    · rcases h with ⟨p1, e, h1, h⟩ | ⟨p1, h1, h⟩
      · rw [h]; refine ⟨by simp, ?_⟩
        intro r p' hr hp'; cases hr
        exact reduce_shows hl hp (by rw [h1]; exact hp')
      · rw [h]; refine ⟨?_, by simp⟩
        intro p' hr; cases hr
        exact reduce_shows hl hp (by rw [h1]; rfl)
    · rw [h]; refine ⟨by simp, ?_⟩
      intro r p' hr hp'; cases hr
      exact onError_shows hl ht htm hp hp'

theorem parse_shows {p p' : Parser V X} {fuel : Nat} {tok : Tok V} {r : Res V X E Unit} (hl : LhsOk t)
    (hv : tok.Valid t sem) (h : parse t sem fuel p tok = some r) (h2 : r.parser? = some p') :
    NewShow (some tok) p p' :=
  parseToken_lift (I := NewShow (some tok) p) (fun _ h => h.same rfl)
    (fun _ hp => step_shows hl (tokenBuild_tokenValue hv) (fun _ => rfl) hp) (NewShow.refl _ _) h h2

end Pomelo
