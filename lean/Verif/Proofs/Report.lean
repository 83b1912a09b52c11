import Verif.Spec.Sentence
import Verif.Proofs.RunErrors
import Verif.Proofs.RunCalls
/-! # The report of a syntax error -/

namespace Pomelo

open Spec

variable {t : Tables} {V X E : Type} {sem : Sem V X E}

theorem recover_report {p p' : Parser V X} {major : Nat} {m : Minor V} {ex : List Nat} {r : Res V X E Unit} {stk : List (Entry V)}
    (h : recover t sem major m ex stk p = r) (hp : r.parser? = some p') :
    (p'.trace = p.trace ∧ ∃ q, r = .ok q ()) ∨ ∃ l tok, p'.trace = l ++ .syntaxError tok ex :: p.trace ∧ ∀ tok' ex', .syntaxError tok' ex' ∉ l := by
  subst h
  rcases recover_cases t sem major m ex stk p with ⟨w, h⟩ | ⟨popped, rest, _, _, h⟩
  · rw [h] at hp; cases hp
  rcases h with ⟨_, h⟩ | ⟨top, rest', _, h⟩
  · rw [h] at hp ⊢; cases hp; exact .inl ⟨rfl, _, rfl⟩
  rcases h with ⟨_, h⟩ | ⟨_, act, _, _, h⟩
  · rw [h] at hp ⊢; cases hp; exact .inl ⟨rfl, _, rfl⟩
  right
  rcases h with ⟨p1, e, h1, h⟩ | ⟨p1, e, h1, h⟩
  · rw [h] at hp; cases hp
    rcases syntaxError_cases t sem { p with stack := rest } major m ex with ⟨e', x, _, h2⟩ | ⟨v, x, _, h2⟩
    · rw [h2] at h1; cases h1
      exact ⟨[], _, rfl, by simp⟩
    · rw [h2] at h1; cases h1
  · rw [h] at hp
    rcases syntaxError_cases t sem { p with stack := rest } major m ex with ⟨e', x, _, h2⟩ | ⟨v, x, _, h2⟩
    · rw [h2] at h1; cases h1
    · rw [h2] at h1; cases h1
      rcases shift_cases t sem { p with stack := rest, extra := x, trace := .syntaxError (t.tokenBuild sem major m) ex :: p.trace } act t.errorSymbol ⟨t.errorDt, v⟩ with ⟨_, _, h3⟩ | ⟨_, h3⟩
      · rw [h3] at hp; cases hp
        exact ⟨[_], _, rfl, by simp⟩
      · rw [h3] at hp; cases hp
        exact ⟨[], _, rfl, by simp⟩

/-- What is logged in reaction to a syntax error in the state of `top` -/
def Reacts (t : Tables) (top : Entry V) (p p' : Parser V X) : Prop :=
  ∃ l, p'.trace = l ++ p.trace ∧ (∃ ev ∈ l, ev.isSyntax = true) ∧
    ∀ tok ex, .syntaxError tok ex ∈ l → t.expected top.state = .ok ex ∧ ∃ l', l = l' ++ [.syntaxError tok ex]

theorem onError_reacts {p p' : Parser V X} {top : Entry V} {major : Nat} {m : Minor V}
    (hp : (onError t sem p top major m).parser? = some p') : Reacts t top p p' := by
  rcases onError_cases t sem p top major m with ⟨w, h, _⟩ | ⟨_, h⟩ | ⟨ex, hex, _, h⟩
  · rw [h] at hp; cases hp
  · rw [h] at hp; cases hp
    exact ⟨[.parseFail], rfl, ⟨_, List.mem_singleton.2 rfl, rfl⟩, by simp⟩
  have fin : ∀ {l : List (Event V)} {tok : Option (Tok V)} {ev : List (Event V)}, p'.trace = ev ++ (l ++ .syntaxError tok ex :: p.trace) → (∀ tok' ex', .syntaxError tok' ex' ∉ l) →
      (∀ tok' ex', .syntaxError tok' ex' ∉ ev) → Reacts t top p p' := by
    intro l tok ev h1 h2 h3
    refine ⟨ev ++ (l ++ [.syntaxError tok ex]), by rw [h1]; simp, ⟨.syntaxError tok ex, by simp, rfl⟩, ?_⟩
    intro tok' ex' hm
    rcases List.mem_append.1 hm with hm | hm
    · exact absurd hm (h3 _ _)
    · rcases List.mem_append.1 hm with hm | hm
      · exact absurd hm (h2 _ _)
      · rw [List.mem_singleton] at hm
        injection hm with e1 e2
        subst e1; subst e2
        exact ⟨hex, ev ++ l, by simp⟩
  rcases h with ⟨_, h⟩ | ⟨_, _, h⟩ | ⟨_, _, h⟩
  · rcases h with ⟨p1, e, h1, h⟩ | ⟨p1, h1, _, h⟩ | ⟨p1, h1, _, h⟩
    · rw [h] at hp; cases hp
      rcases recover_report h1 rfl with ⟨_, _, h2⟩ | ⟨l, tok, h2, h3⟩
      · cases h2
      · exact fin (ev := []) (by simpa using h2) h3 (by simp)
    · rw [h] at hp; cases hp
      rcases recover_report h1 rfl with ⟨h2, _⟩ | ⟨l, tok, h2, h3⟩
      · exact ⟨[.parseFail], by simp [parseFailed, h2], ⟨_, List.mem_singleton.2 rfl, rfl⟩, by simp⟩
      · exact fin (ev := [.parseFail]) (l := l) (tok := tok) (by simp [parseFailed, h2]) h3 (by simp)
    · rw [h] at hp; cases hp
      rcases recover_report h1 rfl with ⟨h2, _⟩ | ⟨l, tok, h2, h3⟩
      · exact ⟨[.discard major], by simp [h2], ⟨_, List.mem_singleton.2 rfl, rfl⟩, by simp⟩
      · exact fin (ev := [.discard major]) (l := l) (tok := tok) (by simp [h2]) h3 (by simp)
  · rcases h with ⟨p1, e, h1, h⟩ | ⟨p1, v, h1, h⟩
    · rw [h] at hp; cases hp
      rcases syntaxError_cases t sem p major m ex with ⟨e', x, _, h2⟩ | ⟨v, x, _, h2⟩
      · rw [h2] at h1; cases h1
        exact fin (ev := []) (l := []) (by simp; rfl) (by simp) (by simp)
      · rw [h2] at h1; cases h1
    · rw [h] at hp; cases hp
      rcases syntaxError_cases t sem p major m ex with ⟨e', x, _, h2⟩ | ⟨v, x, _, h2⟩
      · rw [h2] at h1; cases h1
      · rw [h2] at h1; cases h1
        exact fin (ev := [.discard major]) (l := []) (by simp; rfl) (by simp) (by simp)
  · rw [h] at hp; cases hp
    exact ⟨[.discard major], rfl, ⟨_, List.mem_singleton.2 rfl, rfl⟩, by simp⟩

theorem step_done_quiet {p p' : Parser V X} {major : Nat} {m : Minor V} {r : Res V X E Unit} (h : step t sem p major m = .done r) (hp : r.parser? = some p') :
    (∃ l, p'.trace = l ++ p.trace ∧ ∀ ev ∈ l, ev.isSyntax = false) ∨
    ∃ top rest, p.stack = top :: rest ∧ t.findShift top.state major = .ok (t.nState + t.nRule) ∧ Reacts t top p p' := by
  rcases step_cases t sem p major m with ⟨w, h1⟩ | ⟨top, rest, act, hs, ha, h1⟩
  · rw [h1] at h; cases h; cases hp
  rcases h1 with ⟨_, _, h1⟩ | ⟨_, _, h1⟩ | ⟨rfl, h1⟩
  · left
    rcases h1 with ⟨p1, e, h1, h2⟩ | ⟨p1, h1, h2⟩
    · rw [h2] at h; cases h; cases hp
      rcases shift_cases t sem p act major m with ⟨_, _, h3⟩ | ⟨_, h3⟩
      · rw [h3] at h1; cases h1
        exact ⟨[_], rfl, by simp [Event.isSyntax]⟩
      · rw [h3] at h1; cases h1
    · rw [h2] at h; cases h; cases hp
      rcases shift_cases t sem p act major m with ⟨_, _, h3⟩ | ⟨_, h3⟩
      · rw [h3] at h1; cases h1
      · rw [h3] at h1; cases h1
        exact ⟨[_], rfl, by simp [Event.isSyntax]⟩
  · left
    rcases h1 with ⟨p1, e, h1, h2⟩ | ⟨p1, h1, h2⟩
    · rw [h2] at h; cases h; cases hp
      obtain ⟨_, vs, h3⟩ := reduce_events (t := t) (sem := sem) (by rw [h1]; rfl)
      rcases h3 with h3 | ⟨_, _, _, _, _, h3⟩
      · exact ⟨[_], h3, by simp [Event.isSyntax]⟩
      · exact ⟨[_, _], h3, by simp [Event.isSyntax]⟩
    · rw [h2] at h; cases h
  · right
    rw [h1] at h; cases h
    exact ⟨top, rest, hs, ha, onError_reacts hp⟩

/-- Whether a token brought a syntax error, and if so where. -/
theorem loop_report {major : Nat} {m : Minor V} : ∀ {fuel : Nat} {p p' : Parser V X} {r : Res V X E Unit}, loop t sem major m fuel p = some r → r.parser? = some p' →
    (∃ l, p'.trace = l ++ p.trace ∧ ∀ ev ∈ l, ev.isSyntax = false) ∨
    ∃ q top rest, Reduces t sem major m p q ∧ q.status = .normal ∧ q.stack = top :: rest ∧ t.findShift top.state major = .ok (t.nState + t.nRule) ∧ Reacts t top q p' := by
  intro fuel
  induction fuel with
  | zero => intro p p' r h; simp [loop] at h
  | succ n ih =>
    intro p p' r h hp
    unfold loop at h
    cases hs : p.status with
    | normal =>
      simp only [hs] at h
      cases hst : step t sem p major m with
      | done r' =>
        simp only [hst, Option.some.injEq] at h
        subst h
        rcases step_done_quiet hst hp with h | ⟨top, rest, h1, h2, h3⟩
        · exact .inl h
        · exact .inr ⟨p, top, rest, .refl p, hs, h1, h2, h3⟩
      | again p1 =>
        simp only [hst] at h
        rcases ih h hp with ⟨l, h1, h2⟩ | ⟨q, top, rest, h1, h2⟩
        · obtain ⟨evs, h3, h4⟩ := (Reduces.head hs hst (.refl _)).events
          refine .inl ⟨l ++ evs, by rw [h1, h3]; simp, ?_⟩
          intro ev hev
          rcases List.mem_append.1 hev with hev | hev
          · exact h2 ev hev
          · obtain ⟨_, _, rfl⟩ := h4 ev hev
            rfl
        · exact .inr ⟨q, top, rest, .head hs hst h1, h2⟩
    | accepted v => simp only [hs, Option.some.injEq] at h; subst h; cases hp; exact .inl ⟨[], rfl, by simp⟩
    | failed => simp only [hs, Option.some.injEq] at h; subst h; cases hp; exact .inl ⟨[], rfl, by simp⟩

theorem parse_report {fuel : Nat} {p p' : Parser V X} {k : Tok V} {r : Res V X E Unit} (h : parse t sem fuel p k = some r) (hp : r.parser? = some p') :
    (∃ l, p'.trace = l ++ p.trace ∧ ∀ ev ∈ l, ev.isSyntax = false) ∨
    ∃ q top rest, Reduces t sem k.major (t.tokenValue sem k).2 p q ∧ q.status = .normal ∧ q.stack = top :: rest ∧
      t.findShift top.state k.major = .ok (t.nState + t.nRule) ∧ Reacts t top q p' := by
  rcases parseToken_inv h with ⟨rfl, _⟩ | ⟨_, r', hl, hr⟩
  · cases hp
  rcases hr with ⟨p1, e, rfl, rfl⟩ | ⟨_, rfl⟩
  · cases hp
    exact loop_report (p' := p1) hl rfl
  · exact loop_report hl hp

/-! ## Growth of the log -/

theorem loop_suffix {fuel : Nat} {p p' : Parser V X} {major : Nat} {m : Minor V} {r : Res V X E Unit} (hl : loop t sem major m fuel p = some r)
    (hp : r.parser? = some p') : p.trace <:+ p'.trace := by
  rcases loop_report hl hp with ⟨l, h, _⟩ | ⟨q, top, rest, h1, _, _, _, l, h2, _⟩
  · exact ⟨l, h.symm⟩
  · obtain ⟨evs, h3, _⟩ := h1.events
    exact ⟨l ++ evs, by rw [h2, h3]; simp⟩

theorem suffix_head {α : Type} {a b : α} {l m : List α} (h1 : (a :: l) <:+ m) (h2 : (b :: l) <:+ m) : a = b := by
  have h := (List.suffix_of_suffix_length_le h1 h2 (by simp)).eq_of_length (by simp)
  exact (List.cons.inj h).1

theorem parseToken_suffix {fuel : Nat} {p p' : Parser V X} {major : Nat} {m : Minor V} {r : Res V X E Unit} (h : parseToken t sem fuel p major m = some r)
    (hp : r.parser? = some p') : p.trace <:+ p'.trace := by
  rcases parseToken_inv h with ⟨rfl, _⟩ | ⟨_, r', hl, hr⟩
  · cases hp
  rcases hr with ⟨p1, e, rfl, rfl⟩ | ⟨_, rfl⟩
  · cases hp
    exact loop_suffix (p' := p1) hl rfl
  · exact loop_suffix hl hp

theorem feed_suffix {fuel : Nat} : ∀ {toks : List (Tok V)} {p p' : Parser V X} {r : Res V X E Unit}, feed t sem fuel p toks = some r → r.parser? = some p' → p.trace <:+ p'.trace := by
  intro toks
  induction toks with
  | nil => intro p p' r h hp; simp only [feed, Option.some.injEq] at h; subst h; cases hp; exact List.suffix_refl _
  | cons k toks ih =>
    intro p p' r h hp
    rw [feed] at h
    split at h
    · rename_i p1 h1
      exact (parseToken_suffix h1 rfl).trans (ih h hp)
    · exact parseToken_suffix h hp

theorem feed_mono {fuel n : Nat} (hn : fuel ≤ n) : ∀ {toks : List (Tok V)} {p : Parser V X} {r : Res V X E Unit}, feed t sem fuel p toks = some r → feed t sem n p toks = some r := by
  intro toks
  induction toks with
  | nil => intro p r h; exact h
  | cons k toks ih =>
    intro p r h
    cases hp : parse t sem fuel p k with
    | none => rw [feed, hp] at h; cases h
    | some r1 =>
      have hp' : parse t sem n p k = some r1 := parseToken_mono hp hn
      rw [feed, hp] at h
      rw [feed, hp']
      cases r1 with
      | ok p1 u => exact ih h
      | err => exact h
      | panic => exact h

theorem feed_det {f1 f2 : Nat} {toks : List (Tok V)} {p : Parser V X} {r1 r2 : Res V X E Unit} (h1 : feed t sem f1 p toks = some r1) (h2 : feed t sem f2 p toks = some r2) : r1 = r2 := by
  have h1 := feed_mono (Nat.le_max_left f1 f2) h1
  have h2 := feed_mono (Nat.le_max_right f1 f2) h2
  rw [h1] at h2
  exact Option.some.inj h2

theorem feed_append {fuel : Nat} {rest : List (Tok V)} : ∀ {toks : List (Tok V)} {p : Parser V X},
    feed t sem fuel p (toks ++ rest) = match feed t sem fuel p toks with | some (.ok p1 ()) => feed t sem fuel p1 rest | r => r := by
  intro toks
  induction toks with
  | nil => intro p; rfl
  | cons k toks ih =>
    intro p
    rw [List.cons_append, feed, feed]
    cases parse t sem fuel p k with
    | none => rfl
    | some r1 =>
      cases r1 with
      | ok p1 u => exact ih
      | err => rfl
      | panic => rfl

/-- The call for a token in the middle of a run -/
theorem runAll_parse {fuel f1 : Nat} {x : X} {toks rest : List (Tok V)} {c : Tok V} {R : Res V X E V} {p pf : Parser V X}
    (h : runAll t sem fuel x (toks ++ c :: rest) = some R) (hp : R.parser? = some pf) (h1 : feed t sem f1 (Parser.new sem x) toks = some (.ok p ())) :
    ∃ r2 p2, parse t sem fuel p c = some r2 ∧ r2.parser? = some p2 ∧ p2.trace <:+ pf.trace := by
  unfold runAll at h
  rw [feed_append] at h
  cases hf : feed t sem fuel (Parser.new sem x) toks with
  | none => rw [hf] at h; cases h
  | some r =>
    have := feed_det hf h1
    subst this
    rw [hf] at h
    simp only at h
    rw [feed] at h
    cases hq : parse t sem fuel p c with
    | none => rw [hq] at h; cases h
    | some r2 =>
      rw [hq] at h
      cases r2 with
      | panic w => simp only [Option.some.injEq] at h; subst h; cases hp
      | err p2 e =>
        simp only [Option.some.injEq] at h; subst h; cases hp
        exact ⟨_, _, rfl, rfl, List.suffix_refl _⟩
      | ok p2 u =>
        simp only at h
        refine ⟨_, p2, rfl, rfl, ?_⟩
        cases hr : feed t sem fuel p2 rest with
        | none => rw [hr] at h; cases h
        | some r3 =>
          rw [hr] at h
          cases r3 with
          | panic w => simp only [Option.some.injEq] at h; subst h; cases hp
          | err p3 e =>
            simp only [Option.some.injEq] at h; subst h; cases hp
            exact feed_suffix hr rfl
          | ok p3 u =>
            simp only at h
            refine (feed_suffix hr rfl).trans ?_
            unfold endOfInput at h
            rw [Option.map_eq_some_iff] at h
            obtain ⟨r4, h4, h5⟩ := h
            cases r4 with
            | panic w => subst h5; cases hp
            | err p4 e => subst h5; cases hp; exact parseToken_suffix h4 rfl
            | ok p4 u =>
              simp only at h5
              split at h5
              · subst h5; cases hp; exact parseToken_suffix h4 rfl
              · subst h5; cases hp

/-- A token that is not refused and begins with the reductions of another comes to the same stack. -/
theorem Reduces.follow {k c : Nat} {mk mc : Minor V} {p q : Parser V X} (h : Reduces t sem k mk p q) : ∀ {fuel : Nat} {r2 : Res V X E Unit} {p2 : Parser V X},
    loop t sem c mc fuel p = some r2 → r2.parser? = some p2 → (∃ l, p2.trace = l ++ p.trace ∧ ∀ ev ∈ l, ev.isSyntax = false) → q.trace <:+ p2.trace → Reduces t sem c mc p q := by
  induction h with
  | refl p => intros; exact .refl _
  | @head p q r hs hst hr ih =>
    intro fuel r2 p2 hl hp hq hsuf
    obtain ⟨top, rest, act, a1, a2, a3, a4, a5⟩ := step_again hst
    obtain ⟨_, vs, a6⟩ := reduce_events (t := t) (sem := sem) (by rw [a5]; rfl)
    have a6 : q.trace = .reduce (act - t.nState) vs :: p.trace := by
      rcases a6 with h | ⟨_, _, _, _, h, _⟩
      · exact h
      · rw [a5] at h; cases h
    have hsuf' : (Event.reduce (act - t.nState) vs :: p.trace) <:+ p2.trace := by
      obtain ⟨evs, h1, _⟩ := hr.events
      rw [← a6]
      exact List.IsSuffix.trans ⟨_, h1.symm⟩ hsuf
    cases fuel with
    | zero => simp [loop] at hl
    | succ fuel =>
    unfold loop at hl
    simp only [hs] at hl
    rcases step_cases t sem p c mc with ⟨w, h1⟩ | ⟨top', rest', act', b1, b2, h1⟩
    · rw [h1] at hl; cases hl; cases hp
    rcases h1 with ⟨_, _, h1⟩ | ⟨_, _, h1⟩ | ⟨rfl, h1⟩
    · exfalso
      have : ∃ ev, p2.trace = ev :: p.trace ∧ ∀ r vs, ev ≠ .reduce r vs := by
        rcases h1 with ⟨p1, e, h1, h2⟩ | ⟨p1, h1, h2⟩
        · rw [h2] at hl; cases hl; cases hp
          rcases shift_cases t sem p act' c mc with ⟨_, _, h3⟩ | ⟨_, h3⟩
          · rw [h3] at h1; cases h1
            exact ⟨_, rfl, by simp⟩
          · rw [h3] at h1; cases h1
        · rw [h2] at hl; cases hl; cases hp
          rcases shift_cases t sem p act' c mc with ⟨_, _, h3⟩ | ⟨_, h3⟩
          · rw [h3] at h1; cases h1
          · rw [h3] at h1; cases h1
            exact ⟨_, rfl, by simp⟩
      obtain ⟨ev, h2, h3⟩ := this
      rw [h2] at hsuf'
      exact h3 _ _ (suffix_head hsuf' (List.suffix_refl _)).symm
    · rcases h1 with ⟨p1, e, h1, h2⟩ | ⟨p1, h1, h2⟩
      · exfalso
        rw [h2] at hl; cases hl; cases hp
        obtain ⟨_, vs', h3⟩ := reduce_events (t := t) (sem := sem) (by rw [h1]; rfl)
        have h4 : (Event.reduce (act' - t.nState) vs' :: p.trace) <:+ p2.trace := by
          rcases h3 with h3 | ⟨_, _, _, _, _, h3⟩
          · rw [h3]; exact List.suffix_refl _
          · rw [h3]; exact List.suffix_cons _ _
        have h5 := suffix_head hsuf' h4
        injection h5 with h5 _
        rw [← h5, a5] at h1
        cases h1
      · rw [h2] at hl
        simp only at hl
        obtain ⟨_, vs', h3⟩ := reduce_events (t := t) (sem := sem) (by rw [h1]; rfl)
        have h3 : p1.trace = .reduce (act' - t.nState) vs' :: p.trace := by
          rcases h3 with h | ⟨_, _, _, _, h, _⟩
          · exact h
          · rw [h1] at h; cases h
        have h4 : p1.trace <:+ p2.trace := loop_suffix hl hp
        have h6 := h4
        rw [h3] at h4
        have h5 := suffix_head hsuf' h4
        injection h5 with h5 _
        rw [← h5, a5] at h1
        cases h1
        refine .head hs h2 (ih hl hp ?_ hsuf)
        obtain ⟨l, hl1, hl2⟩ := hq
        obtain ⟨l', hl'⟩ := h6
        refine ⟨l', hl'.symm, fun ev hev => hl2 ev ?_⟩
        rw [← hl', h3] at hl1
        have : l = l' ++ [.reduce (act' - t.nState) vs'] := by
          apply List.append_cancel_right (bs := p.trace)
          rw [← hl1]; simp
        rw [this]
        exact List.mem_append_left _ hev
    · exfalso
      rw [h1] at hl; cases hl
      obtain ⟨l', h2, ⟨ev, h3, h4⟩, _⟩ := onError_reacts hp
      obtain ⟨l, hl1, hl2⟩ := hq
      have : l = l' := List.append_cancel_right (by rw [← hl1, ← h2])
      subst this
      rw [hl2 ev h3] at h4
      cases h4

end Pomelo
