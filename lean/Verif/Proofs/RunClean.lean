import Verif.Proofs.RunErrors
/-! # Without a call of `%syntax_error` no token is thrown away (if `error` has no rules) -/

namespace Pomelo

variable {V X E : Type} {t : Tables} {sem : Sem V X E}

/-- `%syntax_error` did not run. -/
def NoReport (l : List (Event V)) : Prop := ∀ tok ex, Event.syntaxError tok ex ∉ l

theorem NoReport.tail {e : Event V} {l : List (Event V)} (h : NoReport (e :: l)) : NoReport l :=
  fun tok ex hm => h tok ex (List.mem_cons_of_mem _ hm)

/-- Invariant: before the first report the error machinery has left no mark. -/
def Clean (t : Tables) (p : Parser V X) : Prop :=
  NoReport p.trace → p.errorCount = 0 ∧ (∀ n, Event.discard n ∉ p.trace) ∧
    (t.errorSymbol ≠ 0 → ∀ e ∈ p.stack, e.major ≠ t.errorSymbol)

theorem Clean.keep {p p' : Parser V X} (h : Clean t p) (hc : p'.errorCount = p.errorCount) (hs : ∀ e ∈ p'.stack, e ∈ p.stack) {e : Event V}
    (ht : p'.trace = e :: p.trace) (he : ∀ n, e ≠ .discard n) : Clean t p' := by
  intro hn
  rw [ht] at hn
  obtain ⟨h1, h2, h3⟩ := h hn.tail
  refine ⟨hc.trans h1, ?_, fun h0 a ha => h3 h0 a (hs a ha)⟩
  intro n hm
  rw [ht] at hm
  rcases List.mem_cons.1 hm with hm | hm
  · exact he n hm.symm
  · exact h2 n hm

theorem Clean.drop {p : Parser V X} (h : Clean t p) {stk : List (Entry V)} (hs : ∀ e ∈ stk, e ∈ p.stack) : Clean t { p with stack := stk } := by
  intro hn
  obtain ⟨h1, h2, h3⟩ := h hn
  exact ⟨h1, h2, fun h0 a ha => h3 h0 a (hs a ha)⟩

theorem Clean.shift {p p' : Parser V X} (h : Clean t p) {s major : Nat} {m : Minor V} (hm : t.errorSymbol ≠ 0 → major ≠ t.errorSymbol)
    (h' : (shift t sem p s major m).parser? = some p') : Clean t p' := by
  rcases shift_cases t sem p s major m with ⟨_, _, e⟩ | ⟨_, e⟩
  · rw [e] at h'; cases h'
    exact h.keep rfl (fun _ h => h) rfl (by intro n h; cases h)
  · rw [e] at h'; cases h'
    intro hn
    obtain ⟨h1, h2, h3⟩ := h hn
    refine ⟨h1, h2, ?_⟩
    intro h0 a ha
    rcases List.mem_cons.1 ha with rfl | ha
    · exact hm h0
    · exact h3 h0 a ha

theorem Clean.reported {p : Parser V X} {tok : Option (Tok V)} {ex : List Nat} (h : Event.syntaxError tok ex ∈ p.trace) : Clean t p :=
  fun hn => absurd h (hn tok ex)

theorem Clean.reduce {p p' : Parser V X} (h : Clean t p) {r : Nat} (hr : t.errorSymbol ≠ 0 → t.ruleInfo[r]? ≠ some t.errorSymbol)
    (h' : (reduce t sem p r).parser? = some p') : Clean t p' := by
  have hdrop : ∀ n, ∀ e ∈ p.stack.drop n, e ∈ p.stack := fun n e he => List.mem_of_mem_drop he
  rcases reduce_cases t sem p r with ⟨w, e⟩ | ⟨rc, vs, _, _, _, h2⟩
  · rw [e] at h'; cases h'
  · rcases h2 with ⟨e, x, _, e'⟩ | ⟨v, x, lhs, top, rest, act, _, hl, hd, _, h2⟩
    · rw [e'] at h'; cases h'
      exact h.keep rfl (hdrop _) rfl (by intro n h; cases h)
    · have hk : Clean t { p with stack := p.stack.drop rc.pats.length, extra := x, trace := .reduce r vs :: p.trace } :=
        h.keep rfl (hdrop _) rfl (by intro n h; cases h)
      rcases h2 with ⟨_, e'⟩ | ⟨_, _, e'⟩
      · rw [e'] at h'
        exact hk.shift (fun h0 he => hr h0 (by rw [hl, he])) h'
      · rw [e'] at h'
        rcases accept_cases t sem _ ⟨rc.lhsDt, v⟩ with h'' | ⟨v', h''⟩ <;> (rw [h''] at h'; cases h')
        intro hn
        obtain ⟨h1, h2, _⟩ := hk hn
        exact ⟨h1, h2, fun _ a ha => by cases ha⟩

theorem Clean.syntaxError {p : Parser V X} {major : Nat} {m : Minor V} {ex : List Nat} {p' : Parser V X}
    (h' : (syntaxError t sem p major m ex).parser? = some p') : Event.syntaxError (t.tokenBuild sem major m) ex ∈ p'.trace := by
  rcases syntaxError_cases t sem p major m ex with ⟨e, x, _, h⟩ | ⟨v, x, _, h⟩ <;>
    (rw [h] at h'; cases h'; exact List.mem_cons_self)

theorem shift_trace_mem {p p' : Parser V X} {s major : Nat} {m : Minor V} (h' : (shift t sem p s major m).parser? = some p') {e : Event V} (h : e ∈ p.trace) :
    e ∈ p'.trace := by
  rcases shift_cases t sem p s major m with ⟨_, _, e⟩ | ⟨_, e⟩
  · rw [e] at h'; cases h'; exact List.mem_cons_of_mem _ h
  · rw [e] at h'; cases h'; exact h

theorem Clean.onError {p p' : Parser V X} (h : Clean t p) {top : Entry V} {major : Nat} {m : Minor V}
    (h' : (onError t sem p top major m).parser? = some p') : Clean t p' := by
  have hfail : ∀ {q : Parser V X}, Clean t q → Clean t (parseFailed sem q).1 := fun hq =>
    hq.keep rfl (by simp [parseFailed]) rfl (by intro n h; cases h)
  rcases onError_cases t sem p top major m with ⟨w, e, _⟩ | ⟨_, e⟩ | ⟨ex, _, _, h1⟩
  · rw [e] at h'; cases h'
  · rw [e] at h'; cases h'; exact hfail h
  · -- what the recovery leaves
    have hrec : t.errorSymbol ≠ 0 → ∀ q, (recover t sem major m ex p.stack p).parser? = some q →
        (∃ tok ex, Event.syntaxError tok ex ∈ q.trace) ∨ (NoReport q.trace → False) ∨ (Clean t q ∧ q.stack = []) := by
      intro h0 q hq
      rcases recover_cases t sem major m ex p.stack p with ⟨w, e⟩ | ⟨popped, rest, hstk, _, h2⟩
      · rw [e] at hq; cases hq
      · rcases h2 with ⟨_, e⟩ | ⟨top, rest', hrest, h2⟩
        · rw [e] at hq; cases hq
          exact .inr (.inr ⟨h.drop (by simp), rfl⟩)
        · rcases h2 with ⟨ht, e⟩ | ⟨_, act, _, _, h2⟩
          · rw [e] at hq; cases hq
            refine .inr (.inl fun hn => ?_)
            exact (h hn).2.2 h0 top (by rw [hstk, hrest]; simp) ht
          · rcases h2 with ⟨p1, e, hs, e'⟩ | ⟨p1, e, hs, e'⟩
            · rw [e'] at hq; cases hq
              exact .inl ⟨_, _, Clean.syntaxError (sem := sem) (by rw [hs]; rfl)⟩
            · rw [e'] at hq
              exact .inl ⟨_, _, shift_trace_mem hq (Clean.syntaxError (sem := sem) (by rw [hs]; rfl))⟩
    rcases h1 with ⟨h0, h1⟩ | ⟨h0, hc, h1⟩ | ⟨h0, hc, h1⟩
    · rcases h1 with ⟨p1, e, hr, e'⟩ | ⟨p1, hr, hs, e'⟩ | ⟨p1, hr, hs, e'⟩
      · rw [e'] at h'; cases h'
        rcases hrec h0 _ (by rw [hr]; rfl) with ⟨_, _, h1⟩ | h1 | h1
        · exact .reported h1
        · exact fun hn => (h1 hn).elim
        · exact h1.1
      · rw [e'] at h'; cases h'
        rcases hrec h0 _ (by rw [hr]; rfl) with ⟨_, _, h1⟩ | h1 | h1
        · exact .reported (List.mem_cons_of_mem _ h1)
        · exact fun hn => (h1 hn.tail).elim
        · exact hfail h1.1
      · rw [e'] at h'; cases h'
        rcases hrec h0 _ (by rw [hr]; rfl) with ⟨_, _, h1⟩ | h1 | h1
        · exact .reported (List.mem_cons_of_mem _ h1)
        · exact fun hn => (h1 hn.tail).elim
        · exact absurd h1.2 hs
    · rcases h1 with ⟨p1, e, hs, e'⟩ | ⟨p1, v, hs, e'⟩
      · rw [e'] at h'; cases h'
        exact .reported (Clean.syntaxError (sem := sem) (by rw [hs]; rfl))
      · rw [e'] at h'; cases h'
        exact .reported (List.mem_cons_of_mem _ (Clean.syntaxError (sem := sem) (by rw [hs]; rfl)))
    · rw [h1] at h'; cases h'
      exact fun hn => absurd (h hn.tail).1 hc

theorem Clean.step {p : Parser V X} (h : Clean t p) (hr : ∀ r : Nat, t.errorSymbol ≠ 0 → t.ruleInfo[r]? ≠ some t.errorSymbol)
    {major : Nat} {m : Minor V} (hm : t.errorSymbol ≠ 0 → major ≠ t.errorSymbol) :
    (∀ p', step t sem p major m = .again p' → Clean t p') ∧
    (∀ r p', step t sem p major m = .done r → r.parser? = some p' → Clean t p') := by
  rcases step_cases t sem p major m with ⟨w, e⟩ | ⟨top, rest, act, _, _, h1⟩
  · rw [e]; refine ⟨by simp, ?_⟩
    intro r p' hr hp; cases hr; simp [Res.parser?] at hp
  · rcases h1 with ⟨_, _, h1⟩ | ⟨_, _, h1⟩ | ⟨_, h1⟩
    · rcases h1 with ⟨p1, e, h1, e'⟩ | ⟨p1, h1, e'⟩
      · rw [e']; refine ⟨by simp, ?_⟩
        intro r p' hr hp'; cases hr
        exact h.shift hm (by rw [h1]; exact hp')
      · rw [e']; refine ⟨by simp, ?_⟩
        intro r p' hr hp'; cases hr; cases hp'
        have h2 : Clean t p1 := h.shift (sem := sem) hm (by rw [h1]; rfl)
        intro hn
        obtain ⟨a, b, c⟩ := h2 hn.tail
        refine ⟨by show p1.errorCount - 1 = 0; rw [a], ?_, c⟩
        intro n hm
        rcases List.mem_cons.1 hm with hm | hm
        · cases hm
        · exact b n hm
    · rcases h1 with ⟨p1, e, h1, e'⟩ | ⟨p1, h1, e'⟩
      · rw [e']; refine ⟨by simp, ?_⟩
        intro r p' hr' hp'; cases hr'
        exact h.reduce (hr _) (by rw [h1]; exact hp')
      · rw [e']; refine ⟨?_, by simp⟩
        intro p' hr'; cases hr'
        exact h.reduce (hr _) (by rw [h1]; rfl)
    · rw [h1]; refine ⟨by simp, ?_⟩
      intro r p' hr hp'; cases hr
      exact h.onError hp'

theorem Clean.parseToken {p p' : Parser V X} (h : Clean t p) (hr : ∀ r : Nat, t.errorSymbol ≠ 0 → t.ruleInfo[r]? ≠ some t.errorSymbol)
    {fuel major : Nat} {m : Minor V} (hm : t.errorSymbol ≠ 0 → major ≠ t.errorSymbol) {r : Res V X E Unit}
    (h1 : parseToken t sem fuel p major m = some r) (h2 : r.parser? = some p') : Clean t p' :=
  parseToken_lift (fun _ h => h) (fun _ hp => hp.step hr hm) h h1 h2

theorem Clean.feed (ho : LhsOk t) (hr : ∀ r : Nat, t.errorSymbol ≠ 0 → t.ruleInfo[r]? ≠ some t.errorSymbol) {fuel : Nat} :
    ∀ {toks : List (Tok V)} {p p' : Parser V X} {res : Res V X E Unit}, Clean t p → (∀ tok ∈ toks, tok.Valid t sem) →
      feed t sem fuel p toks = some res → res.parser? = some p' → Clean t p' := by
  intro toks
  induction toks with
  | nil => intro p p' res hp _ h h2; simp only [Pomelo.feed, Option.some.injEq] at h; subst h; cases h2; exact hp
  | cons tok toks ih =>
    intro p p' res hp hv h h2
    have hstep : ∀ {q : Res V X E Unit} {p1}, parse t sem fuel p tok = some q → q.parser? = some p1 → Clean t p1 := by
      intro q p1 hq hp1
      have hval := hv tok List.mem_cons_self
      rw [parse_eq] at hq
      refine hp.parseToken hr ?_ hq hp1
      intro h0 he
      have := ho.error h0
      have := hval.lt
      omega
    unfold Pomelo.feed at h
    cases hq : parse t sem fuel p tok with
    | none => rw [hq] at h; cases h
    | some q =>
      rw [hq] at h
      cases q with
      | ok p1 u => exact ih (hstep hq rfl) (fun a ha => hv a (List.mem_cons_of_mem _ ha)) h h2
      | err p1 e => cases h; exact hstep hq h2
      | panic w => cases h; cases h2

theorem Clean.new (sem : Sem V X E) (x : X) : Clean t (Parser.new sem x) := by
  intro _
  refine ⟨rfl, by simp [Parser.new], ?_⟩
  intro h0 e he
  simp only [Parser.new, List.mem_singleton] at he
  subst he
  exact fun h => h0 h.symm

theorem Clean.runAll (ho : LhsOk t) (hr : ∀ r : Nat, t.errorSymbol ≠ 0 → t.ruleInfo[r]? ≠ some t.errorSymbol) {fuel : Nat}
    {toks : List (Tok V)} {x : X} {p : Parser V X} {v : V} (hv : ∀ tok ∈ toks, tok.Valid t sem)
    (h : runAll t sem fuel x toks = some (.ok p v)) : Clean t p := by
  unfold Pomelo.runAll at h
  split at h
  · cases h
  · rename_i p1 hf
    have h1 := Clean.feed ho hr (Clean.new sem x) hv hf rfl
    unfold endOfInput at h
    rw [Option.map_eq_some_iff] at h
    obtain ⟨r, h2, h3⟩ := h
    cases r with
    | panic w => cases h3
    | err p e => cases h3
    | ok p2 u =>
      simp only at h3
      have : p2 = p := by
        split at h3
        · simp only [Res.ok.injEq] at h3; exact h3.1
        · cases h3
      subst this
      exact h1.parseToken hr (fun h0 he => h0 he.symm) h2 rfl
  · cases h
  · cases h

end Pomelo
