import Verif.Proofs.Run
/-! # Invariants of the run-time model: stack size, muting of errors, logged tokens -/

namespace Pomelo

variable {V X E : Type}

/-! ## Structure of the outcome of `reduce` -/

/-- Case analysis of a reduction. -/
theorem reduce_cases (t : Tables) (sem : Sem V X E) (p : Parser V X) (r : Nat) :
    (∃ w, reduce t sem p r = .panic w) ∨
    (∃ rc vs, t.ruleCode[r]? = some rc ∧ rc.pats.length ≤ p.stack.length ∧
      matchPats rc.pats (p.stack.take rc.pats.length).reverse = some vs ∧
      ((∃ e x, runCode sem rc.code vs p.extra = (.error e, x) ∧
          reduce t sem p r = .err { p with stack := p.stack.drop rc.pats.length, extra := x
                                           trace := .reduce r vs :: p.trace } e) ∨
       (∃ v x lhs top rest act, runCode sem rc.code vs p.extra = (.ok v, x) ∧
          t.ruleInfo[r]? = some lhs ∧ p.stack.drop rc.pats.length = top :: rest ∧
          t.findReduce top.state lhs = .ok act ∧
          ((act < t.nState ∧ reduce t sem p r =
              shift t sem { p with stack := p.stack.drop rc.pats.length, extra := x
                                   trace := .reduce r vs :: p.trace } act lhs ⟨rc.lhsDt, v⟩) ∨
           (t.nState ≤ act ∧ act = t.nState + t.nRule + 1 ∧ reduce t sem p r =
              accept t sem { p with stack := p.stack.drop rc.pats.length, extra := x
                                    trace := .reduce r vs :: p.trace } ⟨rc.lhsDt, v⟩))))) := by
  cases hrc : t.ruleCode[r]? with
  | none => left; exact ⟨.noRule, by simp [reduce, hrc]⟩
  | some rc =>
    by_cases hlen : p.stack.length < rc.pats.length
    · left; exact ⟨.emptyStack, by simp [reduce, hrc, hlen]⟩
    · cases hvs : matchPats rc.pats (p.stack.take rc.pats.length).reverse with
      | none => left; exact ⟨.pattern, by simp [reduce, hrc, hlen, hvs]⟩
      | some vs =>
        rcases hrun : runCode sem rc.code vs p.extra with ⟨res, x⟩
        cases res with
        | error e =>
          right
          refine ⟨rc, vs, rfl, by omega, hvs, .inl ⟨e, x, hrun, ?_⟩⟩
          simp [reduce, hrc, hlen, hvs, hrun]
        | ok v =>
          cases hl : t.ruleInfo[r]? with
          | none => left; exact ⟨.index, by simp [reduce, hrc, hlen, hvs, hrun, hl]⟩
          | some lhs =>
            cases hd : p.stack.drop rc.pats.length with
            | nil => left; exact ⟨.emptyStack, by simp [reduce, hrc, hlen, hvs, hrun, hl, hd]⟩
            | cons top rest =>
              cases hf : t.findReduce top.state lhs with
              | error w => left; exact ⟨w, by simp [reduce, hrc, hlen, hvs, hrun, hl, hd, hf]⟩
              | ok act =>
                by_cases h1 : act < t.nState
                · right
                  refine ⟨rc, vs, rfl, by omega, hvs, .inr ⟨v, x, lhs, top, rest, act, hrun, rfl, hd, hf, .inl ⟨h1, ?_⟩⟩⟩
                  simp [reduce, hrc, hlen, hvs, hrun, hl, hd, hf, h1]
                · by_cases h2 : act = t.nState + t.nRule + 1
                  · right
                    refine ⟨rc, vs, rfl, by omega, hvs, .inr ⟨v, x, lhs, top, rest, act, hrun, rfl, hd, hf, .inr ⟨by omega, h2, ?_⟩⟩⟩
                    subst h2
                    simp [reduce, hrc, hlen, hvs, hrun, hl, hd, hf, h1]
                  · left; exact ⟨.badAccept, by simp [reduce, hrc, hlen, hvs, hrun, hl, hd, hf, h1, h2]⟩

/-- Case analysis of a push. -/
theorem shift_cases (t : Tables) (sem : Sem V X E) (p : Parser V X) (s major : Nat) (m : Minor V) :
    (t.stackLimit ≠ 0 ∧ t.stackLimit ≤ p.stack.length ∧
      shift t sem p s major m =
        .err { p with extra := (sem.stackOverflow (t.tokenBuild sem major m) p.extra).2
                      trace := .stackOverflow (t.tokenBuild sem major m) :: p.trace }
             (sem.stackOverflow (t.tokenBuild sem major m) p.extra).1) ∨
    ((t.stackLimit = 0 ∨ p.stack.length < t.stackLimit) ∧
      shift t sem p s major m = .ok { p with stack := ⟨s, major, m⟩ :: p.stack } ()) := by
  by_cases h : t.stackLimit ≠ 0 ∧ t.stackLimit ≤ p.stack.length
  · left; refine ⟨h.1, h.2, ?_⟩
    simp [shift, h]
  · right
    refine ⟨by omega, ?_⟩
    rw [shift, if_neg h]

/-- Case analysis of the accept code. -/
theorem accept_cases (t : Tables) (sem : Sem V X E) (p : Parser V X) (m : Minor V) :
    (accept t sem p m = .panic .rootType) ∨
    (∃ v, accept t sem p m = .ok { p with status := .accepted v, stack := [] } ()) := by
  unfold accept
  split
  · split
    · right; exact ⟨_, rfl⟩
    · left; rfl
  · right; exact ⟨_, rfl⟩

/-- Case analysis of the call of `%syntax_error`. -/
theorem syntaxError_cases (t : Tables) (sem : Sem V X E) (p : Parser V X) (major : Nat) (m : Minor V)
    (ex : List Nat) :
    (∃ e x, sem.syntaxError (t.tokenBuild sem major m) ex p.extra = (.error e, x) ∧
      syntaxError t sem p major m ex =
        .err { p with extra := x, trace := .syntaxError (t.tokenBuild sem major m) ex :: p.trace } e) ∨
    (∃ v x, sem.syntaxError (t.tokenBuild sem major m) ex p.extra = (.ok v, x) ∧
      syntaxError t sem p major m ex =
        .ok { p with extra := x, trace := .syntaxError (t.tokenBuild sem major m) ex :: p.trace }
          ⟨t.errorDt, v⟩) := by
  rcases h : sem.syntaxError (t.tokenBuild sem major m) ex p.extra with ⟨res, x⟩
  cases res with
  | error e => left; exact ⟨e, x, rfl, by simp [syntaxError, h]⟩
  | ok v => right; exact ⟨v, x, rfl, by simp [syntaxError, h]⟩

/-- Case analysis of the recovery: the popped entries, then what stopped the popping. -/
theorem recover_cases (t : Tables) (sem : Sem V X E) (major : Nat) (m : Minor V) (ex : List Nat) :
    ∀ (stk : List (Entry V)) (p : Parser V X),
    (∃ w, recover t sem major m ex stk p = .panic w) ∨
    (∃ popped rest, stk = popped ++ rest ∧
      (∀ e ∈ popped, e.major ≠ t.errorSymbol ∧
        ∃ act, t.findReduce e.state t.errorSymbol = .ok act ∧ t.nState ≤ act) ∧
      ((rest = [] ∧ recover t sem major m ex stk p = .ok { p with stack := [] } ()) ∨
       (∃ top rest', rest = top :: rest' ∧
         ((top.major = t.errorSymbol ∧ recover t sem major m ex stk p = .ok { p with stack := rest } ()) ∨
          (top.major ≠ t.errorSymbol ∧ ∃ act, t.findReduce top.state t.errorSymbol = .ok act ∧ act < t.nState ∧
            ((∃ p1 e, syntaxError t sem { p with stack := rest } major m ex = .err p1 e ∧
                recover t sem major m ex stk p = .err p1 e) ∨
             (∃ p1 e, syntaxError t sem { p with stack := rest } major m ex = .ok p1 e ∧
                recover t sem major m ex stk p = shift t sem p1 act t.errorSymbol e))))))) := by
  intro stk
  induction stk with
  | nil => intro p; right; exact ⟨[], [], rfl, by simp, .inl ⟨rfl, rfl⟩⟩
  | cons top rest ih =>
    intro p
    by_cases h1 : top.major = t.errorSymbol
    · right
      exact ⟨[], top :: rest, rfl, by simp, .inr ⟨top, rest, rfl, .inl ⟨h1, by simp [recover, h1]⟩⟩⟩
    · cases hf : t.findReduce top.state t.errorSymbol with
      | error w => left; exact ⟨w, by simp [recover, h1, hf]⟩
      | ok act =>
        by_cases h2 : act < t.nState
        · right
          refine ⟨[], top :: rest, rfl, by simp, .inr ⟨top, rest, rfl, .inr ⟨h1, act, hf, h2, ?_⟩⟩⟩
          rcases hs : syntaxError t sem { p with stack := top :: rest } major m ex with ⟨p1, e⟩ | ⟨p1, e⟩ | w
          · right; exact ⟨p1, e, rfl, by simp [recover, h1, hf, h2, hs]⟩
          · left; exact ⟨p1, e, rfl, by simp [recover, h1, hf, h2, hs]⟩
          · exfalso
            rcases syntaxError_cases t sem { p with stack := top :: rest } major m ex with ⟨e, x, _, h⟩ | ⟨e, x, _, h⟩ <;>
              rw [hs] at h <;> cases h
        · have heq : recover t sem major m ex (top :: rest) p = recover t sem major m ex rest p := by
            simp [recover, h1, hf, h2]
          rw [heq]
          rcases ih p with h | ⟨popped, rest', hr, hp, h⟩
          · left; exact h
          · right
            refine ⟨top :: popped, rest', by simp [hr], ?_, h⟩
            intro e he
            rcases List.mem_cons.1 he with rfl | he
            · exact ⟨h1, act, hf, by omega⟩
            · exact hp e he

/-- Case analysis of the reaction to a syntax error. -/
theorem onError_cases (t : Tables) (sem : Sem V X E) (p : Parser V X) (top : Entry V) (major : Nat)
    (m : Minor V) :
    (∃ w, onError t sem p top major m = .panic w ∧ major ≠ 0) ∨
    (major = 0 ∧ onError t sem p top major m = .err (parseFailed sem p).1 (parseFailed sem p).2) ∨
    (∃ ex, t.expected top.state = .ok ex ∧ major ≠ 0 ∧
      ((t.errorSymbol ≠ 0 ∧
          ((∃ p1 e, recover t sem major m ex p.stack p = .err p1 e ∧
              onError t sem p top major m = .err p1 e) ∨
           (∃ p1, recover t sem major m ex p.stack p = .ok p1 () ∧ p1.stack = [] ∧
              onError t sem p top major m = .err (parseFailed sem p1).1 (parseFailed sem p1).2) ∨
           (∃ p1, recover t sem major m ex p.stack p = .ok p1 () ∧ p1.stack ≠ [] ∧
              onError t sem p top major m =
                .ok { p1 with errorCount := 3, trace := .discard major :: p1.trace } ()))) ∨
       (t.errorSymbol = 0 ∧ p.errorCount = 0 ∧
          ((∃ p1 e, syntaxError t sem p major m ex = .err p1 e ∧ onError t sem p top major m = .err p1 e) ∨
           (∃ p1 v, syntaxError t sem p major m ex = .ok p1 v ∧ onError t sem p top major m =
                .ok { p1 with errorCount := 3, trace := .discard major :: p1.trace } ()))) ∨
       (t.errorSymbol = 0 ∧ p.errorCount ≠ 0 ∧ onError t sem p top major m =
          .ok { p with errorCount := 3, trace := .discard major :: p.trace } ()))) := by
  by_cases h0 : major = 0
  · right; left; exact ⟨h0, by simp [onError, h0]⟩
  · cases hex : t.expected top.state with
    | error w => left; exact ⟨w, by simp [onError, h0, hex], h0⟩
    | ok ex =>
      by_cases h1 : t.errorSymbol ≠ 0
      · cases hr : recover t sem major m ex p.stack p with
        | panic w => left; exact ⟨w, by simp [onError, hex, h0, h1, hr], h0⟩
        | err p1 e =>
          right; right
          exact ⟨ex, rfl, h0, .inl ⟨h1, .inl ⟨p1, e, hr, by simp [onError, hex, h0, h1, hr]⟩⟩⟩
        | ok p1 u =>
          right; right
          cases hs : p1.stack with
          | nil =>
            exact ⟨ex, rfl, h0, .inl ⟨h1, .inr (.inl ⟨p1, hr, hs, by simp [onError, hex, h0, h1, hr, hs]⟩)⟩⟩
          | cons a b =>
            exact ⟨ex, rfl, h0, .inl ⟨h1, .inr (.inr ⟨p1, hr, by simp [hs], by simp [onError, hex, h0, h1, hr, hs]⟩)⟩⟩
      · have h1' : t.errorSymbol = 0 := by omega
        by_cases h2 : p.errorCount = 0
        · rcases hs : syntaxError t sem p major m ex with ⟨p1, v⟩ | ⟨p1, e⟩ | w
          · right; right
            exact ⟨ex, rfl, h0, .inr (.inl ⟨h1', h2, .inr ⟨p1, v, hs, by simp [onError, hex, h0, h1', h2, hs]⟩⟩)⟩
          · right; right
            exact ⟨ex, rfl, h0, .inr (.inl ⟨h1', h2, .inl ⟨p1, e, hs, by simp [onError, hex, h0, h1', h2, hs]⟩⟩)⟩
          · left; exact ⟨w, by simp [onError, hex, h0, h1', h2, hs], h0⟩
        · right; right
          exact ⟨ex, rfl, h0, .inr (.inr ⟨h1', h2, by simp [onError, hex, h0, h1', h2]⟩)⟩

end Pomelo
