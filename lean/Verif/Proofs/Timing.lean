import Verif.Spec.Timing
import Verif.Proofs.Report
/-!
# The moves of a run, token by token; parsers whose extra argument is seen through a function
-/

namespace Pomelo

open Spec

variable {t : Tables} {V X Y E : Type}

/-! ## One token -/

theorem reduce_ok_trace {sem : Sem V X E} {p p1 : Parser V X} {r : Nat} (h : reduce t sem p r = .ok p1 ()) : ∃ vs, p1.trace = .reduce r vs :: p.trace := by
  rcases reduce_cases t sem p r with ⟨w, e1⟩ | ⟨rc, vs, _, _, _, ⟨e', x', h1, e1⟩ | ⟨v, x', lhs, top, rest, act, _, _, _, _, ⟨_, e1⟩ | ⟨_, _, e1⟩⟩⟩
  · rw [e1] at h; cases h
  · rw [e1] at h; cases h
  · rw [e1] at h
    rcases shift_cases t sem { p with stack := p.stack.drop rc.pats.length, extra := x', trace := .reduce r vs :: p.trace } act lhs ⟨rc.lhsDt, v⟩ with
      ⟨_, _, h2⟩ | ⟨_, h2⟩ <;> rw [h2] at h <;> cases h
    exact ⟨vs, rfl⟩
  · rw [e1] at h
    rcases accept_cases t sem { p with stack := p.stack.drop rc.pats.length, extra := x', trace := .reduce r vs :: p.trace } ⟨rc.lhsDt, v⟩ with
      h2 | ⟨_, h2⟩ <;> rw [h2] at h <;> cases h
    exact ⟨vs, rfl⟩

theorem onError_ok_trace {sem : Sem V X E} {p p1 : Parser V X} {top : Entry V} {major : Nat} {m : Minor V} (h : onError t sem p top major m = .ok p1 ()) :
    Event.discard major ∈ p1.trace := by
  rcases onError_cases t sem p top major m with ⟨w, e, _⟩ | ⟨_, e⟩ | ⟨ex, _, _, ⟨_, ⟨_, _, _, e⟩ | ⟨_, _, _, e⟩ | ⟨_, _, _, e⟩⟩ | ⟨_, _, ⟨_, _, _, e⟩ | ⟨_, _, _, e⟩⟩ | ⟨_, _, e⟩⟩
  all_goals rw [e] at h; cases h
  all_goals exact List.mem_cons_self

/-- A token that is taken: some rules are reduced, then it is pushed. -/
theorem loop_taken {sem : Sem V X E} {major : Nat} {m : Minor V} {p1 : Parser V X} (hs : p1.status = .normal) (hk : ∀ n, Event.discard n ∉ p1.trace) :
    ∀ {fuel : Nat} {p : Parser V X}, loop t sem major m fuel p = some (.ok p1 ()) → p.status = .normal →
      ∃ l, p1.trace = .shift major :: (l ++ p.trace) ∧ ∀ e ∈ l, ∃ r vs, e = Event.reduce r vs := by
  intro fuel
  induction fuel with
  | zero => intro p h; cases h
  | succ fuel ih =>
    intro p h hp
    unfold loop at h
    rw [hp] at h
    simp only at h
    rcases step_cases t sem p major m with ⟨w, e1⟩ | ⟨top, rest, act, _, _, e3⟩
    · rw [e1] at h; cases h
    rcases e3 with ⟨_, _, ⟨q, e', h1, h2⟩ | ⟨q, h1, h2⟩⟩ | ⟨_, _, ⟨q, e', h1, h2⟩ | ⟨q, h1, h2⟩⟩ | ⟨_, h2⟩
    · rw [h2] at h; cases h
    · rw [h2] at h; cases h
      rcases shift_cases t sem p act major m with ⟨_, _, h3⟩ | ⟨_, h3⟩ <;> rw [h3] at h1 <;> cases h1
      exact ⟨[], rfl, fun _ h => nomatch h⟩
    · rw [h2] at h; cases h
    · rw [h2] at h
      simp only at h
      obtain ⟨vs, h3⟩ := reduce_ok_trace h1
      cases hq : q.status with
      | normal =>
        obtain ⟨l, h4, h5⟩ := ih h hq
        refine ⟨l ++ [.reduce (act - t.nState) vs], by rw [h4, h3]; simp, ?_⟩
        intro e he
        rcases List.mem_append.1 he with he | he
        · exact h5 e he
        · rw [List.mem_singleton] at he; exact ⟨_, _, he⟩
      | failed =>
        cases fuel with
        | zero => cases h
        | succ fuel => unfold loop at h; rw [hq] at h; cases h; rw [hs] at hq; cases hq
      | accepted v =>
        cases fuel with
        | zero => cases h
        | succ fuel => unfold loop at h; rw [hq] at h; cases h; rw [hs] at hq; cases hq
    · rw [h2] at h
      simp only [Option.some.injEq] at h
      exact absurd (onError_ok_trace h) (hk major)

theorem parse_normal {sem : Sem V X E} {fuel : Nat} {p p1 : Parser V X} {k : Tok V} (h : parse t sem fuel p k = some (.ok p1 ())) : p.status = .normal := by
  rcases parseToken_inv h with ⟨h1, _⟩ | ⟨h1, _⟩
  · cases h1
  · exact h1

theorem parse_taken {sem : Sem V X E} {fuel : Nat} {p p1 : Parser V X} {k : Tok V} (h : parse t sem fuel p k = some (.ok p1 ())) (hs : p1.status = .normal)
    (hk : ∀ n, Event.discard n ∉ p1.trace) : ∃ l, p1.trace = .shift k.major :: (l ++ p.trace) ∧ ∀ e ∈ l, ∃ r vs, e = Event.reduce r vs := by
  rcases parseToken_inv h with ⟨h1, _⟩ | ⟨hp, r', hl, hr⟩
  · cases h1
  rcases hr with ⟨p2, e2, rfl, h2⟩ | ⟨h1, rfl⟩
  · cases h2
  · exact loop_taken hs hk hl hp

theorem feed_normal {sem : Sem V X E} {fuel : Nat} {p p1 : Parser V X} {toks : List (Tok V)} (h : feed t sem fuel p toks = some (.ok p1 ()))
    (hs : p1.status = .normal) : p.status = .normal := by
  cases toks with
  | nil => cases h; exact hs
  | cons k toks =>
    rw [feed] at h
    split at h
    · rename_i h1; exact parse_normal h1
    · rename_i h1; exact parse_normal h

theorem movesOf_append (n : Nat) (l m : List (Event V)) : movesOf n (l ++ m) = movesOf n m ++ movesOf n l := by
  simp [movesOf, List.reverse_append, List.filterMap_append]

theorem movesOf_shift (n a : Nat) (m : List (Event V)) : movesOf n (.shift a :: m) = movesOf n m ++ [.read a] := by
  simp [movesOf, List.filterMap_append]

theorem movesOf_reduces (n : Nat) {l : List (Event V)} (h : ∀ e ∈ l, ∃ r vs, e = Event.reduce r vs) : ∀ M ∈ movesOf n l, ∃ r, M = .rule r := by
  intro M hM
  unfold movesOf at hM
  obtain ⟨e, he, h1⟩ := List.mem_filterMap.1 hM
  obtain ⟨r, vs, rfl⟩ := h e (List.mem_reverse.1 he)
  simp only at h1
  split at h1
  · cases h1; exact ⟨_, rfl⟩
  · cases h1

theorem upTo_rules {k a : Nat} {N : List Move} : ∀ {R : List Move}, (∀ M ∈ R, ∃ r, M = .rule r) → upTo (k + 1) (R ++ .read a :: N) = R ++ .read a :: upTo k N
  | [], _ => rfl
  | M :: R, h => by
    obtain ⟨r, rfl⟩ := h M List.mem_cons_self
    rw [List.cons_append, upTo, upTo_rules fun M hM => h M (List.mem_cons_of_mem _ hM)]
    rfl

/-- Tokens that are all taken: the new moves are those up to the last of the tokens, whatever comes after. -/
theorem feed_taken (n : Nat) {sem : Sem V X E} {fuel : Nat} {p1 : Parser V X} (hs : p1.status = .normal) (hk : ∀ n, Event.discard n ∉ p1.trace) :
    ∀ {toks : List (Tok V)} {p : Parser V X}, feed t sem fuel p toks = some (.ok p1 ()) →
      ∃ M, movesOf n p1.trace = movesOf n p.trace ++ M ∧ ∀ N, upTo toks.length (M ++ N) = M := by
  intro toks
  induction toks with
  | nil => intro p h; cases h; exact ⟨[], by simp, fun N => by simp [upTo]⟩
  | cons k toks ih =>
    intro p h
    rw [feed] at h
    split at h
    · rename_i p2 h1
      have hs2 := feed_normal h hs
      have hk2 : ∀ n, Event.discard n ∉ p2.trace := fun n hm => hk n ((feed_suffix h rfl).mem hm)
      obtain ⟨l, h2, h3⟩ := parse_taken h1 hs2 hk2
      obtain ⟨M, h4, h5⟩ := ih h
      refine ⟨movesOf n l ++ .read k.major :: M, ?_, fun N => ?_⟩
      · rw [h4, h2, movesOf_shift, movesOf_append]; simp
      · rw [List.append_assoc, List.cons_append, List.length_cons, upTo_rules (movesOf_reduces n h3), h5]
    · rename_i h1
      exact absurd h (h1 p1)

/-! ## The extra argument seen through a function -/

/-- The parser with what `f` makes of its extra argument -/
def Parser.see (f : Y → X) (p : Parser V Y) : Parser V X := ⟨p.errorCount, p.stack, f p.extra, p.status, p.trace⟩

def Res.see {α : Type} (f : Y → X) : Res V Y E α → Res V X E α
  | .ok p a => .ok (p.see f) a
  | .err p e => .err (p.see f) e
  | .panic w => .panic w

/-- User code with another extra argument that does, seen through `f`, the same -/
structure Sees (f : Y → X) (sem' : Sem V Y E) (sem : Sem V X E) : Prop where
  unit : sem'.unit = sem.unit
  none : sem'.none = sem.none
  some : sem'.some = sem.some
  user : ∀ n args y, sem.user n args (f y) = ((sem'.user n args y).1, f (sem'.user n args y).2)
  syntaxError : ∀ tok ex y, sem.syntaxError tok ex (f y) = ((sem'.syntaxError tok ex y).1, f (sem'.syntaxError tok ex y).2)
  parseFail : ∀ y, sem.parseFail (f y) = ((sem'.parseFail y).1, f (sem'.parseFail y).2)
  stackOverflow : ∀ tok y, sem.stackOverflow tok (f y) = ((sem'.stackOverflow tok y).1, f (sem'.stackOverflow tok y).2)

variable {f : Y → X} {sem' : Sem V Y E} {sem : Sem V X E}

theorem Sees.tokenValue (h : Sees f sem' sem) (tok : Tok V) : t.tokenValue sem tok = t.tokenValue sem' tok := by
  unfold Tables.tokenValue; rw [h.unit]

theorem Sees.tokenBuild (h : Sees f sem' sem) (i : Nat) (m : Minor V) : t.tokenBuild sem i m = t.tokenBuild sem' i m := by
  unfold Tables.tokenBuild; rw [h.unit]

theorem Sees.runCode (h : Sees f sem' sem) (c : Option Code) (args : List V) (y : Y) :
    Pomelo.runCode sem c args (f y) = ((Pomelo.runCode sem' c args y).1, f (Pomelo.runCode sem' c args y).2) := by
  rcases c with _ | (n | _ | _ | _)
  · simp [Pomelo.runCode, h.unit]
  · simp [Pomelo.runCode, h.user]
  · simp [Pomelo.runCode, h.unit]
  · simp [Pomelo.runCode, h.none]
  · simp [Pomelo.runCode, h.some, h.unit]

theorem Sees.shift (h : Sees f sem' sem) (p : Parser V Y) (s major : Nat) (m : Minor V) :
    Pomelo.shift t sem (p.see f) s major m = (Pomelo.shift t sem' p s major m).see f := by
  unfold Pomelo.shift
  rw [h.tokenBuild]
  simp only [Parser.see, h.stackOverflow]
  split <;> rfl

theorem Sees.accept (h : Sees f sem' sem) (p : Parser V Y) (m : Minor V) : Pomelo.accept t sem (p.see f) m = (Pomelo.accept t sem' p m).see f := by
  unfold Pomelo.accept
  rw [h.unit]
  repeat' split
  all_goals rfl

theorem Sees.parseFailed (h : Sees f sem' sem) (p : Parser V Y) :
    Pomelo.parseFailed sem (p.see f) = ((Pomelo.parseFailed sem' p).1.see f, (Pomelo.parseFailed sem' p).2) := by
  unfold Pomelo.parseFailed
  simp only [Parser.see, h.parseFail]

theorem Sees.syntaxErr (h : Sees f sem' sem) (p : Parser V Y) (major : Nat) (m : Minor V) (ex : List Nat) :
    Pomelo.syntaxError t sem (p.see f) major m ex = (Pomelo.syntaxError t sem' p major m ex).see f := by
  unfold Pomelo.syntaxError
  rw [h.tokenBuild]
  simp only [Parser.see, h.syntaxError]
  rcases sem'.syntaxError (t.tokenBuild sem' major m) ex p.extra with ⟨_ | _, _⟩ <;> rfl

theorem Sees.reduce (h : Sees f sem' sem) (p : Parser V Y) (r : Nat) : Pomelo.reduce t sem (p.see f) r = (Pomelo.reduce t sem' p r).see f := by
  unfold Pomelo.reduce
  cases t.ruleCode[r]? with
  | none => rfl
  | some rc =>
    simp only [Parser.see, h.runCode]
    split
    · rfl
    cases matchPats rc.pats (p.stack.take rc.pats.length).reverse with
    | none => rfl
    | some vs =>
      simp only
      rcases Pomelo.runCode sem' rc.code vs p.extra with ⟨_ | v, x⟩
      · rfl
      simp only
      cases t.ruleInfo[r]? with
      | none => rfl
      | some lhs =>
        simp only
        cases p.stack.drop rc.pats.length with
        | nil => rfl
        | cons top rest =>
          simp only
          cases t.findReduce top.state lhs with
          | error w => rfl
          | ok act =>
            simp only
            split
            · exact h.shift ⟨p.errorCount, top :: rest, x, p.status, .reduce r vs :: p.trace⟩ _ _ _
            · split
              · exact h.accept ⟨p.errorCount, top :: rest, x, p.status, .reduce r vs :: p.trace⟩ _
              · rfl

theorem Sees.recover (h : Sees f sem' sem) (major : Nat) (m : Minor V) (ex : List Nat) : ∀ (st : List (Entry V)) (p : Parser V Y),
    Pomelo.recover t sem major m ex st (p.see f) = (Pomelo.recover t sem' major m ex st p).see f
  | [], p => rfl
  | top :: rest, p => by
    unfold Pomelo.recover
    split
    · rfl
    cases t.findReduce top.state t.errorSymbol with
    | error w => rfl
    | ok act =>
      simp only
      split
      · have := h.syntaxErr (t := t) { p with stack := top :: rest } major m ex
        rw [show ({ p.see f with stack := top :: rest } : Parser V X) = ({ p with stack := top :: rest } : Parser V Y).see f from rfl, this]
        cases Pomelo.syntaxError t sem' { p with stack := top :: rest } major m ex with
        | panic w => rfl
        | err q e => rfl
        | ok q e => exact h.shift q _ _ _
      · exact h.recover major m ex rest p

theorem Sees.onError (h : Sees f sem' sem) (p : Parser V Y) (top : Entry V) (major : Nat) (m : Minor V) :
    Pomelo.onError t sem (p.see f) top major m = (Pomelo.onError t sem' p top major m).see f := by
  unfold Pomelo.onError
  split
  · rw [h.parseFailed]; rfl
  cases t.expected top.state with
  | error w => rfl
  | ok ex =>
    simp only
    split
    · rw [show (p.see f).stack = p.stack from rfl, h.recover]
      cases Pomelo.recover t sem' major m ex p.stack p with
      | panic w => rfl
      | err q e => rfl
      | ok q u =>
        simp only [Res.see]
        rw [show (q.see f).stack = q.stack from rfl]
        cases q.stack with
        | nil => simp only [h.parseFailed]
        | cons => rfl
    · rw [show (p.see f).errorCount = p.errorCount from rfl]
      split
      · rw [h.syntaxErr]
        cases Pomelo.syntaxError t sem' p major m ex with
        | panic w => rfl
        | err q e => rfl
        | ok q e => rfl
      · rfl

def Step.see (f : Y → X) : Step V Y E → Step V X E
  | .again p => .again (p.see f)
  | .done r => .done (r.see f)

theorem Sees.step (h : Sees f sem' sem) (p : Parser V Y) (major : Nat) (m : Minor V) : Pomelo.step t sem (p.see f) major m = (Pomelo.step t sem' p major m).see f := by
  unfold Pomelo.step
  rw [show (p.see f).stack = p.stack from rfl]
  cases p.stack with
  | nil => rfl
  | cons top rest =>
    simp only
    cases t.findShift top.state major with
    | error w => rfl
    | ok act =>
      simp only [h.shift, h.reduce, h.onError]
      split
      · split
        · rfl
        · cases Pomelo.shift t sem' p act major m <;> rfl
      · split
        · cases Pomelo.reduce t sem' p (act - t.nState) <;> rfl
        · split <;> rfl

theorem Sees.loop (h : Sees f sem' sem) (major : Nat) (m : Minor V) : ∀ (fuel : Nat) (p : Parser V Y),
    Pomelo.loop t sem major m fuel (p.see f) = (Pomelo.loop t sem' major m fuel p).map (Res.see f)
  | 0, _ => rfl
  | fuel + 1, p => by
    unfold Pomelo.loop
    rw [show (p.see f).status = p.status from rfl]
    cases p.status with
    | normal =>
      simp only [h.step]
      cases Pomelo.step t sem' p major m with
      | again q => exact h.loop major m fuel q
      | done r => rfl
    | failed => rfl
    | accepted v => rfl

theorem Sees.parseToken (h : Sees f sem' sem) (fuel : Nat) (p : Parser V Y) (major : Nat) (m : Minor V) :
    Pomelo.parseToken t sem fuel (p.see f) major m = (Pomelo.parseToken t sem' fuel p major m).map (Res.see f) := by
  unfold Pomelo.parseToken
  rw [show (p.see f).status = p.status from rfl]
  cases p.status with
  | normal =>
    simp only [h.loop]
    cases Pomelo.loop t sem' major m fuel p with
    | none => rfl
    | some r => cases r <;> rfl
  | failed => rfl
  | accepted v => rfl

theorem Sees.parse (h : Sees f sem' sem) (fuel : Nat) (p : Parser V Y) (tok : Tok V) :
    Pomelo.parse t sem fuel (p.see f) tok = (Pomelo.parse t sem' fuel p tok).map (Res.see f) := by
  unfold Pomelo.parse
  rw [h.tokenValue]
  exact h.parseToken _ _ _ _

theorem Sees.feed (h : Sees f sem' sem) (fuel : Nat) : ∀ (toks : List (Tok V)) (p : Parser V Y),
    Pomelo.feed t sem fuel (p.see f) toks = (Pomelo.feed t sem' fuel p toks).map (Res.see f)
  | [], _ => rfl
  | k :: toks, p => by
    unfold Pomelo.feed
    rw [h.parse]
    cases Pomelo.parse t sem' fuel p k with
    | none => rfl
    | some r =>
      cases r with
      | ok q u => exact h.feed fuel toks q
      | err q e => rfl
      | panic w => rfl

theorem Sees.endOfInput (h : Sees f sem' sem) (fuel : Nat) (p : Parser V Y) :
    Pomelo.endOfInput t sem fuel (p.see f) = (Pomelo.endOfInput t sem' fuel p).map (Res.see f) := by
  unfold Pomelo.endOfInput
  rw [h.unit, h.parseToken]
  cases Pomelo.parseToken t sem' fuel p 0 ⟨0, sem.unit⟩ with
  | none => rfl
  | some r =>
    cases r with
    | ok q u =>
      simp only [Option.map_some, Res.see, Option.some.injEq]
      rw [show (q.see f).status = q.status from rfl]
      cases q.status <;> rfl
    | err q e => rfl
    | panic w => rfl

theorem Sees.new (h : Sees f sem' sem) (y : Y) : Parser.new sem (f y) = (Parser.new sem' y).see f := by
  unfold Parser.new Parser.see; rw [h.unit]

theorem Sees.runAll (h : Sees f sem' sem) (fuel : Nat) (y : Y) (toks : List (Tok V)) :
    Pomelo.runAll t sem fuel (f y) toks = (Pomelo.runAll t sem' fuel y toks).map (Res.see f) := by
  unfold Pomelo.runAll
  rw [h.new, h.feed]
  cases Pomelo.feed t sem' fuel (Parser.new sem' y) toks with
  | none => rfl
  | some r =>
    cases r with
    | ok q u => exact h.endOfInput fuel q
    | err q e => rfl
    | panic w => rfl

/-! ## An extra argument that remembers its history -/

/-- User code that keeps the old values of the extra argument -/
def remembering (sem : Sem V X E) : Sem V (X × List X) E where
  unit := sem.unit
  none := sem.none
  some := sem.some
  user n args y := ((sem.user n args y.1).1, ((sem.user n args y.1).2, y.1 :: y.2))
  syntaxError tok ex y := ((sem.syntaxError tok ex y.1).1, ((sem.syntaxError tok ex y.1).2, y.2))
  parseFail y := ((sem.parseFail y.1).1, ((sem.parseFail y.1).2, y.2))
  stackOverflow tok y := ((sem.stackOverflow tok y.1).1, ((sem.stackOverflow tok y.1).2, y.2))

theorem sees_remembering (sem : Sem V X E) : Sees Prod.fst (remembering sem) sem := by
  constructor <;> intros <;> rfl

/-- The event is a block of the user. -/
def Tables.runsBlock (t : Tables) : Event V → Bool
  | .reduce r _ => match t.ruleCode[r]? with | some ⟨_, some (.user _), _⟩ => true | _ => false
  | _ => false

/-- All values of the extra argument so far, the last one first -/
def Parser.history (p : Parser V (X × List X)) : List X := p.extra.1 :: p.extra.2

/-- The new values are as many as the blocks that were run. -/
def Grew (t : Tables) (p p1 : Parser V (X × List X)) : Prop :=
  ∃ evs new, p1.trace = evs ++ p.trace ∧ p1.history = new ++ p.history ∧ new.length = evs.countP t.runsBlock

theorem Grew.refl (p : Parser V (X × List X)) : Grew t p p := ⟨[], [], rfl, rfl, rfl⟩

theorem Grew.trans {p p1 p2 : Parser V (X × List X)} (h : Grew t p p1) (h' : Grew t p1 p2) : Grew t p p2 := by
  obtain ⟨a, b, h1, h2, h3⟩ := h
  obtain ⟨c, d, k1, k2, k3⟩ := h'
  exact ⟨c ++ a, d ++ b, by rw [k1, h1, List.append_assoc], by rw [k2, h2, List.append_assoc], by rw [List.length_append, List.countP_append, h3, k3]⟩

theorem reduce_grew {sem : Sem V X E} {p p1 : Parser V (X × List X)} {r : Nat} (h : reduce t (remembering sem) p r = .ok p1 ()) : Grew t p p1 := by
  rcases reduce_cases t (remembering sem) p r with ⟨w, e1⟩ | ⟨rc, vs, h0, _, _, ⟨e', x', h1, e1⟩ | ⟨v, x', lhs, top, rest, act, hv, _, _, _, e1⟩⟩
  · rw [e1] at h; cases h
  · rw [e1] at h; cases h
  have key : p1.trace = .reduce r vs :: p.trace ∧ p1.extra = x' := by
    rcases e1 with ⟨_, e1⟩ | ⟨_, _, e1⟩
    · rw [e1] at h
      rcases shift_cases t (remembering sem) { p with stack := p.stack.drop rc.pats.length, extra := x', trace := .reduce r vs :: p.trace } act lhs ⟨rc.lhsDt, v⟩ with
        ⟨_, _, h2⟩ | ⟨_, h2⟩ <;> rw [h2] at h <;> cases h
      exact ⟨rfl, rfl⟩
    · rw [e1] at h
      rcases accept_cases t (remembering sem) { p with stack := p.stack.drop rc.pats.length, extra := x', trace := .reduce r vs :: p.trace } ⟨rc.lhsDt, v⟩ with
        h2 | ⟨_, h2⟩ <;> rw [h2] at h <;> cases h
      exact ⟨rfl, rfl⟩
  obtain ⟨k1, k2⟩ := key
  obtain ⟨pats, code, dt⟩ := rc
  unfold runCode at hv
  rcases code with _ | (n | _ | _ | _)
  · cases hv
    exact ⟨[.reduce r vs], [], k1, by unfold Parser.history; rw [k2]; rfl, by simp [Tables.runsBlock, h0]⟩
  · simp only [remembering, Prod.mk.injEq] at hv
    obtain ⟨_, hv⟩ := hv
    exact ⟨[.reduce r vs], [x'.1], k1, by unfold Parser.history; rw [k2, ← hv]; rfl, by simp [Tables.runsBlock, h0]⟩
  all_goals
    cases hv
    exact ⟨[.reduce r vs], [], k1, by unfold Parser.history; rw [k2]; rfl, by simp [Tables.runsBlock, h0]⟩

theorem loop_grew {sem : Sem V X E} {major : Nat} {m : Minor V} {p1 : Parser V (X × List X)} (hk : ∀ n, Event.discard n ∉ p1.trace) :
    ∀ {fuel : Nat} {p : Parser V (X × List X)}, loop t (remembering sem) major m fuel p = some (.ok p1 ()) → Grew t p p1 := by
  intro fuel
  induction fuel with
  | zero => intro p h; cases h
  | succ fuel ih =>
    intro p h
    unfold loop at h
    split at h
    · rcases step_cases t (remembering sem) p major m with ⟨w, e1⟩ | ⟨top, rest, act, _, _, e3⟩
      · rw [e1] at h; cases h
      rcases e3 with ⟨_, _, ⟨q, e', h1, h2⟩ | ⟨q, h1, h2⟩⟩ | ⟨_, _, ⟨q, e', h1, h2⟩ | ⟨q, h1, h2⟩⟩ | ⟨_, h2⟩
      · rw [h2] at h; cases h
      · rw [h2] at h; cases h
        rcases shift_cases t (remembering sem) p act major m with ⟨_, _, h3⟩ | ⟨_, h3⟩ <;> rw [h3] at h1 <;> cases h1
        exact ⟨[.shift major], [], rfl, rfl, rfl⟩
      · rw [h2] at h; cases h
      · rw [h2] at h
        exact (reduce_grew h1).trans (ih h)
      · rw [h2] at h
        simp only [Option.some.injEq] at h
        exact absurd (onError_ok_trace h) (hk major)
    · cases h; exact .refl _

theorem parseToken_grew {sem : Sem V X E} {fuel : Nat} {p p1 : Parser V (X × List X)} {major : Nat} {m : Minor V} (hk : ∀ n, Event.discard n ∉ p1.trace)
    (h : parseToken t (remembering sem) fuel p major m = some (.ok p1 ())) : Grew t p p1 := by
  rcases parseToken_inv h with ⟨h1, _⟩ | ⟨hp, r', hl, hr⟩
  · cases h1
  rcases hr with ⟨p2, e2, rfl, h2⟩ | ⟨h1, rfl⟩
  · cases h2
  · exact loop_grew hk hl

theorem feed_grew {sem : Sem V X E} {fuel : Nat} {p1 : Parser V (X × List X)} (hk : ∀ n, Event.discard n ∉ p1.trace) : ∀ {toks : List (Tok V)}
    {p : Parser V (X × List X)}, feed t (remembering sem) fuel p toks = some (.ok p1 ()) → Grew t p p1 := by
  intro toks
  induction toks with
  | nil => intro p h; cases h; exact .refl _
  | cons k toks ih =>
    intro p h
    rw [feed] at h
    split at h
    · rename_i p2 h1
      exact (parseToken_grew (fun n hm => hk n ((feed_suffix h rfl).mem hm)) h1).trans (ih h)
    · rename_i h1
      exact absurd h (h1 p1)

/-- An accepted run that has taken `toks` so far -/
theorem runAll_split {sem : Sem V X E} {fuel : Nat} {x : X} {toks rest : List (Tok V)} {pf : Parser V X} {v : V}
    (h : runAll t sem fuel x (toks ++ rest) = some (.ok pf v)) :
    ∃ p p3, feed t sem fuel (Parser.new sem x) toks = some (.ok p ()) ∧ feed t sem fuel p rest = some (.ok p3 ()) ∧
      parseToken t sem fuel p3 0 ⟨0, sem.unit⟩ = some (.ok pf ()) := by
  unfold runAll at h
  rw [feed_append] at h
  cases hf : feed t sem fuel (Parser.new sem x) toks with
  | none => rw [hf] at h; cases h
  | some r0 =>
    rw [hf] at h
    cases r0 with
    | panic w => cases h
    | err p1 e => cases h
    | ok p1 u =>
      simp only at h
      cases hr : feed t sem fuel p1 rest with
      | none => rw [hr] at h; cases h
      | some r3 =>
        rw [hr] at h
        cases r3 with
        | panic w => cases h
        | err p3 e => cases h
        | ok p3 u =>
          simp only at h
          unfold endOfInput at h
          rw [Option.map_eq_some_iff] at h
          obtain ⟨r4, h4, h5⟩ := h
          refine ⟨p1, p3, rfl, hr, ?_⟩
          cases r4 with
          | panic w => cases h5
          | err p4 e => cases h5
          | ok p4 u =>
            simp only at h5
            split at h5
            · cases h5; exact h4
            · cases h5

end Pomelo
