import Verif.Spec.Plain
/-!
# Two parsers with the same automaton

Their tables differ in types and blocks only, the values they are given may be quite different; they make the same moves unless one of them meets a value of a wrong
type.
-/

namespace Pomelo

open Spec

/-- Equal but for types and blocks -/
structure SameMoves (t t' : Tables) : Prop where
  core : t.core = t'.core
  limit : t.stackLimit = t'.stackLimit

variable {V V' X X' E E' α α' : Type} {t t' : Tables} {sem : Sem V X E} {sem' : Sem V' X' E'}

theorem findShiftFuel_core (s : Nat) : ∀ (n la : Nat), t.core.findShiftFuel s n la = t.findShiftFuel s n la
  | 0, _ => rfl
  | n + 1, la => by
    unfold Tables.findShiftFuel
    rw [findShiftFuel_core s n]
    rfl

theorem findShift_core (s la : Nat) : t.core.findShift s la = t.findShift s la := findShiftFuel_core s _ la

theorem expected_core (s : Nat) : t.core.expected s = t.expected s := by
  unfold Tables.expected
  simp only [findShift_core]
  rfl

section
variable (c : SameMoves t t')
include c

theorem SameMoves.findShift (s la : Nat) : t.findShift s la = t'.findShift s la := by rw [← findShift_core, c.core, findShift_core]
theorem SameMoves.expected (s : Nat) : t.expected s = t'.expected s := by rw [← expected_core, c.core, expected_core]
theorem SameMoves.findReduce (s la : Nat) : t.findReduce s la = t'.findReduce s la := by
  rw [show t.findReduce s la = t.core.findReduce s la from rfl, c.core]; rfl
theorem SameMoves.nState : t.nState = t'.nState := by rw [show t.nState = t.core.nState from rfl, c.core]; rfl
theorem SameMoves.nRule : t.nRule = t'.nRule := by rw [show t.nRule = t.core.nRule from rfl, c.core]; rfl
theorem SameMoves.errorSymbol : t.errorSymbol = t'.errorSymbol := by rw [show t.errorSymbol = t.core.errorSymbol from rfl, c.core]; rfl
theorem SameMoves.ruleInfo : t.ruleInfo = t'.ruleInfo := by rw [show t.ruleInfo = t.core.ruleInfo from rfl, c.core]; rfl
theorem SameMoves.ruleCode : t.ruleCode.map (fun r => (⟨r.pats.map fun _ => none, none, 0⟩ : RuleCode)) =
    t'.ruleCode.map (fun r => (⟨r.pats.map fun _ => none, none, 0⟩ : RuleCode)) := by
  rw [show t.ruleCode.map (fun r => (⟨r.pats.map fun _ => none, none, 0⟩ : RuleCode)) = t.core.ruleCode from rfl, c.core]; rfl
end

theorem moves_stack {p : Parser V X} {p' : Parser V' X'} (h : p.moves = p'.moves) : p.stack.map Entry.moves = p'.stack.map Entry.moves :=
  congrArg Parser.stack h
theorem moves_count {p : Parser V X} {p' : Parser V' X'} (h : p.moves = p'.moves) : p.errorCount = p'.errorCount := congrArg Parser.errorCount h
theorem moves_status {p : Parser V X} {p' : Parser V' X'} (h : p.moves = p'.moves) : (p.status.image fun _ => ()) = p'.status.image fun _ => () :=
  congrArg Parser.status h
theorem moves_trace {p : Parser V X} {p' : Parser V' X'} (h : p.moves = p'.moves) : p.trace.map Event.moves = p'.trace.map Event.moves :=
  congrArg Parser.trace h
theorem moves_length {p : Parser V X} {p' : Parser V' X'} (h : p.moves = p'.moves) : p.stack.length = p'.stack.length := by
  have := congrArg List.length (moves_stack h); simpa using this

theorem moves_mk {n n' : Nat} {st : List (Entry V)} {st' : List (Entry V')} {x : X} {x' : X'} {s : Status V} {s' : Status V'} {tr : List (Event V)}
    {tr' : List (Event V')} (h1 : n = n') (h2 : st.map Entry.moves = st'.map Entry.moves) (h3 : (s.image fun _ => ()) = s'.image fun _ => ())
    (h4 : tr.map Event.moves = tr'.map Event.moves) : (⟨n, st, x, s, tr⟩ : Parser V X).moves = (⟨n', st', x', s', tr'⟩ : Parser V' X').moves := by
  unfold Parser.moves; simp only [h1, h2, h3, h4]

theorem cons_moves {β γ δ : Type} {k : β → δ} {k' : γ → δ} {a : β} {b : γ} {l : List β} {l' : List γ} (h : k a = k' b) (hl : l.map k = l'.map k') :
    (a :: l).map k = (b :: l').map k' := by
  rw [List.map_cons, List.map_cons, h, hl]

theorem moves_shift (c : SameMoves t t') {p : Parser V X} {p' : Parser V' X'} (h : p.moves = p'.moves) (s major : Nat) (m : Minor V) (m' : Minor V') :
    (shift t sem p s major m).moves = (shift t' sem' p' s major m').moves := by
  unfold shift
  rw [c.limit, moves_length h]
  split
  · exact congrArg (fun q => Res.err q ()) (moves_mk (moves_count h) (moves_stack h) (moves_status h) (cons_moves rfl (moves_trace h)))
  · exact congrArg (fun q => Res.ok q ()) (moves_mk (moves_count h) (cons_moves rfl (moves_stack h)) (moves_status h) (moves_trace h))

theorem moves_parseFailed {p : Parser V X} {p' : Parser V' X'} (h : p.moves = p'.moves) : (parseFailed sem p).1.moves = (parseFailed sem' p').1.moves := by
  show Parser.moves ⟨p.errorCount, [], (sem.parseFail p.extra).2, p.status, .parseFail :: p.trace⟩ =
    Parser.moves ⟨p'.errorCount, [], (sem'.parseFail p'.extra).2, p'.status, .parseFail :: p'.trace⟩
  exact moves_mk (moves_count h) rfl (moves_status h) (cons_moves rfl (moves_trace h))

theorem moves_syntaxError (n : NeverFails sem) (n' : NeverFails sem') {p : Parser V X} {p' : Parser V' X'} (h : p.moves = p'.moves) (major : Nat) (m : Minor V)
    (m' : Minor V') (ex : List Nat) : ∃ q e q' e', syntaxError t sem p major m ex = .ok q e ∧ syntaxError t' sem' p' major m' ex = .ok q' e' ∧
      q.moves = q'.moves := by
  unfold syntaxError
  simp only
  obtain ⟨v, hv⟩ := n.syntaxError (t.tokenBuild sem major m) ex p.extra
  obtain ⟨v', hv'⟩ := n'.syntaxError (t'.tokenBuild sem' major m') ex p'.extra
  rcases hs : sem.syntaxError (t.tokenBuild sem major m) ex p.extra with ⟨_ | w, x⟩
  · rw [hs] at hv; cases hv
  rcases hs' : sem'.syntaxError (t'.tokenBuild sem' major m') ex p'.extra with ⟨_ | w', x'⟩
  · rw [hs'] at hv'; cases hv'
  refine ⟨_, _, _, _, rfl, rfl, ?_⟩
  exact moves_mk (moves_count h) (moves_stack h) (moves_status h) (cons_moves rfl (moves_trace h))

/-- The same moves, or a wrong type on one side -/
def AlikeRes (r : Res V X E α) (r' : Res V' X' E' α') : Prop := r.mistyped ∨ r'.mistyped ∨ r.moves = r'.moves

theorem AlikeRes.of {r : Res V X E α} {r' : Res V' X' E' α'} (h : r.moves = r'.moves) : AlikeRes r r' := .inr (.inr h)

theorem moves_accept {p : Parser V X} {p' : Parser V' X'} (h : p.moves = p'.moves) (m : Minor V) (m' : Minor V') :
    AlikeRes (accept t sem p m) (accept t' sem' p' m') := by
  have hb : ∀ v v', ({ p with status := .accepted v, stack := [] } : Parser V X).moves = ({ p' with status := .accepted v', stack := [] } : Parser V' X').moves :=
    fun v v' => moves_mk (moves_count h) rfl rfl (moves_trace h)
  have key : (accept t sem p m).mistyped ∨ ∃ v, accept t sem p m = .ok { p with status := .accepted v, stack := [] } () := by
    unfold accept
    split
    · split
      · exact .inr ⟨_, rfl⟩
      · exact .inl (.inr rfl)
    · exact .inr ⟨_, rfl⟩
  have key' : (accept t' sem' p' m').mistyped ∨ ∃ v, accept t' sem' p' m' = .ok { p' with status := .accepted v, stack := [] } () := by
    unfold accept
    split
    · split
      · exact .inr ⟨_, rfl⟩
      · exact .inl (.inr rfl)
    · exact .inr ⟨_, rfl⟩
  rcases key with k | ⟨v, k⟩
  · exact .inl k
  rcases key' with k' | ⟨v', k'⟩
  · exact .inr (.inl k')
  rw [k, k']
  refine .of ?_
  simp only [Res.moves, hb v v']

theorem runCode_ok (n : NeverFails sem) (code : Option Code) (args : List V) (x : X) : ∃ v x', runCode sem code args x = (.ok v, x') := by
  rcases code with _ | (i | _ | _ | _)
  · exact ⟨_, _, rfl⟩
  · obtain ⟨v, hv⟩ := n.user i args x
    exact ⟨v, (sem.user i args x).2, Prod.ext hv rfl⟩
  · exact ⟨_, _, rfl⟩
  · exact ⟨_, _, rfl⟩
  · exact ⟨_, _, rfl⟩

theorem moves_reduce (c : SameMoves t t') (n : NeverFails sem) (n' : NeverFails sem') {p : Parser V X} {p' : Parser V' X'} (h : p.moves = p'.moves) (r : Nat) :
    AlikeRes (reduce t sem p r) (reduce t' sem' p' r) := by
  have hr := congrArg (·[r]?) c.ruleCode
  simp only [List.getElem?_map] at hr
  unfold reduce
  cases h1 : t.ruleCode[r]? with
  | none =>
    cases h2 : t'.ruleCode[r]? with
    | none => exact .of rfl
    | some rc' => rw [h1, h2] at hr; cases hr
  | some rc =>
    cases h2 : t'.ruleCode[r]? with
    | none => rw [h1, h2] at hr; cases hr
    | some rc' =>
      rw [h1, h2] at hr
      simp only [Option.map_some, Option.some.injEq, RuleCode.mk.injEq] at hr
      have hl : rc.pats.length = rc'.pats.length := by simpa using congrArg List.length hr.1
      simp only
      rw [hl, moves_length h]
      split
      · exact .of rfl
      cases h3 : matchPats rc.pats (p.stack.take rc'.pats.length).reverse with
      | none => exact .inl (.inl rfl)
      | some vs =>
        cases h4 : matchPats rc'.pats (p'.stack.take rc'.pats.length).reverse with
        | none => exact .inr (.inl (.inl rfl))
        | some vs' =>
          simp only
          obtain ⟨v, x, h5⟩ := runCode_ok n rc.code vs p.extra
          obtain ⟨v', x', h6⟩ := runCode_ok n' rc'.code vs' p'.extra
          rw [h5, h6]
          simp only
          rw [c.ruleInfo]
          cases t'.ruleInfo[r]? with
          | none => exact .of rfl
          | some lhs =>
            simp only
            have hd : (p.stack.drop rc'.pats.length).map Entry.moves = (p'.stack.drop rc'.pats.length).map Entry.moves := by
              rw [List.map_drop, List.map_drop, moves_stack h]
            have hq : ({ p with stack := p.stack.drop rc'.pats.length, extra := x, trace := .reduce r vs :: p.trace } : Parser V X).moves =
                ({ p' with stack := p'.stack.drop rc'.pats.length, extra := x', trace := .reduce r vs' :: p'.trace } : Parser V' X').moves :=
              moves_mk (moves_count h) hd (moves_status h) (cons_moves rfl (moves_trace h))
            cases h7 : p.stack.drop rc'.pats.length with
            | nil =>
              cases h8 : p'.stack.drop rc'.pats.length with
              | nil => exact .of rfl
              | cons top' rest' => rw [h7, h8] at hd; cases hd
            | cons top rest =>
              cases h8 : p'.stack.drop rc'.pats.length with
              | nil => rw [h7, h8] at hd; cases hd
              | cons top' rest' =>
                rw [h7, h8] at hd hq
                have ht : top.state = top'.state := congrArg Entry.state (List.cons.inj hd).1
                simp only
                rw [ht, c.findReduce, c.nState, c.nRule]
                cases t'.findReduce top'.state lhs with
                | error w => exact .of rfl
                | ok act =>
                  simp only
                  split
                  · exact .of (moves_shift c hq _ _ _ _)
                  · split
                    · exact moves_accept hq _ _
                    · exact .of rfl

theorem moves_recover (c : SameMoves t t') (n : NeverFails sem) (n' : NeverFails sem') (major : Nat) (m : Minor V) (m' : Minor V') (ex : List Nat) :
    ∀ (st : List (Entry V)) (st' : List (Entry V')) {p : Parser V X} {p' : Parser V' X'}, p.moves = p'.moves → st.map Entry.moves = st'.map Entry.moves →
      (recover t sem major m ex st p).moves = (recover t' sem' major m' ex st' p').moves
  | [], [], p, p', h, _ => by
    exact congrArg (fun q => Res.ok q ()) (moves_mk (moves_count h) rfl (moves_status h) (moves_trace h))
  | [], _ :: _, _, _, _, hs => by cases hs
  | _ :: _, [], _, _, _, hs => by cases hs
  | top :: rest, top' :: rest', p, p', h, hs => by
    have hq : ({ p with stack := top :: rest } : Parser V X).moves = ({ p' with stack := top' :: rest' } : Parser V' X').moves :=
      moves_mk (moves_count h) hs (moves_status h) (moves_trace h)
    have ht : top.state = top'.state := congrArg Entry.state (List.cons.inj hs).1
    have hm : top.major = top'.major := congrArg Entry.major (List.cons.inj hs).1
    simp only [recover]
    rw [hm, ht, c.errorSymbol, c.findReduce, c.nState]
    split
    · simp only [Res.moves, hq]
    cases t'.findReduce top'.state t'.errorSymbol with
    | error w => rfl
    | ok act =>
      simp only
      split
      · obtain ⟨q, e, q', e', h1, h2, h3⟩ := moves_syntaxError (t := t) (t' := t') n n' hq major m m' ex
        rw [h1, h2]
        exact moves_shift c h3 _ _ _ _
      · exact moves_recover c n n' major m m' ex rest rest' h (List.cons.inj hs).2

theorem moves_onError (c : SameMoves t t') (n : NeverFails sem) (n' : NeverFails sem') {p : Parser V X} {p' : Parser V' X'} (h : p.moves = p'.moves)
    {top : Entry V} {top' : Entry V'} (ht : top.state = top'.state) (major : Nat) (m : Minor V) (m' : Minor V') :
    (onError t sem p top major m).moves = (onError t' sem' p' top' major m').moves := by
  unfold onError
  split
  · simp only [Res.moves, moves_parseFailed (sem := sem) (sem' := sem') h]
  rw [ht, c.expected, c.errorSymbol]
  cases t'.expected top'.state with
  | error w => rfl
  | ok ex =>
    simp only
    split
    · have hr := moves_recover c n n' major m m' ex _ _ h (moves_stack h)
      cases h1 : recover t sem major m ex p.stack p with
      | panic w =>
        rw [h1] at hr
        cases h2 : recover t' sem' major m' ex p'.stack p' with
        | panic w' => rw [h2] at hr; cases hr; rfl
        | err q' e' => rw [h2] at hr; cases hr
        | ok q' u' => rw [h2] at hr; cases hr
      | err q e =>
        rw [h1] at hr
        cases h2 : recover t' sem' major m' ex p'.stack p' with
        | panic w' => rw [h2] at hr; cases hr
        | err q' e' => rw [h2] at hr; exact hr
        | ok q' u' => rw [h2] at hr; cases hr
      | ok q u =>
        rw [h1] at hr
        cases h2 : recover t' sem' major m' ex p'.stack p' with
        | panic w' => rw [h2] at hr; cases hr
        | err q' e' => rw [h2] at hr; cases hr
        | ok q' u' =>
          rw [h2] at hr
          have hq : q.moves = q'.moves := by injection hr
          have hst := moves_stack hq
          have hf : ({ q with errorCount := 3, trace := .discard major :: q.trace } : Parser V X).moves =
              ({ q' with errorCount := 3, trace := .discard major :: q'.trace } : Parser V' X').moves :=
            moves_mk rfl (moves_stack hq) (moves_status hq) (cons_moves rfl (moves_trace hq))
          simp only
          cases h3 : q.stack with
          | nil =>
            cases h4 : q'.stack with
            | nil => simp only [Res.moves, moves_parseFailed (sem := sem) (sem' := sem') hq]
            | cons => rw [h3, h4] at hst; cases hst
          | cons =>
            cases h4 : q'.stack with
            | nil => rw [h3, h4] at hst; cases hst
            | cons => rw [h3, h4] at hf; exact congrArg (fun q => Res.ok q ()) hf
    · rw [moves_count h]
      split
      · obtain ⟨q, e, q', e', h1, h2, h3⟩ := moves_syntaxError (t := t) (t' := t') n n' h major m m' ex
        rw [h1, h2]
        exact congrArg (fun q => Res.ok q ()) (moves_mk rfl (moves_stack h3) (moves_status h3) (cons_moves rfl (moves_trace h3)))
      · exact congrArg (fun q => Res.ok q ()) (moves_mk rfl (moves_stack h) (moves_status h) (cons_moves rfl (moves_trace h)))

/-- The same for one iteration -/
def AlikeStep : Step V X E → Step V' X' E' → Prop
  | .again p, .again p' => p.moves = p'.moves
  | .done r, .done r' => AlikeRes r r'
  | .done r, .again _ => r.mistyped
  | .again _, .done r' => r'.mistyped

theorem moves_step (c : SameMoves t t') (n : NeverFails sem) (n' : NeverFails sem') {p : Parser V X} {p' : Parser V' X'} (h : p.moves = p'.moves)
    (major : Nat) (m : Minor V) (m' : Minor V') : AlikeStep (step t sem p major m) (step t' sem' p' major m') := by
  have hs := moves_stack h
  unfold step
  cases h1 : p.stack with
  | nil =>
    cases h2 : p'.stack with
    | nil => exact .of rfl
    | cons => rw [h1, h2] at hs; cases hs
  | cons top rest =>
    cases h2 : p'.stack with
    | nil => rw [h1, h2] at hs; cases hs
    | cons top' rest' =>
      rw [h1, h2] at hs
      have ht : top.state = top'.state := congrArg Entry.state (List.cons.inj hs).1
      simp only
      rw [ht, c.findShift, c.nState, c.nRule]
      cases t'.findShift top'.state major with
      | error w => exact .of rfl
      | ok act =>
        simp only
        split
        · split
          · exact .of rfl
          · have hq := moves_shift (sem := sem) (sem' := sem') c h act major m m'
            cases h3 : shift t sem p act major m with
            | panic w =>
              rw [h3] at hq
              cases h4 : shift t' sem' p' act major m' with
              | panic w' => rw [h4] at hq; exact .of hq
              | err q' e' => rw [h4] at hq; cases hq
              | ok q' u' => rw [h4] at hq; cases hq
            | err q e =>
              rw [h3] at hq
              cases h4 : shift t' sem' p' act major m' with
              | panic w' => rw [h4] at hq; cases hq
              | err q' e' => rw [h4] at hq; exact .of hq
              | ok q' u' => rw [h4] at hq; cases hq
            | ok q u =>
              rw [h3] at hq
              cases h4 : shift t' sem' p' act major m' with
              | panic w' => rw [h4] at hq; cases hq
              | err q' e' => rw [h4] at hq; cases hq
              | ok q' u' =>
                rw [h4] at hq
                have hq : q.moves = q'.moves := by injection hq
                refine .of ?_
                exact congrArg (fun q => Res.ok q ()) (moves_mk (congrArg (· - 1) (moves_count hq)) (moves_stack hq) (moves_status hq) (cons_moves rfl (moves_trace hq)))
        · split
          · have hq := moves_reduce c n n' h (act - t'.nState)
            cases h3 : reduce t sem p (act - t'.nState) with
            | panic w =>
              rw [h3] at hq
              cases h4 : reduce t' sem' p' (act - t'.nState) with
              | panic w' => rw [h4] at hq; exact hq
              | err q' e' => rw [h4] at hq; rcases hq with k | k | k <;> first | exact .inl k | cases k
              | ok q' u' => rw [h4] at hq; rcases hq with k | k | k <;> first | exact k | cases k
            | err q e =>
              rw [h3] at hq
              cases h4 : reduce t' sem' p' (act - t'.nState) with
              | panic w' => rw [h4] at hq; exact hq
              | err q' e' => rw [h4] at hq; exact hq
              | ok q' u' => rw [h4] at hq; rcases hq with k | k | k <;> cases k
            | ok q u =>
              rw [h3] at hq
              cases h4 : reduce t' sem' p' (act - t'.nState) with
              | panic w' => rw [h4] at hq; rcases hq with k | k | k <;> first | exact k | cases k
              | err q' e' => rw [h4] at hq; rcases hq with k | k | k <;> cases k
              | ok q' u' =>
                rw [h4] at hq
                rcases hq with k | k | k
                · cases k
                · cases k
                · show q.moves = q'.moves
                  injection k
          · split
            · exact .of (moves_onError c n n' h ht major m m')
            · exact .of rfl

/-- The same for what may not have ended yet -/
def AlikeOpt (r : Option (Res V X E α)) (r' : Option (Res V' X' E' α')) : Prop :=
  (∃ a, r = some a ∧ a.mistyped) ∨ (∃ a, r' = some a ∧ a.mistyped) ∨ r.map Res.moves = r'.map Res.moves

theorem AlikeOpt.ofRes {r : Res V X E α} {r' : Res V' X' E' α'} (h : AlikeRes r r') : AlikeOpt (some r) (some r') := by
  rcases h with k | k | k
  · exact .inl ⟨_, rfl, k⟩
  · exact .inr (.inl ⟨_, rfl, k⟩)
  · exact .inr (.inr (congrArg Option.some k))

theorem AlikeOpt.bind {β β' : Type} {r : Option (Res V X E α)} {r' : Option (Res V' X' E' α')} (h : AlikeOpt r r')
    {k : Res V X E α → Option (Res V X E β)} {k' : Res V' X' E' α' → Option (Res V' X' E' β')} (hp : ∀ w, k (.panic w) = some (.panic w))
    (hp' : ∀ w, k' (.panic w) = some (.panic w)) (he : ∀ a a', a.moves = a'.moves → AlikeOpt (k a) (k' a')) : AlikeOpt (r.bind k) (r'.bind k') := by
  rcases h with ⟨a, rfl, ha⟩ | ⟨a, rfl, ha⟩ | h
  · cases a with
    | panic w => exact .inl ⟨_, hp w, ha⟩
    | ok | err => cases ha
  · cases a with
    | panic w => exact .inr (.inl ⟨_, hp' w, ha⟩)
    | ok | err => cases ha
  · cases r with
    | none =>
      cases r' with
      | none => exact .inr (.inr rfl)
      | some => cases h
    | some a =>
      cases r' with
      | none => cases h
      | some a' => exact he a a' (Option.some.inj h)

theorem moves_loop (c : SameMoves t t') (n : NeverFails sem) (n' : NeverFails sem') (major : Nat) (m : Minor V) (m' : Minor V') :
    ∀ (fuel : Nat) {p : Parser V X} {p' : Parser V' X'}, p.moves = p'.moves → AlikeOpt (loop t sem major m fuel p) (loop t' sem' major m' fuel p')
  | 0, _, _, _ => .inr (.inr rfl)
  | fuel + 1, p, p', h => by
    have hst := moves_status h
    have hd : AlikeOpt (some (.ok p ()) : Option (Res V X E Unit)) (some (.ok p' ()) : Option (Res V' X' E' Unit)) :=
      .ofRes (.of (by simp only [Res.moves, h]))
    unfold loop
    cases h1 : p.status <;> cases h2 : p'.status <;> rw [h1, h2] at hst <;> first | cases hst | skip
    · have hs := moves_step c n n' h major m m'
      simp only
      cases h3 : step t sem p major m with
      | again q =>
        rw [h3] at hs
        cases h4 : step t' sem' p' major m' with
        | again q' => rw [h4] at hs; exact moves_loop c n n' major m m' fuel hs
        | done r' => rw [h4] at hs; exact .inr (.inl ⟨_, rfl, hs⟩)
      | done r =>
        rw [h3] at hs
        cases h4 : step t' sem' p' major m' with
        | again q' => rw [h4] at hs; exact .inl ⟨_, rfl, hs⟩
        | done r' => rw [h4] at hs; exact .ofRes hs
    · exact hd
    · exact hd

theorem moves_parseToken (c : SameMoves t t') (n : NeverFails sem) (n' : NeverFails sem') (major : Nat) (m : Minor V) (m' : Minor V') (fuel : Nat)
    {p : Parser V X} {p' : Parser V' X'} (h : p.moves = p'.moves) : AlikeOpt (parseToken t sem fuel p major m) (parseToken t' sem' fuel p' major m') := by
  have hst := moves_status h
  have hl := moves_loop c n n' major m m' fuel h
  unfold parseToken
  cases h1 : p.status <;> cases h2 : p'.status <;> rw [h1, h2] at hst <;> first | cases hst | skip
  · simp only [Option.map_eq_bind]
    refine hl.bind (fun w => rfl) (fun w => rfl) ?_
    intro a a' ha
    refine .ofRes (.of ?_)
    cases a <;> cases a' <;> first | cases ha | skip
    · exact ha
    · rename_i q e q' e'
      have hq : q.moves = q'.moves := by injection ha
      exact congrArg (fun q => Res.err q ()) (moves_mk (moves_count hq) (moves_stack hq) rfl (moves_trace hq))
    · rfl
  · exact .inr (.inr rfl)
  · exact .inr (.inr rfl)

theorem moves_feed (c : SameMoves t t') (n : NeverFails sem) (n' : NeverFails sem') (fuel : Nat) : ∀ {toks : List (Tok V)} {toks' : List (Tok V')}
    {p : Parser V X} {p' : Parser V' X'}, toks.map Tok.major = toks'.map Tok.major → p.moves = p'.moves → AlikeOpt (feed t sem fuel p toks) (feed t' sem' fuel p' toks')
  | [], [], p, p', _, h => .ofRes (.of (by simp only [Res.moves, h]))
  | [], _ :: _, _, _, hm, _ => by cases hm
  | _ :: _, [], _, _, hm, _ => by cases hm
  | k :: toks, k' :: toks', p, p', hm, h => by
    have hk : k.major = k'.major := (List.cons.inj hm).1
    have hp : AlikeOpt (parse t sem fuel p k) (parse t' sem' fuel p' k') := by
      have := moves_parseToken c n n' k.major (t.tokenValue sem k).2 (t'.tokenValue sem' k').2 fuel h
      unfold parse
      simp only [Tables.tokenValue] at this ⊢
      rw [← hk] at this ⊢
      exact this
    have e1 : feed t sem fuel p (k :: toks) = (parse t sem fuel p k).bind fun r => match r with | .ok q _ => feed t sem fuel q toks | r => some r := by
      rw [feed]; rcases parse t sem fuel p k with _ | (_ | _ | _) <;> rfl
    have e2 : feed t' sem' fuel p' (k' :: toks') = (parse t' sem' fuel p' k').bind fun r => match r with | .ok q _ => feed t' sem' fuel q toks' | r => some r := by
      rw [feed]; rcases parse t' sem' fuel p' k' with _ | (_ | _ | _) <;> rfl
    rw [e1, e2]
    refine hp.bind (fun w => rfl) (fun w => rfl) ?_
    intro a a' ha
    cases a <;> cases a' <;> first | cases ha | skip
    · exact moves_feed c n n' fuel (List.cons.inj hm).2 (by injection ha)
    · exact .ofRes (.of ha)
    · exact .ofRes (.of rfl)

theorem moves_endOfInput (c : SameMoves t t') (n : NeverFails sem) (n' : NeverFails sem') (fuel : Nat) {p : Parser V X} {p' : Parser V' X'}
    (h : p.moves = p'.moves) : AlikeOpt (endOfInput t sem fuel p) (endOfInput t' sem' fuel p') := by
  have hp := moves_parseToken c n n' 0 ⟨0, sem.unit⟩ ⟨0, sem'.unit⟩ fuel h
  unfold endOfInput
  simp only [Option.map_eq_bind]
  refine hp.bind (fun w => rfl) (fun w => rfl) ?_
  intro a a' ha
  refine .ofRes (.of ?_)
  cases a <;> cases a' <;> first | cases ha | skip
  · rename_i q u q' u'
    have hq : q.moves = q'.moves := by injection ha
    have hst := moves_status hq
    simp only [Function.comp]
    cases h1 : q.status <;> cases h2 : q'.status <;> rw [h1, h2] at hst <;> first | cases hst | skip
    · rfl
    · rfl
    · simp only [Res.moves, hq]
  · exact ha
  · rfl

theorem moves_runAll (c : SameMoves t t') (n : NeverFails sem) (n' : NeverFails sem') (fuel : Nat) (x : X) (x' : X') {toks : List (Tok V)} {toks' : List (Tok V')}
    (hm : toks.map Tok.major = toks'.map Tok.major) : AlikeOpt (runAll t sem fuel x toks) (runAll t' sem' fuel x' toks') := by
  have hf := moves_feed c n n' fuel hm (p := Parser.new sem x) (p' := Parser.new sem' x') rfl
  have e1 : runAll t sem fuel x toks = (feed t sem fuel (Parser.new sem x) toks).bind fun r => match r with
      | .ok q _ => endOfInput t sem fuel q | .err q e => some (.err q e) | .panic w => some (.panic w) := by
    rw [runAll]; rcases feed t sem fuel (Parser.new sem x) toks with _ | (_ | _ | _) <;> rfl
  have e2 : runAll t' sem' fuel x' toks' = (feed t' sem' fuel (Parser.new sem' x') toks').bind fun r => match r with
      | .ok q _ => endOfInput t' sem' fuel q | .err q e => some (.err q e) | .panic w => some (.panic w) := by
    rw [runAll]; rcases feed t' sem' fuel (Parser.new sem' x') toks' with _ | (_ | _ | _) <;> rfl
  rw [e1, e2]
  refine hf.bind (fun w => rfl) (fun w => rfl) ?_
  intro a a' ha
  cases a <;> cases a' <;> first | cases ha | skip
  · exact moves_endOfInput c n n' fuel (by injection ha)
  · refine .ofRes (.of ?_); injection ha with ha; simp only [Res.moves, ha]
  · exact .ofRes (.of rfl)

end Pomelo
