import Verif.Spec.Memory
/-! # The log is not read -/

namespace Pomelo

open Spec

variable {V X E α : Type} {t : Tables} {sem : Sem V X E}

/-- The parser with more at the beginning of its log -/
def Parser.after (l : List (Event V)) (p : Parser V X) : Parser V X := { p with trace := p.trace ++ l }

def Res.after (l : List (Event V)) : Res V X E α → Res V X E α
  | .ok p a => .ok (p.after l) a
  | .err p e => .err (p.after l) e
  | .panic w => .panic w

def Step.after (l : List (Event V)) : Step V X E → Step V X E
  | .again p => .again (p.after l)
  | .done r => .done (r.after l)

variable (l : List (Event V)) (p : Parser V X)

theorem shift_after (s major : Nat) (m : Minor V) : shift t sem (p.after l) s major m = (shift t sem p s major m).after l := by
  unfold shift Parser.after
  dsimp only
  split <;> rfl

theorem parseFailed_after : parseFailed sem (p.after l) = ((parseFailed sem p).1.after l, (parseFailed sem p).2) := rfl

theorem syntaxError_after (major : Nat) (m : Minor V) (ex : List Nat) :
    syntaxError t sem (p.after l) major m ex = (syntaxError t sem p major m ex).after l := by
  unfold syntaxError Parser.after
  dsimp only
  rcases sem.syntaxError (t.tokenBuild sem major m) ex p.extra with ⟨e | v, x⟩ <;> rfl

theorem accept_after (m : Minor V) : accept t sem (p.after l) m = (accept t sem p m).after l := by
  unfold accept
  cases t.rootDt with
  | none => rfl
  | some n =>
    dsimp only
    split <;> rfl

theorem reduce_after (r : Nat) : reduce t sem (p.after l) r = (reduce t sem p r).after l := by
  unfold reduce
  cases t.ruleCode[r]? with
  | none => rfl
  | some rc =>
    show (if p.stack.length < rc.pats.length then _ else _) = _
    dsimp only
    split
    · rfl
    · show (match matchPats rc.pats (p.stack.take rc.pats.length).reverse with | none => _ | some vs => _) = _
      cases matchPats rc.pats (p.stack.take rc.pats.length).reverse with
      | none => rfl
      | some vs =>
        show (match runCode sem rc.code vs p.extra with | (.error e, x) => _ | (.ok v, x) => _) = _
        dsimp only
        rcases runCode sem rc.code vs p.extra with ⟨e | v, x⟩
        · rfl
        · dsimp only
          cases t.ruleInfo[r]? with
          | none => rfl
          | some lhs =>
            dsimp only
            rw [show List.drop rc.pats.length (p.after l).stack = p.stack.drop rc.pats.length from rfl]
            cases hd : p.stack.drop rc.pats.length with
            | nil => rfl
            | cons top rest =>
              dsimp only
              cases t.findReduce top.state lhs with
              | error w => rfl
              | ok act =>
                dsimp only
                split
                · exact shift_after l (⟨p.errorCount, top :: rest, x, p.status, .reduce r vs :: p.trace⟩ : Parser V X) act lhs ⟨rc.lhsDt, v⟩
                · split
                  · exact accept_after l (⟨p.errorCount, top :: rest, x, p.status, .reduce r vs :: p.trace⟩ : Parser V X) ⟨rc.lhsDt, v⟩
                  · rfl

theorem recover_after (major : Nat) (m : Minor V) (ex : List Nat) : ∀ (stk : List (Entry V)) (p : Parser V X),
    recover t sem major m ex stk (p.after l) = (recover t sem major m ex stk p).after l
  | [], p => rfl
  | top :: rest, p => by
    unfold recover
    split
    · rfl
    · cases t.findReduce top.state t.errorSymbol with
      | error w => rfl
      | ok act =>
        dsimp only
        split
        · have h := syntaxError_after (t := t) (sem := sem) l { p with stack := top :: rest } major m ex
          rw [show ({ p.after l with stack := top :: rest } : Parser V X) = ({ p with stack := top :: rest } : Parser V X).after l from rfl, h]
          cases syntaxError t sem { p with stack := top :: rest } major m ex with
          | panic w => rfl
          | err p e => rfl
          | ok p e => exact shift_after l p _ _ _
        · exact recover_after major m ex rest p

theorem onError_after (top : Entry V) (major : Nat) (m : Minor V) :
    onError t sem (p.after l) top major m = (onError t sem p top major m).after l := by
  unfold onError
  split
  · rfl
  · cases t.expected top.state with
    | error w => rfl
    | ok ex =>
      dsimp only
      split
      · rw [show (p.after l).stack = p.stack from rfl, recover_after]
        cases recover t sem major m ex p.stack p with
        | panic w => rfl
        | err p e => rfl
        | ok q _ =>
          obtain ⟨a, stk, b, c, d⟩ := q
          cases stk <;> rfl
      · show (if p.errorCount = 0 then _ else _) = _
        split
        · rw [syntaxError_after]
          cases syntaxError t sem p major m ex with
          | panic w => rfl
          | err p e => rfl
          | ok p e => rfl
        · rfl

theorem step_after (major : Nat) (m : Minor V) : step t sem (p.after l) major m = (step t sem p major m).after l := by
  unfold step
  show (match p.stack with | [] => _ | top :: _ => _) = _
  cases p.stack with
  | nil => rfl
  | cons top rest =>
    dsimp only
    cases t.findShift top.state major with
    | error w => rfl
    | ok act =>
      dsimp only
      split
      · split
        · rfl
        · rw [shift_after]
          cases shift t sem p act major m <;> rfl
      · split
        · rw [reduce_after]
          cases reduce t sem p (act - t.nState) <;> rfl
        · split
          · rw [onError_after]; rfl
          · rfl

theorem loop_after (major : Nat) (m : Minor V) : ∀ (fuel : Nat) (p : Parser V X),
    loop t sem major m fuel (p.after l) = (loop t sem major m fuel p).map (Res.after l)
  | 0, _ => rfl
  | fuel + 1, p => by
    unfold loop
    show (match p.status with | .normal => _ | _ => _) = _
    cases p.status with
    | normal =>
      dsimp only
      rw [step_after]
      cases step t sem p major m with
      | done r => rfl
      | again p => exact loop_after major m fuel p
    | _ => rfl

theorem parseToken_after (fuel major : Nat) (m : Minor V) :
    parseToken t sem fuel (p.after l) major m = (parseToken t sem fuel p major m).map (Res.after l) := by
  unfold parseToken
  show (match p.status with | .normal => _ | _ => _) = _
  cases p.status with
  | normal =>
    dsimp only
    rw [loop_after]
    cases loop t sem major m fuel p with
    | none => rfl
    | some r => cases r <;> rfl
  | _ => rfl

theorem endOfInput_after (fuel : Nat) : endOfInput t sem fuel (p.after l) = (endOfInput t sem fuel p).map (Res.after l) := by
  unfold endOfInput
  rw [parseToken_after]
  cases parseToken t sem fuel p 0 ⟨0, sem.unit⟩ with
  | none => rfl
  | some r =>
    cases r with
    | ok q _ =>
      show some (match q.status with | .accepted v => _ | _ => _) = _
      dsimp only [Option.map_some]
      cases q.status <;> rfl
    | err q e => rfl
    | panic w => rfl

theorem feed_after (fuel : Nat) : ∀ (toks : List (Tok V)) (p : Parser V X),
    feed t sem fuel (p.after l) toks = (feed t sem fuel p toks).map (Res.after l)
  | [], _ => rfl
  | tok :: toks, p => by
    have h : parse t sem fuel (p.after l) tok = (parse t sem fuel p tok).map (Res.after l) := parseToken_after l p fuel _ _
    unfold feed
    rw [h]
    cases parse t sem fuel p tok with
    | none => rfl
    | some r =>
      cases r with
      | ok q _ => exact feed_after fuel toks q
      | err q e => rfl
      | panic w => rfl

/-- The rest of a run: tokens and the end of the input -/
def finish (t : Tables) (sem : Sem V X E) (fuel : Nat) (p : Parser V X) (toks : List (Tok V)) : Option (Res V X E V) :=
  match feed t sem fuel p toks with
  | none => none
  | some (.ok p ()) => endOfInput t sem fuel p
  | some (.err p e) => some (.err p e)
  | some (.panic w) => some (.panic w)

theorem finish_after (fuel : Nat) (toks : List (Tok V)) : finish t sem fuel (p.after l) toks = (finish t sem fuel p toks).map (Res.after l) := by
  unfold finish
  rw [feed_after]
  cases feed t sem fuel p toks with
  | none => rfl
  | some r =>
    cases r with
    | ok q _ => exact endOfInput_after l q fuel
    | err q e => rfl
    | panic w => rfl

theorem feed_then {fuel : Nat} {rest : List (Tok V)} : ∀ {toks : List (Tok V)} {o p : Parser V X},
    feed t sem fuel o toks = some (.ok p ()) → feed t sem fuel o (toks ++ rest) = feed t sem fuel p rest
  | [], o, p, h => by cases h; rfl
  | tok :: toks, o, p, h => by
    show (match parse t sem fuel o tok with | some (.ok p ()) => feed t sem fuel p (toks ++ rest) | r => r) = _
    unfold feed at h
    cases hp : parse t sem fuel o tok with
    | none => rw [hp] at h; cases h
    | some r =>
      rw [hp] at h
      cases r with
      | ok q _ => exact feed_then (toks := toks) (o := q) h
      | err q e => cases h
      | panic w => cases h

theorem SameMemory.of_after {p q : Parser V X} (h : SameMemory p q) : ∃ o : Parser V X, p = o.after p.trace ∧ q = o.after q.trace ∧ o.trace = [] := by
  obtain ⟨a1, a2, a3, a4, tr⟩ := p
  obtain ⟨b1, b2, b3, b4, tr'⟩ := q
  obtain ⟨h1, h2, h3, h4⟩ := h
  simp only at h1 h2 h3 h4
  subst h1 h2 h3 h4
  exact ⟨⟨a1, a2, a3, a4, []⟩, rfl, rfl, rfl⟩

theorem sameEnd_after (p q : Parser V X) (r : Option (Res V X E α)) :
    SameEnd p q (r.map (Res.after p.trace)) (r.map (Res.after q.trace)) := by
  cases r with
  | none => trivial
  | some r =>
    cases r with
    | ok o a => exact ⟨rfl, ⟨rfl, rfl, rfl, rfl⟩, o.trace, rfl, rfl⟩
    | err o e => exact ⟨rfl, ⟨rfl, rfl, rfl, rfl⟩, o.trace, rfl, rfl⟩
    | panic w => rfl

end Pomelo
