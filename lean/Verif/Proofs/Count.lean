import Verif.Proofs.Memory
/-! # With an error symbol the count of errors is not read -/

namespace Pomelo

open Spec

variable {V X E α : Type} {t : Tables} {sem : Sem V X E}

/-- The same for one step -/
def Step.forget : Step V X E → Step V X E
  | .again p => .again p.forget
  | .done r => .done r.forget

variable (p : Parser V X)

theorem shift_forget (s major : Nat) (m : Minor V) : shift t sem (p.forget) s major m = (shift t sem p s major m).forget := by
  unfold shift Parser.forget
  dsimp only
  split <;> rfl

theorem parseFailed_forget : parseFailed sem (p.forget) = ((parseFailed sem p).1.forget, (parseFailed sem p).2) := rfl

theorem syntaxError_forget (major : Nat) (m : Minor V) (ex : List Nat) :
    syntaxError t sem (p.forget) major m ex = (syntaxError t sem p major m ex).forget := by
  unfold syntaxError Parser.forget
  dsimp only
  rcases sem.syntaxError (t.tokenBuild sem major m) ex p.extra with ⟨e | v, x⟩ <;> rfl

theorem accept_forget (m : Minor V) : accept t sem (p.forget) m = (accept t sem p m).forget := by
  unfold accept
  cases t.rootDt with
  | none => rfl
  | some n =>
    dsimp only
    split <;> rfl

theorem reduce_forget (r : Nat) : reduce t sem (p.forget) r = (reduce t sem p r).forget := by
  unfold reduce
  cases t.ruleCode[r]? with
  | none => rfl
  | some rc =>
    show (if p.stack.length < rc.pats.length then _ else _) = _
    dsimp only
    split
    · rfl
    · show (match matchPats rc.pats (p.stack.take rc.pats.length).reverse with | none => _ | some vs => _) = _
      cases matchPats rc.pats (p.stack.take rc.pats.length).reverse with
      | none => rfl
      | some vs =>
        show (match runCode sem rc.code vs p.extra with | (.error e, x) => _ | (.ok v, x) => _) = _
        dsimp only
        rcases runCode sem rc.code vs p.extra with ⟨e | v, x⟩
        · rfl
        · dsimp only
          cases t.ruleInfo[r]? with
          | none => rfl
          | some lhs =>
            dsimp only
            rw [show List.drop rc.pats.length (p.forget).stack = p.stack.drop rc.pats.length from rfl]
            cases hd : p.stack.drop rc.pats.length with
            | nil => rfl
            | cons top rest =>
              dsimp only
              cases t.findReduce top.state lhs with
              | error w => rfl
              | ok act =>
                dsimp only
                split
                · exact shift_forget (⟨p.errorCount, top :: rest, x, p.status, .reduce r vs :: p.trace⟩ : Parser V X) act lhs ⟨rc.lhsDt, v⟩
                · split
                  · exact accept_forget (⟨p.errorCount, top :: rest, x, p.status, .reduce r vs :: p.trace⟩ : Parser V X) ⟨rc.lhsDt, v⟩
                  · rfl

theorem recover_forget (major : Nat) (m : Minor V) (ex : List Nat) : ∀ (stk : List (Entry V)) (p : Parser V X),
    recover t sem major m ex stk (p.forget) = (recover t sem major m ex stk p).forget
  | [], p => rfl
  | top :: rest, p => by
    unfold recover
    split
    · rfl
    · cases t.findReduce top.state t.errorSymbol with
      | error w => rfl
      | ok act =>
        dsimp only
        split
        · have h := syntaxError_forget (t := t) (sem := sem) { p with stack := top :: rest } major m ex
          rw [show ({ p.forget with stack := top :: rest } : Parser V X) = ({ p with stack := top :: rest } : Parser V X).forget from rfl, h]
          cases syntaxError t sem { p with stack := top :: rest } major m ex with
          | panic w => rfl
          | err p e => rfl
          | ok p e => exact shift_forget p _ _ _
        · exact recover_forget major m ex rest p

theorem onError_forget (he : t.errorSymbol ≠ 0) (top : Entry V) (major : Nat) (m : Minor V) :
    (onError t sem p.forget top major m).forget = (onError t sem p top major m).forget := by
  unfold onError
  split
  · rfl
  · cases t.expected top.state with
    | error w => rfl
    | ok ex =>
      dsimp only
      rw [show p.forget.stack = p.stack from rfl, recover_forget]
      cases recover t sem major m ex p.stack p with
      | panic w => rfl
      | err p e => rfl
      | ok q _ =>
        obtain ⟨a, stk, b, c, d⟩ := q
        cases stk <;> rfl

theorem step_forget (he : t.errorSymbol ≠ 0) (major : Nat) (m : Minor V) : (step t sem p.forget major m).forget = (step t sem p major m).forget := by
  unfold step
  rw [show p.forget.stack = p.stack from rfl]
  cases p.stack with
  | nil => rfl
  | cons top rest =>
    dsimp only
    cases t.findShift top.state major with
    | error w => rfl
    | ok act =>
      dsimp only
      split
      · split
        · rfl
        · rw [shift_forget]
          cases shift t sem p act major m <;> rfl
      · split
        · rw [reduce_forget]
          cases reduce t sem p (act - t.nState) <;> rfl
        · split
          · exact congrArg Step.done (onError_forget p he top major m)
          · rfl

theorem loop_forget (he : t.errorSymbol ≠ 0) (major : Nat) (m : Minor V) : ∀ (fuel : Nat) (p q : Parser V X), p.forget = q.forget →
    (loop t sem major m fuel p).map Res.forget = (loop t sem major m fuel q).map Res.forget
  | 0, _, _, _ => rfl
  | fuel + 1, p, q, h => by
    have hs : p.status = q.status := (congrArg (fun a : Parser V X => a.status) h : p.forget.status = q.forget.status)
    have hst : (step t sem p major m).forget = (step t sem q major m).forget := by
      rw [← step_forget p he, h, step_forget q he]
    unfold loop
    rw [hs]
    cases q.status with
    | normal =>
      dsimp only
      cases h1 : step t sem p major m with
      | done r =>
        cases h2 : step t sem q major m with
        | done r' => rw [h1, h2] at hst; exact congrArg some (Step.done.inj hst)
        | again q' => rw [h1, h2] at hst; cases hst
      | again p' =>
        cases h2 : step t sem q major m with
        | done r' => rw [h1, h2] at hst; cases hst
        | again q' => rw [h1, h2] at hst; exact loop_forget he major m fuel p' q' (Step.again.inj hst)
    | _ => exact congrArg some (congrArg (Res.ok · ()) h)

theorem forget_fail {r r' : Res V X E Unit} (h : r.forget = r'.forget) :
    (match r with | .err p e => Res.err { p with status := .failed } e | r => r).forget =
      (match r' with | .err p e => Res.err { p with status := .failed } e | r => r).forget := by
  cases r with
  | ok p a =>
    cases r' with
    | ok q b => exact h
    | err q e => cases h
    | panic w => cases h
  | err p e =>
    cases r' with
    | ok q b => cases h
    | err q e' =>
      have h1 := (Res.err.inj h).1
      have h2 := (Res.err.inj h).2
      subst h2
      exact congrArg (fun a : Parser V X => Res.err { a with status := .failed } e) h1
    | panic w => cases h
  | panic w =>
    cases r' with
    | ok q b => cases h
    | err q e => cases h
    | panic w' => exact h

theorem parseToken_forget (he : t.errorSymbol ≠ 0) (fuel major : Nat) (m : Minor V) {p q : Parser V X} (h : p.forget = q.forget) :
    (parseToken t sem fuel p major m).map Res.forget = (parseToken t sem fuel q major m).map Res.forget := by
  have hs : p.status = q.status := (congrArg (fun a : Parser V X => a.status) h : p.forget.status = q.forget.status)
  unfold parseToken
  rw [hs]
  cases q.status with
  | normal =>
    dsimp only
    have hl := loop_forget (sem := sem) he major m fuel p q h
    cases h1 : loop t sem major m fuel p with
    | none =>
      cases h2 : loop t sem major m fuel q with
      | none => rfl
      | some r => rw [h1, h2] at hl; cases hl
    | some r =>
      cases h2 : loop t sem major m fuel q with
      | none => rw [h1, h2] at hl; cases hl
      | some r' =>
        rw [h1, h2] at hl
        exact congrArg some (forget_fail (Option.some.inj hl))
  | _ => rfl

theorem endOfInput_forget (he : t.errorSymbol ≠ 0) (fuel : Nat) {p q : Parser V X} (h : p.forget = q.forget) :
    (endOfInput t sem fuel p).map Res.forget = (endOfInput t sem fuel q).map Res.forget := by
  have hl := parseToken_forget (sem := sem) he fuel 0 ⟨0, sem.unit⟩ h
  unfold endOfInput
  cases h1 : parseToken t sem fuel p 0 ⟨0, sem.unit⟩ with
  | none =>
    cases h2 : parseToken t sem fuel q 0 ⟨0, sem.unit⟩ with
    | none => rfl
    | some r => rw [h1, h2] at hl; cases hl
  | some r =>
    cases h2 : parseToken t sem fuel q 0 ⟨0, sem.unit⟩ with
    | none => rw [h1, h2] at hl; cases hl
    | some r' =>
      rw [h1, h2] at hl
      have hr : r.forget = r'.forget := Option.some.inj hl
      cases r with
      | ok a _ =>
        cases r' with
        | ok b _ =>
          have hab : a.forget = b.forget := (Res.ok.inj hr).1
          have hs : a.status = b.status := (congrArg (fun a : Parser V X => a.status) hab : a.forget.status = b.forget.status)
          dsimp only [Option.map_some]
          rw [hs]
          cases b.status with
          | accepted v => exact congrArg (fun c : Parser V X => some (Res.ok c v)) hab
          | _ => rfl
        | err b e => cases hr
        | panic w => cases hr
      | err a e =>
        cases r' with
        | ok b _ => cases hr
        | err b e' => have h1 := (Res.err.inj hr).1; have h2 := (Res.err.inj hr).2; subst h2; exact congrArg (fun c : Parser V X => some (Res.err c e)) h1
        | panic w => cases hr
      | panic w =>
        cases r' with
        | ok b _ => cases hr
        | err b e => cases hr
        | panic w' => exact congrArg some (congrArg Res.panic (Res.panic.inj hr))

end Pomelo
