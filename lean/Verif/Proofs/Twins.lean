import Verif.Proofs.RunErrors
import Verif.Spec.Unread
/-! # Tokens with the same actions and the same variant can be exchanged -/

namespace Pomelo

open Spec

/-- The parser cannot tell the token `m` from `ρ m`. -/
structure Swaps (t : Tables) (ρ : Nat → Nat) : Prop where
  find : ∀ st m, t.findShift st (ρ m) = t.findShift st m
  dt : ∀ m, t.tokenDt.getD (ρ m) 0 = t.tokenDt.getD m 0
  zero : ∀ m, ρ m = 0 ↔ m = 0
  term : ∀ m, ρ m < t.numTerminals ↔ m < t.numTerminals
  nt : ∀ m, t.numTerminals ≤ m → ρ m = m
  lhs : LhsOk t

variable {t : Tables} {ρ : Nat → Nat} {V X E α : Type} {sem : Sem V X E}

namespace Swaps

theorem tokenBuild (h : Swaps t ρ) (i : Nat) (m : Minor V) : t.tokenBuild sem (ρ i) m = (t.tokenBuild (sem.via ρ) i m).map (Tok.swap ρ) := by
  unfold Tables.tokenBuild
  rw [h.dt]
  have h1 : (0 < ρ i ∧ ρ i < t.numTerminals) ↔ (0 < i ∧ i < t.numTerminals) := by
    have := h.zero i; have := h.term i; omega
  by_cases hi : 0 < i ∧ i < t.numTerminals
  · rw [if_pos (h1.2 hi), if_pos hi]
    simp only
    split
    · rfl
    · split <;> rfl
  · rw [if_neg (fun e => hi (h1.1 e)), if_neg hi]; rfl

theorem shift (h : Swaps t ρ) (p : Parser V X) (s major : Nat) (m : Minor V) :
    Pomelo.shift t sem (p.swap ρ) s (ρ major) m = (Pomelo.shift t (sem.via ρ) p s major m).swap ρ := by
  unfold Pomelo.shift
  rw [h.tokenBuild (sem := sem)]
  have : (p.swap ρ).stack.length = p.stack.length := by simp [Parser.swap]
  rw [this]
  split <;> rfl

theorem matchPats (ps : List (Option Nat)) : ∀ es : List (Entry V),
    Pomelo.matchPats ps (es.map fun e => { e with major := ρ e.major }) = Pomelo.matchPats ps es := by
  induction ps with
  | nil => intro es; cases es <;> rfl
  | cons a ps ih =>
    intro es
    cases es with
    | nil => cases a <;> rfl
    | cons e es =>
      cases a with
      | none => simp only [List.map_cons, Pomelo.matchPats, ih]
      | some d => simp only [List.map_cons, Pomelo.matchPats, ih]

theorem runCode (c : Option Code) (args : List V) (x : X) : Pomelo.runCode (sem.via ρ) c args x = Pomelo.runCode sem c args x := by
  unfold Pomelo.runCode
  cases c with
  | none => rfl
  | some c => cases c <;> rfl

theorem accept (p : Parser V X) (m : Minor V) : Pomelo.accept t sem (p.swap ρ) m = (Pomelo.accept t (sem.via ρ) p m).swap ρ := by
  unfold Pomelo.accept
  split
  · split <;> rfl
  · rfl

theorem reduce (h : Swaps t ρ) (p : Parser V X) (r : Nat) : Pomelo.reduce t sem (p.swap ρ) r = (Pomelo.reduce t (sem.via ρ) p r).swap ρ := by
  unfold Pomelo.reduce
  cases hrc : t.ruleCode[r]? with
  | none => rfl
  | some rc =>
    simp only
    have h1 : (p.swap ρ).stack.length = p.stack.length := by simp [Parser.swap]
    have h2 : ((p.swap ρ).stack.take rc.pats.length).reverse = ((p.stack.take rc.pats.length).reverse).map fun e => { e with major := ρ e.major } := by
      simp [Parser.swap, List.map_take]
    rw [h1, h2, matchPats]
    by_cases hl : p.stack.length < rc.pats.length
    · rw [if_pos hl, if_pos hl]; rfl
    · rw [if_neg hl, if_neg hl]
      cases Pomelo.matchPats rc.pats (p.stack.take rc.pats.length).reverse with
      | none => rfl
      | some vs =>
        simp only [runCode]
        rw [show (p.swap ρ).extra = p.extra from rfl, show (p.swap ρ).stack.drop rc.pats.length = (p.stack.drop rc.pats.length).map
          fun e => { e with major := ρ e.major } from by simp [Parser.swap, List.map_drop]]
        rcases Pomelo.runCode sem rc.code vs p.extra with ⟨_ | v, x⟩
        · simp only [Res.swap, Parser.swap, List.map_cons, Event.swap]
        · simp only
          cases hi : t.ruleInfo[r]? with
          | none => rfl
          | some lhs =>
            simp only
            cases hd : p.stack.drop rc.pats.length with
            | nil => rfl
            | cons top rest =>
              simp only [List.map_cons]
              cases t.findReduce top.state lhs with
              | error w => rfl
              | ok act =>
                simp only
                split
                · have h3 := h.shift (sem := sem) { p with stack := top :: rest, trace := .reduce r vs :: p.trace, extra := x } act lhs ⟨rc.lhsDt, v⟩
                  rw [h.nt lhs (h.lhs.rules r lhs hi)] at h3
                  exact h3
                · split
                  · exact accept (sem := sem) { p with stack := top :: rest, trace := .reduce r vs :: p.trace, extra := x } ⟨rc.lhsDt, v⟩
                  · rfl

theorem syntaxError (h : Swaps t ρ) (p : Parser V X) (major : Nat) (m : Minor V) (ex : List Nat) :
    Pomelo.syntaxError t sem (p.swap ρ) (ρ major) m ex = (Pomelo.syntaxError t (sem.via ρ) p major m ex).swap ρ := by
  unfold Pomelo.syntaxError
  rw [h.tokenBuild (sem := sem)]
  simp only
  rw [show (p.swap ρ).extra = p.extra from rfl, show (sem.via ρ).syntaxError = fun k => sem.syntaxError (k.map (Tok.swap ρ)) from rfl]
  simp only
  rcases sem.syntaxError (Option.map (Tok.swap ρ) (t.tokenBuild (sem.via ρ) major m)) ex p.extra with ⟨_ | v, x⟩ <;> rfl

theorem parseFailed (p : Parser V X) : Pomelo.parseFailed sem (p.swap ρ) = (((Pomelo.parseFailed (sem.via ρ) p).1).swap ρ, (Pomelo.parseFailed (sem.via ρ) p).2) := rfl

theorem recover (h : Swaps t ρ) (he : t.errorSymbol ≠ 0) (major : Nat) (m : Minor V) (ex : List Nat) (l : List (Entry V)) : ∀ p : Parser V X,
    Pomelo.recover t sem (ρ major) m ex (l.map fun e => { e with major := ρ e.major }) (p.swap ρ) = (Pomelo.recover t (sem.via ρ) major m ex l p).swap ρ := by
  induction l with
  | nil => intro p; rfl
  | cons top rest ih =>
    intro p
    rw [List.map_cons, Pomelo.recover, Pomelo.recover]
    have h1 : ρ top.major = t.errorSymbol ↔ top.major = t.errorSymbol := by
      have h2 := h.lhs.error he
      constructor
      · intro e
        have := h.term top.major
        rw [← h.nt top.major (by omega)]; exact e
      · intro e; rw [h.nt _ (by omega)]; exact e
    simp only
    by_cases hm : top.major = t.errorSymbol
    · rw [if_pos (h1.2 hm), if_pos hm]; rfl
    · rw [if_neg (fun e => hm (h1.1 e)), if_neg hm]
      cases t.findReduce top.state t.errorSymbol with
      | error w => rfl
      | ok act =>
        simp only
        split
        · have h3 := h.syntaxError (sem := sem) { p with stack := top :: rest } major m ex
          rw [show Parser.swap ρ { p with stack := top :: rest } = { p.swap ρ with stack := { top with major := ρ top.major } :: rest.map fun e => { e with major := ρ e.major } } from rfl] at h3
          rw [h3]
          cases Pomelo.syntaxError t (sem.via ρ) { p with stack := top :: rest } major m ex with
          | panic w => rfl
          | err p e => rfl
          | ok p e =>
            simp only [Res.swap]
            have h4 := h.shift (sem := sem) p act t.errorSymbol e
            rw [h.nt _ (h.lhs.error he)] at h4
            exact h4
        · exact ih p

theorem onError (h : Swaps t ρ) (p : Parser V X) (top : Entry V) (major : Nat) (m : Minor V) :
    Pomelo.onError t sem (p.swap ρ) { top with major := ρ top.major } (ρ major) m = (Pomelo.onError t (sem.via ρ) p top major m).swap ρ := by
  unfold Pomelo.onError
  by_cases h0 : major = 0
  · rw [if_pos ((h.zero _).2 h0), if_pos h0]; rfl
  · rw [if_neg (fun e => h0 ((h.zero _).1 e)), if_neg h0]
    simp only
    cases t.expected top.state with
    | error w => rfl
    | ok ex =>
      simp only
      by_cases he : t.errorSymbol = 0
      · rw [if_neg (show ¬ t.errorSymbol ≠ 0 from fun h => h he), if_neg (show ¬ t.errorSymbol ≠ 0 from fun h => h he)]
        by_cases hc : p.errorCount = 0
        · rw [if_pos hc, if_pos (show (p.swap ρ).errorCount = 0 from hc), h.syntaxError (sem := sem)]
          cases Pomelo.syntaxError t (sem.via ρ) p major m ex <;> rfl
        · rw [if_neg hc, if_neg (show ¬ (p.swap ρ).errorCount = 0 from hc)]; rfl
      · rw [if_pos he, if_pos he, show (p.swap ρ).stack = p.stack.map fun e => { e with major := ρ e.major } from rfl, h.recover (sem := sem) he]
        cases Pomelo.recover t (sem.via ρ) major m ex p.stack p with
        | panic w => rfl
        | err p e => rfl
        | ok p u =>
          simp only [Res.swap]
          cases hs : p.stack with
          | nil => rw [show (p.swap ρ).stack = [] from by simp [Parser.swap, hs]]; rfl
          | cons e l =>
            rw [show (p.swap ρ).stack = { e with major := ρ e.major } :: l.map (fun e => { e with major := ρ e.major }) from by simp [Parser.swap, hs]]
            rfl

/-- The step with other numbers -/
def stepSwap (ρ : Nat → Nat) : Step V X E → Step V X E
  | .again p => .again (p.swap ρ)
  | .done r => .done (r.swap ρ)

theorem step (h : Swaps t ρ) (p : Parser V X) (major : Nat) (m : Minor V) :
    Pomelo.step t sem (p.swap ρ) (ρ major) m = stepSwap ρ (Pomelo.step t (sem.via ρ) p major m) := by
  unfold Pomelo.step
  cases hs : p.stack with
  | nil => rw [show (p.swap ρ).stack = [] from by simp [Parser.swap, hs]]; rfl
  | cons top l =>
    rw [show (p.swap ρ).stack = { top with major := ρ top.major } :: l.map (fun e => { e with major := ρ e.major }) from by simp [Parser.swap, hs]]
    simp only [h.find]
    cases t.findShift top.state major with
    | error w => rfl
    | ok act =>
      simp only
      split
      · by_cases h0 : major = 0
        · rw [if_pos ((h.zero _).2 h0), if_pos h0]; rfl
        · rw [if_neg (fun e => h0 ((h.zero _).1 e)), if_neg h0, h.shift (sem := sem)]
          cases Pomelo.shift t (sem.via ρ) p act major m <;> rfl
      · split
        · rw [h.reduce (sem := sem)]
          cases Pomelo.reduce t (sem.via ρ) p (act - t.nState) <;> rfl
        · split
          · rw [h.onError (sem := sem)]; rfl
          · rfl

theorem loop (h : Swaps t ρ) (major : Nat) (m : Minor V) (n : Nat) : ∀ p : Parser V X,
    Pomelo.loop t sem (ρ major) m n (p.swap ρ) = (Pomelo.loop t (sem.via ρ) major m n p).map (Res.swap ρ) := by
  induction n with
  | zero => intro p; rfl
  | succ n ih =>
    intro p
    rw [Pomelo.loop, Pomelo.loop, h.step (sem := sem), show (p.swap ρ).status = p.status from rfl]
    cases p.status with
    | normal =>
      simp only
      cases Pomelo.step t (sem.via ρ) p major m with
      | done r => rfl
      | again q => exact ih q
    | failed => rfl
    | accepted v => rfl

theorem parseToken (h : Swaps t ρ) (n : Nat) (p : Parser V X) (major : Nat) (m : Minor V) :
    Pomelo.parseToken t sem n (p.swap ρ) (ρ major) m = (Pomelo.parseToken t (sem.via ρ) n p major m).map (Res.swap ρ) := by
  unfold Pomelo.parseToken
  rw [h.loop (sem := sem), show (p.swap ρ).status = p.status from rfl]
  cases p.status with
  | normal =>
    simp only [Option.map_map]
    congr 1
    funext r
    cases r <;> rfl
  | failed => rfl
  | accepted v => rfl

theorem parse (h : Swaps t ρ) (n : Nat) (p : Parser V X) (k : Tok V) :
    Pomelo.parse t sem n (p.swap ρ) (k.swap ρ) = (Pomelo.parse t (sem.via ρ) n p k).map (Res.swap ρ) := by
  unfold Pomelo.parse Tables.tokenValue
  rw [show t.tokenDt.getD (k.swap ρ).major 0 = t.tokenDt.getD k.major 0 from h.dt _]
  exact h.parseToken (sem := sem) n p k.major _

theorem endOfInput (h : Swaps t ρ) (n : Nat) (p : Parser V X) :
    Pomelo.endOfInput t sem n (p.swap ρ) = (Pomelo.endOfInput t (sem.via ρ) n p).map (Res.swap ρ) := by
  unfold Pomelo.endOfInput
  have h1 := h.parseToken (sem := sem) n p 0 ⟨0, sem.unit⟩
  rw [(h.zero 0).2 rfl] at h1
  rw [h1, show (sem.via ρ).unit = sem.unit from rfl]
  simp only [Option.map_map]
  congr 1
  funext r
  cases r with
  | ok p u =>
    simp only [Function.comp, Res.swap]
    rw [show (p.swap ρ).status = p.status from rfl]
    cases p.status <;> rfl
  | err p e => rfl
  | panic w => rfl

theorem feed (h : Swaps t ρ) (n : Nat) (toks : List (Tok V)) : ∀ p : Parser V X,
    Pomelo.feed t sem n (p.swap ρ) (toks.map (Tok.swap ρ)) = (Pomelo.feed t (sem.via ρ) n p toks).map (Res.swap ρ) := by
  induction toks with
  | nil => intro p; rfl
  | cons k toks ih =>
    intro p
    rw [List.map_cons, Pomelo.feed, Pomelo.feed, h.parse (sem := sem)]
    cases Pomelo.parse t (sem.via ρ) n p k with
    | none => rfl
    | some r =>
      cases r with
      | ok q u => exact ih q
      | err q e => rfl
      | panic w => rfl

theorem runAll (h : Swaps t ρ) (n : Nat) (x : X) (toks : List (Tok V)) :
    Pomelo.runAll t sem n x (toks.map (Tok.swap ρ)) = (Pomelo.runAll t (sem.via ρ) n x toks).map (Res.swap ρ) := by
  unfold Pomelo.runAll
  have h0 : (Parser.new sem x : Parser V X) = (Parser.new (sem.via ρ) x).swap ρ := by
    unfold Parser.new Parser.swap
    simp only [List.map_cons, List.map_nil, (h.zero 0).2 rfl]
    rfl
  rw [h0, h.feed (sem := sem)]
  cases Pomelo.feed t (sem.via ρ) n (Parser.new (sem.via ρ) x) toks with
  | none => rfl
  | some r =>
    cases r with
    | ok q u => exact h.endOfInput (sem := sem) n q
    | err q e => rfl
    | panic w => rfl

end Swaps
end Pomelo
