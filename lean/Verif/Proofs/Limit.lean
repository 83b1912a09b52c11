import Verif.Spec.Limit
import Verif.Proofs.Moves
import Verif.Proofs.Report
/-!
# Two limits of the stack
-/

namespace Pomelo

open Spec

variable {V X E α : Type} {t : Tables} {sem : Sem V X E} {n : Nat}

def Tables.limited (t : Tables) (n : Nat) : Tables := { t with stackLimit := n }

theorem findShift_limited (s la : Nat) : (t.limited n).findShift s la = t.findShift s la := by
  rw [← findShift_core, ← findShift_core (t := t)]; rfl
theorem expected_limited (s : Nat) : (t.limited n).expected s = t.expected s := by
  rw [← expected_core, ← expected_core (t := t)]; rfl
theorem findReduce_limited (s la : Nat) : (t.limited n).findReduce s la = t.findReduce s la := rfl

/-- The same, or the first overflows where the second goes on -/
def Sharp (r r' : Res V X E Unit) : Prop :=
  r = r' ∨ ∃ p e tok q, r = .err p e ∧ r' = .ok q () ∧ p.trace = .stackOverflow tok :: q.trace ∧ q.stack ≠ []

theorem limit_shift (h : Roomier t.stackLimit n) (p : Parser V X) (s major : Nat) (m : Minor V) :
    Sharp (shift t sem p s major m) (shift (t.limited n) sem p s major m) := by
  unfold shift
  by_cases h1 : t.stackLimit ≠ 0 ∧ t.stackLimit ≤ p.stack.length
  · by_cases h2 : (t.limited n).stackLimit ≠ 0 ∧ (t.limited n).stackLimit ≤ p.stack.length
    · rw [if_pos h1, if_pos h2]
      exact .inl rfl
    · rw [if_pos h1, if_neg h2]
      exact .inr ⟨_, _, _, _, rfl, rfl, rfl, by simp⟩
  · have h2 : ¬ ((t.limited n).stackLimit ≠ 0 ∧ (t.limited n).stackLimit ≤ p.stack.length) := by
      show ¬ (n ≠ 0 ∧ n ≤ p.stack.length)
      rcases h with h | ⟨h, h'⟩
      · exact fun k => k.1 h
      · exact fun k => h1 ⟨h, Nat.le_trans h' k.2⟩
    rw [if_neg h1, if_neg h2]
    exact .inl rfl

theorem limit_reduce (h : Roomier t.stackLimit n) (p : Parser V X) (r : Nat) : Sharp (reduce t sem p r) (reduce (t.limited n) sem p r) := by
  unfold reduce
  show Sharp _ (match t.ruleCode[r]? with | none => _ | some rc => _)
  cases t.ruleCode[r]? with
  | none => exact .inl rfl
  | some rc =>
    simp only
    split
    · exact .inl rfl
    · cases matchPats rc.pats (p.stack.take rc.pats.length).reverse with
      | none => exact .inl rfl
      | some vs =>
        simp only
        rcases runCode sem rc.code vs p.extra with ⟨e | v, x⟩
        · exact .inl rfl
        · simp only
          show Sharp _ (match t.ruleInfo[r]? with | none => _ | some lhs => _)
          cases t.ruleInfo[r]? with
          | none => exact .inl rfl
          | some lhs =>
            simp only
            cases hd : p.stack.drop rc.pats.length with
            | nil => exact .inl rfl
            | cons top rest =>
              simp only [findReduce_limited]
              cases t.findReduce top.state lhs with
              | error w => exact .inl rfl
              | ok act =>
                simp only
                show Sharp _ (if act < t.nState then _ else if act = t.nState + t.nRule + 1 then _ else _)
                split
                · exact limit_shift h _ _ _ _
                · exact .inl rfl

theorem limit_recover (h : Roomier t.stackLimit n) (major : Nat) (m : Minor V) (ex : List Nat) : ∀ (stk : List (Entry V)) (p : Parser V X),
    Sharp (recover t sem major m ex stk p) (recover (t.limited n) sem major m ex stk p)
  | [], p => .inl rfl
  | top :: rest, p => by
    unfold recover
    show Sharp _ (if top.major = t.errorSymbol then _ else _)
    split
    · exact .inl rfl
    · show Sharp _ (match t.findReduce top.state t.errorSymbol with | .error w => _ | .ok act => _)
      cases t.findReduce top.state t.errorSymbol with
      | error w => exact .inl rfl
      | ok act =>
        simp only
        show Sharp _ (if act < t.nState then _ else _)
        split
        · show Sharp _ (match syntaxError t sem { p with stack := top :: rest } major m ex with | .panic w => _ | .err p e => _ | .ok p e => _)
          cases syntaxError t sem { p with stack := top :: rest } major m ex with
          | panic w => exact .inl rfl
          | err p e => exact .inl rfl
          | ok p e => exact limit_shift h _ _ _ _
        · exact limit_recover h major m ex rest p

/-- The same, or the first overflows in the middle of what the second does -/
def Late (r r' : Res V X E Unit) : Prop :=
  r = r' ∨ ∃ p e tok tr, r = .err p e ∧ p.trace = .stackOverflow tok :: tr ∧ ∀ q, r'.parser? = some q → tr <:+ q.trace

theorem limit_onError (h : Roomier t.stackLimit n) (p : Parser V X) (top : Entry V) (major : Nat) (m : Minor V) :
    Late (onError t sem p top major m) (onError (t.limited n) sem p top major m) := by
  unfold onError
  split
  · exact .inl rfl
  · rw [expected_limited]
    cases t.expected top.state with
    | error w => exact .inl rfl
    | ok ex =>
      simp only
      show Late _ (if t.errorSymbol ≠ 0 then _ else _)
      split
      · rcases limit_recover (sem := sem) h major m ex p.stack p with h1 | ⟨p1, e, tok, q, h1, h2, h3, h4⟩
        · rw [h1]; exact .inl rfl
        · rw [h1, h2]
          right
          refine ⟨p1, e, tok, q.trace, rfl, h3, ?_⟩
          intro q' hq'
          cases hs : q.stack with
          | nil => exact absurd hs h4
          | cons a l =>
            simp only [hs] at hq'
            cases hq'
            exact List.suffix_cons _ _
      · exact .inl rfl

/-- The same for one step of the loop -/
def LateStep (s s' : Step V X E) : Prop :=
  s = s' ∨ ∃ p e tok tr, s = .done (.err p e) ∧ p.trace = .stackOverflow tok :: tr ∧
    (∀ q, s' = .again q → tr <:+ q.trace) ∧ ∀ a q, s' = .done a → a.parser? = some q → tr <:+ q.trace

theorem limit_step (h : Roomier t.stackLimit n) (p : Parser V X) (major : Nat) (m : Minor V) :
    LateStep (step t sem p major m) (step (t.limited n) sem p major m) := by
  unfold step
  cases p.stack with
  | nil => exact .inl rfl
  | cons top rest =>
    simp only [findShift_limited]
    cases t.findShift top.state major with
    | error w => exact .inl rfl
    | ok act =>
      simp only
      show LateStep _ (if act < t.nState then _ else if act < t.nState + t.nRule then _ else if act = t.nState + t.nRule then _ else _)
      split
      · split
        · exact .inl rfl
        · rcases limit_shift (sem := sem) h p act major m with h1 | ⟨p1, e, tok, q, h1, h2, h3, _⟩
          · rw [h1]; exact .inl rfl
          · rw [h1, h2]
            refine .inr ⟨p1, e, tok, q.trace, rfl, h3, ?_, ?_⟩
            · intro q' hq'; cases hq'
            · intro a q' ha hq'
              cases ha; cases hq'
              exact List.suffix_cons _ _
      · split
        · show LateStep _ (match reduce (t.limited n) sem p (act - t.nState) with | .panic w => _ | .err p e => _ | .ok p () => _)
          rcases limit_reduce (sem := sem) h p (act - t.nState) with h1 | ⟨p1, e, tok, q, h1, h2, h3, _⟩
          · rw [h1]; exact .inl rfl
          · rw [h1, h2]
            refine .inr ⟨p1, e, tok, q.trace, rfl, h3, ?_, ?_⟩
            · intro q' hq'; cases hq'; exact List.suffix_refl _
            · intro a q' ha; cases ha
        · split
          · rcases limit_onError (sem := sem) h p top major m with h1 | ⟨p1, e, tok, tr, h1, h2, h3⟩
            · rw [h1]; exact .inl rfl
            · rw [h1]
              refine .inr ⟨p1, e, tok, tr, rfl, h2, ?_, ?_⟩
              · intro q' hq'; cases hq'
              · intro a q' ha hq'; cases ha; exact h3 q' hq'
          · exact .inl rfl

theorem limit_loop (h : Roomier t.stackLimit n) (major : Nat) (m : Minor V) : ∀ (fuel : Nat) (p : Parser V X),
    loop t sem major m fuel p = loop (t.limited n) sem major m fuel p ∨ CutShort (loop t sem major m fuel p) (loop (t.limited n) sem major m fuel p)
  | 0, _ => .inl rfl
  | fuel + 1, p => by
    unfold loop
    cases p.status with
    | failed => exact .inl rfl
    | accepted v => exact .inl rfl
    | normal =>
      simp only
      rcases limit_step (sem := sem) h p major m with h1 | ⟨p1, e, tok, tr, h1, h2, h3, h4⟩
      · rw [h1]
        cases step (t.limited n) sem p major m with
        | done r => exact .inl rfl
        | again q => exact limit_loop h major m fuel q
      · rw [h1]
        right
        refine ⟨p1, e, tok, tr, rfl, h2, ?_⟩
        intro a q ha hq
        cases hs : step (t.limited n) sem p major m with
        | done r => rw [hs] at ha; cases ha; exact h4 _ q hs hq
        | again q1 => rw [hs] at ha; exact (h3 q1 hs).trans (loop_suffix ha hq)

theorem limit_parseToken (h : Roomier t.stackLimit n) (fuel : Nat) (p : Parser V X) (major : Nat) (m : Minor V) :
    parseToken t sem fuel p major m = parseToken (t.limited n) sem fuel p major m ∨
      CutShort (parseToken t sem fuel p major m) (parseToken (t.limited n) sem fuel p major m) := by
  unfold parseToken
  cases p.status with
  | failed => exact .inl rfl
  | accepted v => exact .inl rfl
  | normal =>
    simp only
    rcases limit_loop (sem := sem) h major m fuel p with h1 | ⟨p1, e, tok, tr, h1, h2, h3⟩
    · rw [h1]; exact .inl rfl
    · right
      rw [h1]
      refine ⟨_, e, tok, tr, rfl, h2, ?_⟩
      intro a q ha hq
      obtain ⟨b, hb, rfl⟩ := Option.map_eq_some_iff.1 ha
      cases b with
      | ok p2 u => exact h3 _ q hb hq
      | err p2 e2 => cases hq; exact h3 _ p2 hb rfl
      | panic w => cases hq

theorem limit_feed (h : Roomier t.stackLimit n) (fuel : Nat) : ∀ (toks : List (Tok V)) (p : Parser V X),
    feed t sem fuel p toks = feed (t.limited n) sem fuel p toks ∨ CutShort (feed t sem fuel p toks) (feed (t.limited n) sem fuel p toks)
  | [], p => .inl rfl
  | k :: toks, p => by
    unfold feed
    have e : parse (t.limited n) sem fuel p k = parseToken (t.limited n) sem fuel p k.major (t.tokenValue sem k).2 := rfl
    rcases limit_parseToken (sem := sem) h fuel p k.major (t.tokenValue sem k).2 with h1 | ⟨p1, e1, tok, tr, h1, h2, h3⟩
    · have h1' : parse t sem fuel p k = parse (t.limited n) sem fuel p k := h1
      rw [h1']
      cases hp : parse (t.limited n) sem fuel p k with
      | none => exact .inl rfl
      | some r =>
        cases r with
        | ok p2 u => exact limit_feed h fuel toks p2
        | err p2 e2 => exact .inl rfl
        | panic w => exact .inl rfl
    · have h1' : parse t sem fuel p k = some (.err p1 e1) := h1
      rw [h1']
      refine .inr ⟨p1, e1, tok, tr, rfl, h2, ?_⟩
      intro a q ha hq
      cases hp : parse (t.limited n) sem fuel p k with
      | none => rw [hp] at ha; cases ha
      | some r =>
        rw [hp] at ha
        rw [e] at hp
        cases r with
        | ok p2 u => exact (h3 _ p2 hp rfl).trans (feed_suffix ha hq)
        | err p2 e2 => cases ha; exact h3 _ q hp hq
        | panic w => cases ha; cases hq

theorem endOfInput_suffix {fuel : Nat} {p q : Parser V X} {a : Res V X E V} (h : endOfInput t sem fuel p = some a) (hq : a.parser? = some q) : p.trace <:+ q.trace := by
  unfold endOfInput at h
  obtain ⟨b, hb, rfl⟩ := Option.map_eq_some_iff.1 h
  cases b with
  | panic w => cases hq
  | err p2 e2 => cases hq; exact parseToken_suffix hb rfl
  | ok p2 u =>
    simp only at hq
    split at hq
    · cases hq; exact parseToken_suffix hb rfl
    · cases hq

theorem limit_endOfInput (h : Roomier t.stackLimit n) (fuel : Nat) (p : Parser V X) :
    endOfInput t sem fuel p = endOfInput (t.limited n) sem fuel p ∨ CutShort (endOfInput t sem fuel p) (endOfInput (t.limited n) sem fuel p) := by
  unfold endOfInput
  rcases limit_parseToken (sem := sem) h fuel p 0 ⟨0, sem.unit⟩ with h1 | ⟨p1, e, tok, tr, h1, h2, h3⟩
  · rw [h1]; exact .inl rfl
  · right
    rw [h1]
    refine ⟨p1, e, tok, tr, rfl, h2, ?_⟩
    intro a q ha hq
    obtain ⟨b, hb, rfl⟩ := Option.map_eq_some_iff.1 ha
    cases b with
    | panic w => cases hq
    | err _ e2 => cases hq; exact h3 _ _ hb rfl
    | ok p2 u =>
      simp only at hq
      split at hq
      · cases hq; exact h3 _ _ hb rfl
      · cases hq

theorem limit_runAll (h : Roomier t.stackLimit n) (sem : Sem V X E) (fuel : Nat) (x : X) (toks : List (Tok V)) :
    runAll t sem fuel x toks = runAll (t.limited n) sem fuel x toks ∨ CutShort (runAll t sem fuel x toks) (runAll (t.limited n) sem fuel x toks) := by
  unfold runAll
  rcases limit_feed (sem := sem) h fuel toks (Parser.new sem x) with h1 | ⟨p1, e, tok, tr, h1, h2, h3⟩
  · rw [h1]
    cases feed (t.limited n) sem fuel (Parser.new sem x) toks with
    | none => exact .inl rfl
    | some r =>
      cases r with
      | ok p u => exact limit_endOfInput h fuel p
      | err p e => exact .inl rfl
      | panic w => exact .inl rfl
  · right
    rw [h1]
    refine ⟨p1, e, tok, tr, rfl, h2, ?_⟩
    intro a q ha hq
    cases hf : feed (t.limited n) sem fuel (Parser.new sem x) toks with
    | none => rw [hf] at ha; cases ha
    | some r =>
      rw [hf] at ha
      cases r with
      | ok p u => exact (h3 _ p hf rfl).trans (endOfInput_suffix ha hq)
      | err p e => cases ha; cases hq; exact h3 _ _ hf rfl
      | panic w => cases ha; cases hq

end Pomelo
