import Verif.Spec.Carried
/-!
# The generated parser hands values on

Every function of the generated parser commutes with taking images.
-/

namespace Pomelo

open Spec

variable {V V' X X' E E' : Type} {t : Tables} {f : V → V'} {g : X → X'} {h : E → E'} {sem : Sem V X E} {sem' : Sem V' X' E'}

theorem matchPats_image : ∀ (ps : List (Option Nat)) (es : List (Entry V)), matchPats ps (es.map (Entry.image f)) = (matchPats ps es).map (List.map f)
  | [], _ => rfl
  | .none :: ps, _ :: es => by simp only [List.map_cons, matchPats, matchPats_image ps es]
  | .some dt :: ps, e :: es => by
    simp only [List.map_cons, matchPats]
    rw [matchPats_image ps es]
    by_cases w : e.minor.tag = dt
    · rw [if_pos w]
      refine (if_pos w).trans ?_
      cases matchPats ps es <;> rfl
    · rw [if_neg w]
      exact if_neg w
  | .none :: _, [] => rfl
  | .some _ :: _, [] => rfl

/-- The image of a result without a value -/
abbrev Res.plain (f : V → V') (g : X → X') (h : E → E') : Res V X E Unit → Res V' X' E' Unit := Res.image f g h id

def Step.image (f : V → V') (g : X → X') (h : E → E') : Step V X E → Step V' X' E'
  | .again p => .again (p.image f g)
  | .done r => .done (r.plain f g h)

theorem carries_tokenValue (c : Carries f g h sem sem') (tok : Tok V) :
    t.tokenValue sem' (tok.image f) = ((t.tokenValue sem tok).1, (t.tokenValue sem tok).2.image f) := by
  simp only [Tables.tokenValue, Tok.image, Minor.image, c.unit]
  split <;> rfl

theorem carries_tokenBuild (c : Carries f g h sem sem') (i : Nat) (m : Minor V) : t.tokenBuild sem' i (m.image f) = (t.tokenBuild sem i m).map (Tok.image f) := by
  simp only [Tables.tokenBuild, c.unit]
  rw [show (m.image f).tag = m.tag from rfl]
  split
  · split
    · rfl
    · split <;> rfl
  · rfl

theorem carries_runCode (c : Carries f g h sem sem') (code : Option Code) (args : List V) (x : X) :
    runCode sem' code (args.map f) (g x) = returned f g h (runCode sem code args x) := by
  rcases code with _ | (n | _ | _ | _)
  · simp [runCode, c.unit, returned]
  · simp [runCode, c.user]
  · cases args <;> simp [runCode, c.unit, returned]
  · simp [runCode, c.none, returned]
  · cases args <;> simp [runCode, c.some, c.unit, returned]

theorem carries_shift (c : Carries f g h sem sem') (p : Parser V X) (s major : Nat) (m : Minor V) :
    shift t sem' (p.image f g) s major (m.image f) = (shift t sem p s major m).plain f g h := by
  unfold shift
  rw [carries_tokenBuild c]
  simp only [Parser.image, c.stackOverflow, List.length_map]
  split <;> rfl

theorem carries_accept (c : Carries f g h sem sem') (p : Parser V X) (m : Minor V) :
    accept t sem' (p.image f g) (m.image f) = (accept t sem p m).plain f g h := by
  unfold accept
  rw [c.unit]
  cases t.rootDt with
  | none => rfl
  | some n =>
    simp only
    rw [show (m.image f).tag = m.tag from rfl]
    split <;> rfl

theorem carries_parseFailed (c : Carries f g h sem sem') (p : Parser V X) :
    parseFailed sem' (p.image f g) = ((parseFailed sem p).1.image f g, h (parseFailed sem p).2) := by
  unfold parseFailed
  simp only [Parser.image, c.parseFail]
  rfl

theorem carries_syntaxError (c : Carries f g h sem sem') (p : Parser V X) (major : Nat) (m : Minor V) (ex : List Nat) :
    syntaxError t sem' (p.image f g) major (m.image f) ex = (syntaxError t sem p major m ex).image f g h (Minor.image f) := by
  unfold syntaxError
  rw [carries_tokenBuild c]
  simp only [Parser.image, c.syntaxError]
  rcases sem.syntaxError (t.tokenBuild sem major m) ex p.extra with ⟨_ | _, _⟩ <;> rfl

theorem carries_reduce (c : Carries f g h sem sem') (p : Parser V X) (r : Nat) : reduce t sem' (p.image f g) r = (reduce t sem p r).plain f g h := by
  unfold reduce
  cases t.ruleCode[r]? with
  | none => rfl
  | some rc =>
    simp only [Parser.image, List.length_map, ← List.map_take, ← List.map_reverse, ← List.map_drop, matchPats_image]
    split
    · rfl
    cases matchPats rc.pats (p.stack.take rc.pats.length).reverse with
    | none => rfl
    | some vs =>
      simp only [Option.map_some, carries_runCode c]
      rcases runCode sem rc.code vs p.extra with ⟨_ | v, x⟩
      · rfl
      simp only [returned]
      cases t.ruleInfo[r]? with
      | none => rfl
      | some lhs =>
        simp only
        cases p.stack.drop rc.pats.length with
        | nil => rfl
        | cons top rest =>
          simp only [List.map_cons]
          rw [show (top.image f).state = top.state from rfl]
          cases t.findReduce top.state lhs with
          | error w => rfl
          | ok act =>
            simp only
            split
            · exact carries_shift c ⟨p.errorCount, top :: rest, x, p.status, .reduce r vs :: p.trace⟩ _ _ ⟨rc.lhsDt, v⟩
            · split
              · exact carries_accept c ⟨p.errorCount, top :: rest, x, p.status, .reduce r vs :: p.trace⟩ ⟨rc.lhsDt, v⟩
              · rfl

theorem carries_recover (c : Carries f g h sem sem') (major : Nat) (m : Minor V) (ex : List Nat) : ∀ (st : List (Entry V)) (p : Parser V X),
    recover t sem' major (m.image f) ex (st.map (Entry.image f)) (p.image f g) = (recover t sem major m ex st p).plain f g h
  | [], p => rfl
  | top :: rest, p => by
    simp only [List.map_cons, recover]
    rw [show (top.image f).state = top.state from rfl, show (top.image f).major = top.major from rfl]
    split
    · rfl
    cases t.findReduce top.state t.errorSymbol with
    | error w => rfl
    | ok act =>
      simp only
      split
      · have := carries_syntaxError c (t := t) { p with stack := top :: rest } major m ex
        rw [show ({ p.image f g with stack := top.image f :: rest.map (Entry.image f) } : Parser V' X') = ({ p with stack := top :: rest } : Parser V X).image f g from rfl, this]
        cases syntaxError t sem { p with stack := top :: rest } major m ex with
        | panic w => rfl
        | err q e => rfl
        | ok q e => exact carries_shift c q _ _ e
      · exact carries_recover c major m ex rest p

theorem carries_onError (c : Carries f g h sem sem') (p : Parser V X) (top : Entry V) (major : Nat) (m : Minor V) :
    onError t sem' (p.image f g) (top.image f) major (m.image f) = (onError t sem p top major m).plain f g h := by
  unfold onError
  rw [show (top.image f).state = top.state from rfl]
  split
  · rw [carries_parseFailed c]; rfl
  cases t.expected top.state with
  | error w => rfl
  | ok ex =>
    simp only
    split
    · rw [show (p.image f g).stack = p.stack.map (Entry.image f) from rfl, carries_recover c]
      cases recover t sem major m ex p.stack p with
      | panic w => rfl
      | err q e => rfl
      | ok q u =>
        simp only [Res.plain, Res.image]
        rw [show (q.image f g).stack = q.stack.map (Entry.image f) from rfl]
        cases q.stack with
        | nil => simp only [List.map_nil, carries_parseFailed c]
        | cons => rfl
    · rw [show (p.image f g).errorCount = p.errorCount from rfl]
      split
      · rw [carries_syntaxError c]
        cases syntaxError t sem p major m ex with
        | panic w => rfl
        | err q e => rfl
        | ok q e => rfl
      · rfl

theorem carries_step (c : Carries f g h sem sem') (p : Parser V X) (major : Nat) (m : Minor V) :
    step t sem' (p.image f g) major (m.image f) = (step t sem p major m).image f g h := by
  unfold step
  rw [show (p.image f g).stack = p.stack.map (Entry.image f) from rfl]
  cases p.stack with
  | nil => rfl
  | cons top rest =>
    simp only [List.map_cons]
    rw [show (top.image f).state = top.state from rfl]
    cases t.findShift top.state major with
    | error w => rfl
    | ok act =>
      simp only [carries_shift c, carries_reduce c, carries_onError c]
      split
      · split
        · rfl
        · cases shift t sem p act major m <;> rfl
      · split
        · cases reduce t sem p (act - t.nState) <;> rfl
        · split <;> rfl

theorem carries_loop (c : Carries f g h sem sem') (major : Nat) (m : Minor V) : ∀ (fuel : Nat) (p : Parser V X),
    loop t sem' major (m.image f) fuel (p.image f g) = (loop t sem major m fuel p).map (Res.plain f g h)
  | 0, _ => rfl
  | fuel + 1, p => by
    unfold loop
    rw [show (p.image f g).status = p.status.image f from rfl]
    cases p.status with
    | normal =>
      simp only [Status.image, carries_step c]
      cases step t sem p major m with
      | again q => exact carries_loop c major m fuel q
      | done r => rfl
    | failed => rfl
    | accepted v => rfl

theorem carries_parseToken (c : Carries f g h sem sem') (fuel : Nat) (p : Parser V X) (major : Nat) (m : Minor V) :
    parseToken t sem' fuel (p.image f g) major (m.image f) = (parseToken t sem fuel p major m).map (Res.plain f g h) := by
  unfold parseToken
  rw [show (p.image f g).status = p.status.image f from rfl]
  cases p.status with
  | normal =>
    simp only [Status.image, carries_loop c]
    cases loop t sem major m fuel p with
    | none => rfl
    | some r => cases r <;> rfl
  | failed => rfl
  | accepted v => rfl

theorem carries_parse (c : Carries f g h sem sem') (fuel : Nat) (p : Parser V X) (tok : Tok V) :
    parse t sem' fuel (p.image f g) (tok.image f) = (parse t sem fuel p tok).map (Res.plain f g h) := by
  unfold parse
  rw [carries_tokenValue c]
  exact carries_parseToken c _ _ _ _

theorem carries_feed (c : Carries f g h sem sem') (fuel : Nat) : ∀ (toks : List (Tok V)) (p : Parser V X),
    feed t sem' fuel (p.image f g) (toks.map (Tok.image f)) = (feed t sem fuel p toks).map (Res.plain f g h)
  | [], _ => rfl
  | k :: toks, p => by
    simp only [List.map_cons, feed]
    rw [carries_parse c]
    cases parse t sem fuel p k with
    | none => rfl
    | some r =>
      cases r with
      | ok q u => exact carries_feed c fuel toks q
      | err q e => rfl
      | panic w => rfl

theorem carries_endOfInput (c : Carries f g h sem sem') (fuel : Nat) (p : Parser V X) :
    endOfInput t sem' fuel (p.image f g) = (endOfInput t sem fuel p).map (Res.image f g h f) := by
  unfold endOfInput
  rw [c.unit, show (⟨0, f sem.unit⟩ : Minor V') = (⟨0, sem.unit⟩ : Minor V).image f from rfl, carries_parseToken c]
  cases parseToken t sem fuel p 0 ⟨0, sem.unit⟩ with
  | none => rfl
  | some r =>
    cases r with
    | ok q u =>
      simp only [Option.map_some, Res.plain, Res.image, Option.some.injEq]
      rw [show (q.image f g).status = q.status.image f from rfl]
      cases q.status <;> rfl
    | err q e => rfl
    | panic w => rfl

theorem carries_new (c : Carries f g h sem sem') (x : X) : Parser.new sem' (g x) = (Parser.new sem x).image f g := by
  unfold Parser.new Parser.image; rw [c.unit]; rfl

theorem carries_runAll (c : Carries f g h sem sem') (fuel : Nat) (x : X) (toks : List (Tok V)) :
    runAll t sem' fuel (g x) (toks.map (Tok.image f)) = (runAll t sem fuel x toks).map (Res.image f g h f) := by
  unfold runAll
  rw [carries_new c, carries_feed c]
  cases feed t sem fuel (Parser.new sem x) toks with
  | none => rfl
  | some r =>
    cases r with
    | ok q u => exact carries_endOfInput c fuel q
    | err q e => rfl
    | panic w => rfl

end Pomelo
