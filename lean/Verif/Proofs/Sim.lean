import Verif.Spec.Alike
import Mathlib.Data.List.Forall2
/-! # Tables that differ in the numbers of the rules and states only: the runs are alike -/

namespace Pomelo

open Spec

variable {V X E α : Type}

/-- Actions found in the two tables -/
inductive ActR (Q : Nat → Nat → Prop) (σ : Nat → Nat) (n r : Nat) : Except Panic Nat → Except Panic Nat → Prop
  | error (w : Panic) : ActR Q σ n r (.error w) (.error w)
  | shift {k k' : Nat} : Q k k' → k < n → k' < n → ActR Q σ n r (.ok k) (.ok k')
  | reduce {x : Nat} : x < r → σ x < r → ActR Q σ n r (.ok (n + x)) (.ok (n + σ x))
  | other {c : Nat} : n + r ≤ c → ActR Q σ n r (.ok c) (.ok c)

/-- Tables that differ in the numbers of the rules (`σ`) and the states (`Q`) -/
structure Sim (t t' : Tables) where
  Q : Nat → Nat → Prop
  σ : Nat → Nat
  zero : Q 0 0
  nState : t'.nState = t.nState
  nRule : t'.nRule = t.nRule
  errorSymbol : t'.errorSymbol = t.errorSymbol
  stackLimit : t'.stackLimit = t.stackLimit
  numTerminals : t'.numTerminals = t.numTerminals
  tokenDt : t'.tokenDt = t.tokenDt
  errorDt : t'.errorDt = t.errorDt
  rootDt : t'.rootDt = t.rootDt
  ruleCode : ∀ r, r < t.nRule → t'.ruleCode[σ r]? = t.ruleCode[r]?
  ruleInfo : ∀ r, r < t.nRule → t'.ruleInfo[σ r]? = t.ruleInfo[r]?
  find : ∀ n n' a, Q n n' → a < t.numTerminals → ActR Q σ t.nState t.nRule (t.findShift n a) (t'.findShift n' a)
  goto : ∀ n n' a, Q n n' → a ∈ t.ruleInfo ∨ (a = t.errorSymbol ∧ a ≠ 0) → ActR Q σ t.nState t.nRule (t.findReduce n a) (t'.findReduce n' a)

namespace Sim

variable {t t' : Tables} (S : Sim t t')

/-- Entries of the stack -/
def En (e e' : Entry V) : Prop := S.Q e.state e'.state ∧ e'.major = e.major ∧ e'.minor = e.minor

/-- Parsers -/
structure Pa (p p' : Parser V X) : Prop where
  cnt : p'.errorCount = p.errorCount
  extra : p'.extra = p.extra
  status : p'.status = p.status
  log : p'.trace = p.trace.map (Event.renumber S.σ)
  stack : List.Forall₂ S.En p.stack p'.stack

/-- Results -/
inductive Re : Res V X E α → Res V X E α → Prop
  | ok {p p'} (a : α) : S.Pa p p' → Re (.ok p a) (.ok p' a)
  | err {p p'} (e : E) : S.Pa p p' → Re (.err p e) (.err p' e)
  | panic (w : Panic) : Re (.panic w) (.panic w)

/-- Results of a bounded run -/
inductive Op : Option (Res V X E α) → Option (Res V X E α) → Prop
  | busy : Op none none
  | done {r r'} : S.Re r r' → Op (some r) (some r')

theorem Pa.alike {p p' : Parser V X} (h : S.Pa p p') : Alike S.σ p p' := by
  refine ⟨h.cnt, h.extra, h.status, h.log, ?_⟩
  have := h.stack
  generalize p.stack = l at this
  generalize p'.stack = l' at this
  induction this with
  | nil => rfl
  | cons h1 _ ih => rw [List.map_cons, List.map_cons, ih, h1.2.1, h1.2.2]

theorem Op.alike {r r' : Option (Res V X E α)} (h : S.Op r r') : AlikeRes S.σ r r' := by
  cases h with
  | busy => exact .busy
  | done h =>
    cases h with
    | ok a h => exact .ok a h.alike
    | err e h => exact .err e h.alike
    | panic w => exact .panic w

theorem new (sem : Sem V X E) (x : X) : S.Pa (Parser.new sem x) (Parser.new sem x) :=
  ⟨rfl, rfl, rfl, rfl, .cons ⟨S.zero, rfl, rfl⟩ .nil⟩

variable (sem : Sem V X E)

include S in
theorem tokenBuild (i : Nat) (m : Minor V) : t'.tokenBuild sem i m = t.tokenBuild sem i m := by
  unfold Tables.tokenBuild
  rw [S.numTerminals, S.tokenDt]

include S in
theorem tokenValue (tok : Tok V) : t'.tokenValue sem tok = t.tokenValue sem tok := by
  unfold Tables.tokenValue
  rw [S.tokenDt]

variable {S}

theorem shift {p p' : Parser V X} (h : S.Pa p p') {n n' : Nat} (hq : S.Q n n') (a : Nat) (m : Minor V) :
    S.Re (shift t sem p n a m) (shift t' sem p' n' a m) := by
  unfold Pomelo.shift
  rw [S.stackLimit, ← h.stack.length_eq, S.tokenBuild sem, h.extra]
  split
  · exact .err _ ⟨h.cnt, rfl, h.status, by simp only [List.map_cons, h.log]; rfl, h.stack⟩
  · exact .ok _ ⟨h.cnt, rfl, h.status, h.log, .cons ⟨hq, rfl, rfl⟩ h.stack⟩

theorem parseFailed {p p' : Parser V X} (h : S.Pa p p') : S.Pa (parseFailed sem p).1 (Pomelo.parseFailed sem p').1 ∧
    (Pomelo.parseFailed sem p').2 = (Pomelo.parseFailed sem p).2 := by
  unfold Pomelo.parseFailed
  rw [h.extra]
  exact ⟨⟨h.cnt, rfl, h.status, by simp only [List.map_cons, h.log]; rfl, .nil⟩, rfl⟩

theorem syntaxError {p p' : Parser V X} (h : S.Pa p p') (a : Nat) (m : Minor V) (ex : List Nat) :
    S.Re (syntaxError t sem p a m ex) (syntaxError t' sem p' a m ex) := by
  unfold Pomelo.syntaxError
  simp only
  rw [S.tokenBuild sem, h.extra]
  have h1 : S.Pa ({ p with trace := .syntaxError (t.tokenBuild sem a m) ex :: p.trace } : Parser V X)
      { p' with trace := .syntaxError (t.tokenBuild sem a m) ex :: p'.trace } :=
    ⟨h.cnt, h.extra, h.status, by simp only [List.map_cons, h.log]; rfl, h.stack⟩
  rcases sem.syntaxError (t.tokenBuild sem a m) ex p.extra with ⟨v | v, x⟩
  · exact .err _ ⟨h1.cnt, rfl, h1.status, h1.log, h1.stack⟩
  · simp only
    rw [S.errorDt]
    exact .ok _ ⟨h1.cnt, rfl, h1.status, h1.log, h1.stack⟩

theorem accept {p p' : Parser V X} (h : S.Pa p p') (m : Minor V) : S.Re (accept t sem p m) (accept t' sem p' m) := by
  unfold Pomelo.accept
  rw [S.rootDt]
  split
  · split
    · exact .ok _ ⟨h.cnt, h.extra, rfl, h.log, .nil⟩
    · exact .panic _
  · exact .ok _ ⟨h.cnt, h.extra, rfl, h.log, .nil⟩

theorem matchPats {es es' : List (Entry V)} (h : List.Forall₂ S.En es es') : ∀ ps : List (Option Nat), matchPats ps es' = matchPats ps es := by
  induction h with
  | nil => intro ps; rfl
  | @cons e e' es es' h1 _ ih =>
    intro ps
    match ps with
    | [] => rfl
    | none :: ps => exact ih ps
    | some d :: ps =>
      unfold Pomelo.matchPats
      rw [ih, h1.2.2]

theorem reduce {p p' : Parser V X} (h : S.Pa p p') {r : Nat} (hr : r < t.nRule) : S.Re (reduce t sem p r) (reduce t' sem p' (S.σ r)) := by
  unfold Pomelo.reduce
  rw [S.ruleCode r hr, S.ruleInfo r hr, ← h.stack.length_eq, S.nState, S.nRule]
  cases t.ruleCode[r]? with
  | none => exact .panic _
  | some rc =>
    simp only
    split
    · exact .panic _
    · rw [matchPats (S := S) (List.rel_reverse (List.forall₂_take rc.pats.length h.stack)), h.extra]
      cases Pomelo.matchPats rc.pats (p.stack.take rc.pats.length).reverse with
      | none => exact .panic _
      | some vs =>
        simp only
        have hd := List.forall₂_drop rc.pats.length h.stack
        have hp : ∀ x, S.Pa ({ p with stack := p.stack.drop rc.pats.length, trace := .reduce r vs :: p.trace, extra := x } : Parser V X)
            { p' with stack := p'.stack.drop rc.pats.length, trace := .reduce (S.σ r) vs :: p'.trace, extra := x } :=
          fun x => ⟨h.cnt, rfl, h.status, by simp only [List.map_cons, h.log]; rfl, hd⟩
        rcases runCode sem rc.code vs p.extra with ⟨v | v, x⟩
        · exact .err _ (hp x)
        · simp only
          cases hi : t.ruleInfo[r]? with
          | none => exact .panic _
          | some lhs =>
            simp only
            have hp := hp x
            generalize hl : p.stack.drop rc.pats.length = l at hd hp
            generalize hl' : p'.stack.drop rc.pats.length = l' at hd hp
            cases hd with
            | nil => exact .panic _
            | @cons e e' l l' h1 h2 =>
              simp only
              have hg := S.goto e.state e'.state lhs h1.1 (.inl (List.mem_of_getElem? hi))
              generalize t.findReduce e.state lhs = a at hg
              generalize t'.findReduce e'.state lhs = a' at hg
              cases hg with
              | error w => exact .panic _
              | shift k1 k2 k3 =>
                simp only [if_pos k2, if_pos k3]
                exact S.shift sem hp k1 _ _
              | @reduce y k1 k2 =>
                simp only
                rw [if_neg (by omega), if_neg (by omega), if_neg (by omega), if_neg (by omega)]
                exact .panic _
              | @other c k =>
                simp only
                simp only [if_neg (show ¬ c < t.nState by omega)]
                split
                · exact S.accept sem hp _
                · exact .panic _

theorem recover (he : t.errorSymbol ≠ 0) (a : Nat) (m : Minor V) (ex : List Nat) {es es' : List (Entry V)} (hs : List.Forall₂ S.En es es') : ∀ {p p' : Parser V X}, S.Pa p p' →
    S.Re (recover t sem a m ex es p) (recover t' sem a m ex es' p') := by
  induction hs with
  | nil =>
    intro p p' h
    exact .ok _ ⟨h.cnt, h.extra, h.status, h.log, .nil⟩
  | @cons e e' es es' h1 h2 ih =>
    intro p p' h
    have hp : S.Pa ({ p with stack := e :: es } : Parser V X) { p' with stack := e' :: es' } := ⟨h.cnt, h.extra, h.status, h.log, .cons h1 h2⟩
    unfold Pomelo.recover
    rw [S.errorSymbol, S.nState, h1.2.1]
    split
    · exact .ok _ hp
    · have hg := S.goto e.state e'.state t.errorSymbol h1.1 (.inr ⟨rfl, he⟩)
      generalize t.findReduce e.state t.errorSymbol = c at hg
      generalize t'.findReduce e'.state t.errorSymbol = c' at hg
      cases hg with
      | error w => exact .panic _
      | shift k1 k2 k3 =>
        simp only [if_pos k2, if_pos k3]
        have := S.syntaxError sem hp a m ex
        revert this
        generalize Pomelo.syntaxError t sem _ a m ex = r
        generalize Pomelo.syntaxError t' sem _ a m ex = r'
        intro hr
        cases hr with
        | ok v h => exact S.shift sem h k1 _ _
        | err x h => exact .err _ h
        | panic w => exact .panic _
      | @reduce y k1 k2 =>
        simp only
        rw [if_neg (by omega), if_neg (by omega)]
        exact ih h
      | @other c k =>
        simp only
        simp only [if_neg (show ¬ c < t.nState by omega)]
        exact ih h

theorem filterM_congr {ε β : Type} {f g : β → Except ε Bool} {l : List β} (h : ∀ a ∈ l, f a = g a) : l.filterM f = l.filterM g := by
  unfold List.filterM
  congr 1
  suffices ∀ acc, List.filterAuxM f l acc = List.filterAuxM g l acc from this []
  induction l with
  | nil => intro acc; rfl
  | cons a l ih =>
    intro acc
    have ih := ih (fun b hb => h b (List.mem_cons_of_mem _ hb))
    unfold List.filterAuxM
    rw [h a List.mem_cons_self]
    congr 1
    funext b
    exact ih _

theorem expected {n n' : Nat} (h : S.Q n n') : t'.expected n' = t.expected n := by
  unfold Tables.expected
  rw [S.numTerminals, S.nState, S.nRule]
  apply filterM_congr
  intro a ha
  have ha : a < t.numTerminals := List.mem_range.1 (List.mem_of_mem_drop ha)
  have hg := S.find n n' a h ha
  generalize t.findShift n a = c at hg
  generalize t'.findShift n' a = c' at hg
  cases hg with
  | error w => rfl
  | shift k1 k2 k3 => simp only [Except.map, Except.ok.injEq, decide_eq_decide]; omega
  | @reduce y k1 k2 => simp only [Except.map, Except.ok.injEq, decide_eq_decide]; omega
  | @other c k => rfl

theorem onError {p p' : Parser V X} (h : S.Pa p p') {e e' : Entry V} (hq : S.Q e.state e'.state) (a : Nat) (m : Minor V) :
    S.Re (onError t sem p e a m) (onError t' sem p' e' a m) := by
  have hd : ∀ {p p' : Parser V X}, S.Pa p p' → S.Pa ({ p with errorCount := 3, trace := .discard a :: p.trace } : Parser V X)
      { p' with errorCount := 3, trace := .discard a :: p'.trace } :=
    fun h => ⟨rfl, h.extra, h.status, by simp only [List.map_cons, h.log]; rfl, h.stack⟩
  have hpf : ∀ {p p' : Parser V X}, S.Pa p p' → S.Re (.err (α := Unit) (Pomelo.parseFailed sem p).1 (Pomelo.parseFailed sem p).2)
      (.err (Pomelo.parseFailed sem p').1 (Pomelo.parseFailed sem p').2) := by
    intro p p' h
    obtain ⟨h1, h2⟩ := S.parseFailed sem h
    rw [h2]
    exact .err _ h1
  unfold Pomelo.onError
  split
  · exact hpf h
  · rw [S.expected hq, S.errorSymbol, h.cnt]
    cases t.expected e.state with
    | error w => exact .panic _
    | ok ex =>
      simp only
      split
      · rename_i he
        have := S.recover sem he a m ex h.stack h
        revert this
        generalize Pomelo.recover t sem a m ex p.stack p = r
        generalize Pomelo.recover t' sem a m ex p'.stack p' = r'
        intro hr
        cases hr with
        | err x h => exact .err _ h
        | panic w => exact .panic _
        | @ok p p' v h =>
          simp only
          have hst := h.stack
          cases hl : p.stack with
          | nil =>
            rw [hl] at hst
            cases hl' : p'.stack with
            | nil => exact hpf h
            | cons _ _ => rw [hl'] at hst; cases hst
          | cons _ _ =>
            rw [hl] at hst
            cases hl' : p'.stack with
            | nil => rw [hl'] at hst; cases hst
            | cons _ _ =>
              have := hd h
              rw [hl, hl'] at this
              exact .ok _ this
      · split
        · have := S.syntaxError sem h a m ex
          revert this
          generalize Pomelo.syntaxError t sem p a m ex = r
          generalize Pomelo.syntaxError t' sem p' a m ex = r'
          intro hr
          cases hr with
          | err x h => exact .err _ h
          | panic w => exact .panic _
          | ok v h => exact .ok _ (hd h)
        · exact .ok _ (hd h)

/-- Results of an iteration -/
inductive St (S : Sim t t') : Step V X E → Step V X E → Prop
  | again {p p'} : S.Pa p p' → St S (.again p) (.again p')
  | done {r r'} : S.Re r r' → St S (.done r) (.done r')

theorem step {p p' : Parser V X} (h : S.Pa p p') {a : Nat} (ha : a < t.numTerminals) (m : Minor V) : St S (step t sem p a m) (step t' sem p' a m) := by
  unfold Pomelo.step
  have hst := h.stack
  cases hl : p.stack with
  | nil =>
    rw [hl] at hst
    cases hl' : p'.stack with
    | nil => exact .done (.panic _)
    | cons _ _ => rw [hl'] at hst; cases hst
  | cons e es =>
    rw [hl] at hst
    cases hl' : p'.stack with
    | nil => rw [hl'] at hst; cases hst
    | cons e' es' =>
      rw [hl'] at hst
      simp only
      have he := (List.forall₂_cons.1 hst).1
      rw [S.nState, S.nRule]
      have hg := S.find e.state e'.state a he.1 ha
      generalize t.findShift e.state a = c at hg
      generalize t'.findShift e'.state a = c' at hg
      cases hg with
      | error w => exact .done (.panic _)
      | @shift k k' k1 k2 k3 =>
        simp only [if_pos k2, if_pos k3]
        split
        · exact .done (.panic _)
        · have := S.shift sem h k1 a m
          revert this
          generalize Pomelo.shift t sem p k a m = r
          generalize Pomelo.shift t' sem p' k' a m = r'
          intro hr
          cases hr with
          | err x h => exact .done (.err _ h)
          | panic w => exact .done (.panic _)
          | ok v h => exact .done (.ok _ ⟨by simp only [h.cnt], h.extra, h.status, by simp only [List.map_cons, h.log]; rfl, h.stack⟩)
      | @reduce y k1 k2 =>
        simp only
        rw [if_neg (by omega), if_pos (by omega), if_neg (by omega), if_pos (by omega), Nat.add_sub_cancel_left, Nat.add_sub_cancel_left]
        have := S.reduce sem h k1
        revert this
        generalize Pomelo.reduce t sem p y = r
        generalize Pomelo.reduce t' sem p' (S.σ y) = r'
        intro hr
        cases hr with
        | err x h => exact .done (.err _ h)
        | panic w => exact .done (.panic _)
        | ok v h => exact .again h
      | @other c k =>
        simp only
        simp only [if_neg (show ¬ c < t.nState by omega), if_neg (show ¬ c < t.nState + t.nRule by omega)]
        split
        · exact .done (S.onError sem h he.1 a m)
        · exact .done (.panic _)

theorem loop {a : Nat} (ha : a < t.numTerminals) (m : Minor V) : ∀ (fuel : Nat) {p p' : Parser V X}, S.Pa p p' → S.Op (loop t sem a m fuel p) (loop t' sem a m fuel p') := by
  intro fuel
  induction fuel with
  | zero => intro p p' _; exact .busy
  | succ fuel ih =>
    intro p p' h
    unfold Pomelo.loop
    rw [h.status]
    split
    · have := S.step sem h ha m
      revert this
      generalize Pomelo.step t sem p a m = r
      generalize Pomelo.step t' sem p' a m = r'
      intro hr
      cases hr with
      | again h => exact ih h
      | done h => exact .done h
    · exact .done (.ok _ h)

theorem parseToken {a : Nat} (ha : a < t.numTerminals) (m : Minor V) (fuel : Nat) {p p' : Parser V X} (h : S.Pa p p') :
    S.Op (parseToken t sem fuel p a m) (parseToken t' sem fuel p' a m) := by
  unfold Pomelo.parseToken
  rw [h.status]
  split
  · have := S.loop sem ha m fuel h
    revert this
    generalize Pomelo.loop t sem a m fuel p = r
    generalize Pomelo.loop t' sem a m fuel p' = r'
    intro hr
    cases hr with
    | busy => exact .busy
    | done hr =>
      cases hr with
      | ok v h => exact .done (.ok _ h)
      | panic w => exact .done (.panic _)
      | err e h => exact .done (.err _ ⟨h.cnt, h.extra, rfl, h.log, h.stack⟩)
  · exact .done (.panic _)

theorem parse {tok : Tok V} (hv : tok.major < t.numTerminals) (fuel : Nat) {p p' : Parser V X} (h : S.Pa p p') :
    S.Op (parse t sem fuel p tok) (parse t' sem fuel p' tok) := by
  unfold Pomelo.parse
  rw [S.tokenValue sem]
  exact S.parseToken sem hv _ fuel h

theorem feed (fuel : Nat) : ∀ {toks : List (Tok V)} {p p' : Parser V X}, (∀ tok ∈ toks, tok.major < t.numTerminals) → S.Pa p p' →
    S.Op (feed t sem fuel p toks) (feed t' sem fuel p' toks) := by
  intro toks
  induction toks with
  | nil => intro p p' _ h; exact .done (.ok _ h)
  | cons tok toks ih =>
    intro p p' hv h
    unfold Pomelo.feed
    have := S.parse sem (hv tok List.mem_cons_self) fuel h
    revert this
    generalize Pomelo.parse t sem fuel p tok = r
    generalize Pomelo.parse t' sem fuel p' tok = r'
    intro hr
    cases hr with
    | busy => exact .busy
    | done hr =>
      cases hr with
      | ok v h => exact ih (fun k hk => hv k (List.mem_cons_of_mem _ hk)) h
      | panic w => exact .done (.panic _)
      | err e h => exact .done (.err _ h)

theorem endOfInput (h0 : 0 < t.numTerminals) (fuel : Nat) {p p' : Parser V X} (h : S.Pa p p') : S.Op (endOfInput t sem fuel p) (endOfInput t' sem fuel p') := by
  unfold Pomelo.endOfInput
  have := S.parseToken sem h0 ⟨0, sem.unit⟩ fuel h
  revert this
  generalize Pomelo.parseToken t sem fuel p 0 ⟨0, sem.unit⟩ = r
  generalize Pomelo.parseToken t' sem fuel p' 0 ⟨0, sem.unit⟩ = r'
  intro hr
  cases hr with
  | busy => exact .busy
  | done hr =>
    cases hr with
    | panic w => exact .done (.panic _)
    | err e h => exact .done (.err _ h)
    | ok v h =>
      simp only [Option.map_some, h.status]
      split
      · exact .done (.ok _ h)
      · exact .done (.panic _)

/-- A whole run -/
theorem runAll (h0 : 0 < t.numTerminals) (fuel : Nat) (x : X) {toks : List (Tok V)} (hv : ∀ tok ∈ toks, tok.major < t.numTerminals) :
    S.Op (runAll t sem fuel x toks) (runAll t' sem fuel x toks) := by
  unfold Pomelo.runAll
  have := S.feed sem fuel hv (S.new sem x)
  revert this
  generalize Pomelo.feed t sem fuel (Parser.new sem x) toks = r
  generalize Pomelo.feed t' sem fuel (Parser.new sem x) toks = r'
  intro hr
  cases hr with
  | busy => exact .busy
  | done hr =>
    cases hr with
    | panic w => exact .done (.panic _)
    | err e h => exact .done (.err _ h)
    | ok v h => exact S.endOfInput sem h0 fuel h

end Sim

end Pomelo
