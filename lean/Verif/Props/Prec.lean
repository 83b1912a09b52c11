import Verif.Spec.Prec
import Verif.Props.Tables
/-!
# Properties about precedence

C14 (shift/reduce), C15 (reduce/reduce).  The precedences of tokens and rules are those of the
declarations by `token_precedence` and C17.
-/

namespace Pomelo

open Spec

variable {ord : List (SymbolId × SymbolId) → List (SymbolId × SymbolId)} {ds : List Decl} {t : Tables}

/-- The precedence of a token is the declared one. -/
theorem token_precedence (ho : OrdOk ord) (R : Run ord ds) {a : SymbolId} (ha : a < R.g.syms.length) {i : Ident} (hn : (R.g.sym a).name = .ident i) :
    (R.g.sym a).precedence = precOf ds i := by
  obtain ⟨b⟩ := bridge ho R.decls R.auto
  have hi := GInv.automaton R.decls ho R.auto
  by_cases hx : a < b.gD.syms.length
  · have hk := b.keep a hx
    have e1 : (R.g.sym a).precedence = (b.gD.sym a).precedence := congrArg (·.2.2.2.2.1) hk
    have e2 : (R.g.sym a).name = (b.gD.sym a).name := congrArg (·.1) hk
    rw [e1]
    exact (b.decl.sym b.dinv hx (e2 ▸ hn)).1
  · exact absurd (Bridge0.dropped b.toBridge0 hi ha (by rw [hn]; simp)) hx

theorem Spec.Run.outcome (ho : OrdOk ord) (R : Run ord ds) {q : StateId} (hq : q < R.sts.length) {a : SymbolId} (ha : IsToken R.g a) :
    ∃ sh rd, (∀ k, k ∈ sh ↔ R.g.CanShift R.sts q a k) ∧ (∀ r, r ∈ rd ↔ R.g.CanReduce R.sts q a r) ∧
      R.g.Outcome a sh rd (actionsFor (R.actionsOf q) a) := by
  obtain ⟨hi, _, hs⟩ := R.aspec ho
  have hst : a ≠ R.g.start.getD 0 := by
    rintro rfl
    have := ha.2
    rw [hi.start_kind.1] at this; cases this
  obtain ⟨sh, rd, h1, h2, h3⟩ := hs.out q hq a (.inr hst)
  exact ⟨sh, rd, h1, h2, by rw [actionsFor_eq]; exact h3⟩

theorem precedenceCmp_gt {p q : Precedence} : precedenceCmp p q = .gt ↔ Tighter p q := by
  unfold precedenceCmp Tighter
  rcases Nat.lt_trichotomy p.level q.level with h | h | h
  · simp only [if_pos h]; constructor
    · intro h; cases h
    · rintro (h' | h') <;> omega
  · rw [if_neg (by omega), if_neg (by omega)]
    cases p.assoc <;> simp [h]
  · rw [if_neg (by omega), if_pos h]; simp [h]

theorem precedenceCmp_lt {p q : Precedence} : precedenceCmp p q = .lt ↔ Looser p q := by
  unfold precedenceCmp Looser
  rcases Nat.lt_trichotomy p.level q.level with h | h | h
  · simp [h]
  · rw [if_neg (by omega), if_neg (by omega)]
    cases p.assoc <;> simp [h]
  · rw [if_neg (by omega), if_pos h]; constructor
    · intro h; cases h
    · rintro (h' | h') <;> omega

theorem precedenceCmp_eq_iff {p q : Precedence} : precedenceCmp p q = .eq ↔ Excluded p q := by
  unfold precedenceCmp Excluded
  rcases Nat.lt_trichotomy p.level q.level with h | h | h
  · simp only [if_pos h]; constructor
    · intro h; cases h
    · rintro h'; omega
  · rw [if_neg (by omega), if_neg (by omega)]
    cases p.assoc <;> simp [h]
  · rw [if_neg (by omega), if_pos h]; constructor
    · intro h; cases h
    · rintro h'; omega

/-- Both sides of a shift/reduce conflict in a state have precedences. -/
theorem Grammar.Outcome.both {g : Grammar} {a : SymbolId} {sh : List StateId} {rd : List RuleId} {l : List Detail} (h : g.Outcome a sh rd l)
    (hs : sh ≠ []) {r : RuleId} (hr : r ∈ rd) : ∃ p p', (g.sym a).precedence = some p ∧ (g.rule r).precedence = some p' := by
  cases h with
  | nothing h _ => exact absurd h hs
  | shift _ h => obtain ⟨p, p', h1, h2, _⟩ := h r hr; exact ⟨p, p', h1, h2⟩
  | reduce _ _ h1 h2 =>
    obtain ⟨p, p', h3, h4, _⟩ := h1 hs
    rcases h2 r hr with rfl | ⟨_, p'', _, h5, _⟩ | ⟨_, p, p', h5, h6, _⟩
    · exact ⟨p, p', h3, h4⟩
    · exact ⟨p, p'', h3, h5⟩
    · exact ⟨p, p', h5, h6⟩
  | error _ _ _ h1 h7 h2 =>
    obtain ⟨p, p', h3, h4, _⟩ := h1
    rcases h2 r hr with rfl | ⟨_, p'', _, h5, _⟩ | ⟨p, p', h5, h6, _⟩
    · rcases h7 with rfl | ⟨p'', _, h8, _⟩
      · exact ⟨p, p', h3, h4⟩
      · exact ⟨p, p'', h3, h8⟩
    · exact ⟨p, p'', h3, h5⟩
    · exact ⟨p, p', h5, h6⟩

/-- C14 as stated, for a token that may be shifted as `X` or reduced by the single rule `r`, and for tables without overlapping rows -/
def C14_statement : Prop :=
  ∀ (ord : List (SymbolId × SymbolId) → List (SymbolId × SymbolId)), OrdOk ord → ∀ (ds : List Decl) (t : Tables), compile ord ds = .ok t → flat ds = true →
    apart ord ds = true → ∀ (R : Run ord ds) (γ : List SymbolId) (q : StateId), R.StateOf γ q → ∀ a X r,
      ShiftsOn R.g γ a X → ReducesOn R.g γ a r → (∀ r', ReducesOn R.g γ a r' → r' = r) →
      ∃ p p', (R.g.sym a).precedence = some p ∧ (R.g.rule r).precedence = some p' ∧
        (Tighter p p' → ∃ k, R.StateOf (γ ++ [X]) k ∧ t.findShift (R.row q) (R.g.sym a).index = .ok (R.row k)) ∧
        (Looser p p' → t.findShift (R.row q) (R.g.sym a).index = .ok (t.nState + r)) ∧
        (Excluded p p' → t.findShift (R.row q) (R.g.sym a).index = .ok (t.nState + t.nRule))

theorem toOption_ok {ε α : Type} {x : Except ε α} {y : α} (h : x.toOption = some y) : x = .ok y := by
  cases x with
  | error => cases h
  | ok => cases h; rfl

theorem Spec.Run.sizes (ho : OrdOk ord) (hc : compile ord ds = .ok t) (R : Run ord ds) : t.nState = R.sts.length ∧ t.nRule = R.g.rules.length := by
  obtain ⟨hi, ha, hs⟩ := R.aspec ho
  obtain ⟨_, _, _, _, d4, _⟩ := compressTables_spec hi R.compress
  have hlen : R.final.length = R.sts.length := by rw [d4, hs.len]
  obtain ⟨gen⟩ := compile_gen R hc
  exact ⟨by rw [gen.nState, resort_len, hlen], by rw [gen.nRule, gen.shape.rlen]⟩

/-- A shift/reduce conflict seen from the state -/
theorem Spec.Run.clash (ho : OrdOk ord) (R : Run ord ds) {γ : List SymbolId} {q : StateId} (hq : R.StateOf γ q) {a X : SymbolId} {r : RuleId}
    (hX : ShiftsOn R.g γ a X) (hr : ReducesOn R.g γ a r) :
    ∃ k rd, R.StateOf (γ ++ [X]) k ∧ r ∈ rd ∧ (∀ r, r ∈ rd ↔ ReducesOn R.g γ a r) ∧ R.g.Outcome a [k] rd (actionsFor (R.actionsOf q) a) := by
  obtain ⟨hi, ha, hs⟩ := R.aspec ho
  obtain ⟨it, hv, _⟩ := id hX
  have hp := (R.stateOf_path ho hv).1 hq
  obtain ⟨sh, rd, h1, h2, h3⟩ := R.outcome ho hq.1 ⟨hr.1, hr.2.1⟩
  obtain ⟨⟨k, hk⟩, hk2⟩ := (shiftsOn_iff hi ha hp).1 hX
  have hks : k ∈ sh := (h1 k).2 ⟨X, hk, (reads_iff (Reads.kind hk2)).2 hk2⟩
  have hsh : sh = [k] := by
    have := h3.short
    cases sh with
    | nil => cases hks
    | cons x sh =>
      cases sh with
      | nil => simp at hks; rw [hks]
      | cons => simp at this
  subst hsh
  refine ⟨k, rd, ⟨hk.dst, fun it => ?_⟩, (h2 r).2 ((reducesOn_iff hi ha hp).1 hr), fun r => ?_, h3⟩
  · exact path_items hi ha (.snoc hp hk) it
  · rw [h2, reducesOn_iff hi ha hp]

/-- C14, any number of rules: both have precedences, and what loses is not done. -/
theorem C14_losers (ho : OrdOk ord) (R : Run ord ds) {γ : List SymbolId} {q : StateId} (hq : R.StateOf γ q) {a X : SymbolId} {r : RuleId}
    (hX : ShiftsOn R.g γ a X) (hr : ReducesOn R.g γ a r) :
    ∃ p p', (R.g.sym a).precedence = some p ∧ (R.g.rule r).precedence = some p' ∧
      (Tighter p p' → ¬ R.Own q a (.reduce r)) ∧
      (Looser p p' → ∀ k, ¬ R.Own q a (.shift k)) ∧
      (Excluded p p' → ¬ R.Own q a (.reduce r) ∧ ∀ k, ¬ R.Own q a (.shift k)) := by
  obtain ⟨k, rd, _, hmem, _, hout⟩ := R.clash ho hq hX hr
  obtain ⟨p, p', h1, h2⟩ := hout.both (by simp) hmem
  refine ⟨p, p', h1, h2, ?_, ?_, ?_⟩ <;> unfold Run.Own <;> generalize actionsFor (R.actionsOf q) a = l at hout
  · intro hT h
    cases hout with
    | nothing h _ => cases h
    | shift => cases h
    | reduce _ _ h3 =>
      cases h
      obtain ⟨p1, p1', e1, e2, e3⟩ := h3 (by simp)
      rw [h1] at e1; rw [h2] at e2; cases e1; cases e2
      rw [precedenceCmp_gt.2 hT] at e3; cases e3
    | error => cases h
  · intro hT k' h
    cases hout with
    | nothing h _ => cases h
    | shift _ h3 =>
      obtain ⟨p1, p1', e1, e2, e3⟩ := h3 _ hmem
      rw [h1] at e1; rw [h2] at e2; cases e1; cases e2
      rw [precedenceCmp_lt.2 hT] at e3; cases e3
    | reduce _ _ h3 => cases h
    | error => cases h
  · intro hT
    cases hout with
    | nothing h _ => cases h
    | shift _ h3 =>
      obtain ⟨p1, p1', e1, e2, e3⟩ := h3 _ hmem
      rw [h1] at e1; rw [h2] at e2; cases e1; cases e2
      rw [precedenceCmp_eq_iff.2 hT] at e3; cases e3
    | @reduce r' _ _ h3 =>
      refine ⟨?_, fun _ h => by cases h⟩
      intro h
      cases h
      obtain ⟨p1, p1', e1, e2, e3⟩ := h3 (by simp)
      rw [h1] at e1; rw [h2] at e2; cases e1; cases e2
      rw [precedenceCmp_eq_iff.2 hT] at e3; cases e3
    | error => exact ⟨fun h => (by cases h), fun _ h => (by cases h)⟩

/-- C14 for a single rule.  Its lookup in the tables is what the documentation says.
Missing: reduces in states where the wildcard has an action too, and `%nonassoc` tokens that have a fallback or compete with the
wildcard (`C14_false`), tables with overlapping rows; more than one rule only as `C14_losers`. -/
theorem C14_partial (ho : OrdOk ord) (hc : compile ord ds = .ok t) (hf : flat ds = true) (hA : apart ord ds = true) (R : Run ord ds)
    {γ : List SymbolId} {q : StateId} (hq : R.StateOf γ q) {a X : SymbolId} {r : RuleId} (hX : ShiftsOn R.g γ a X) (hr : ReducesOn R.g γ a r)
    (h1 : ∀ r', ReducesOn R.g γ a r' → r' = r) :
    ∃ p p', (R.g.sym a).precedence = some p ∧ (R.g.rule r).precedence = some p' ∧
      (Tighter p p' → ∃ k, R.StateOf (γ ++ [X]) k ∧ t.findShift (R.row q) (R.g.sym a).index = .ok (R.row k)) ∧
      (Looser p p' → R.Quiet q → t.findShift (R.row q) (R.g.sym a).index = .ok (t.nState + r)) ∧
      (Excluded p p' → (R.g.sym a).fallback = none → R.NoWild q → t.findShift (R.row q) (R.g.sym a).index = .ok (t.nState + t.nRule)) := by
  obtain ⟨k, rd, hk, hmem, hrd, hout⟩ := R.clash ho hq hX hr
  obtain ⟨p, p', e1, e2⟩ := hout.both (by simp) hmem
  obtain ⟨hn1, hn2⟩ := R.sizes ho hc
  have ha : IsToken R.g a := ⟨hr.1, hr.2.1⟩
  have look := (C22_partial ho hc hf hA R hq.1 ha).1
  have h1' : ∀ r' ∈ rd, r' = r := fun r' h => h1 r' ((hrd r').1 h)
  have fin : ∀ {d}, (R.Own q a d → (∀ r, d = .reduce r → R.Quiet q) → (d = .error → (R.g.sym a).fallback = none ∧ R.NoWild q) → ∀ {n}, R.encode d = some n →
      t.findShift (R.row q) (R.g.sym a).index = .ok n) := fun h h2 h3 _ he => toOption_ok ((look _ h h2 h3).trans he)
  refine ⟨p, p', e1, e2, ?_, ?_, ?_⟩
  · intro hT
    refine ⟨k, hk, fin (d := .shift k) ?_ (by simp) (by simp) rfl⟩
    unfold Run.Own
    generalize actionsFor (R.actionsOf q) a = l at hout ⊢
    cases hout with
    | nothing h _ => cases h
    | shift h => cases h; rfl
    | reduce h2 _ h3 =>
      rw [h1' _ h2] at h3
      obtain ⟨p1, p1', f1, f2, e3⟩ := h3 (by simp)
      rw [e1] at f1; rw [e2] at f2; cases f1; cases f2
      rw [precedenceCmp_gt.2 hT] at e3; cases e3
    | error _ _ h2 h3 =>
      rw [h1' _ h2] at h3
      obtain ⟨p1, p1', f1, f2, e3⟩ := h3
      rw [e1] at f1; rw [e2] at f2; cases f1; cases f2
      rw [precedenceCmp_gt.2 hT] at e3; cases e3
  · intro hT hQ
    rw [hn1]
    refine fin (d := .reduce r) ?_ (fun _ _ => hQ) (by simp) rfl
    unfold Run.Own
    generalize actionsFor (R.actionsOf q) a = l at hout ⊢
    cases hout with
    | nothing h _ => cases h
    | shift _ h3 =>
      obtain ⟨p1, p1', f1, f2, e3⟩ := h3 _ hmem
      rw [e1] at f1; rw [e2] at f2; cases f1; cases f2
      rw [precedenceCmp_lt.2 hT] at e3; cases e3
    | reduce h2 _ h3 => rw [h1' _ h2]; rfl
    | error _ _ h2 h3 =>
      rw [h1' _ h2] at h3
      obtain ⟨p1, p1', f1, f2, e3⟩ := h3
      rw [e1] at f1; rw [e2] at f2; cases f1; cases f2
      rw [precedenceCmp_lt.2 hT] at e3; cases e3
  · intro hT hF hW
    rw [hn1, hn2]
    refine fin (d := .error) ?_ (by simp) (fun _ => ⟨hF, hW⟩) rfl
    unfold Run.Own
    generalize actionsFor (R.actionsOf q) a = l at hout ⊢
    cases hout with
    | nothing h _ => cases h
    | shift _ h3 =>
      obtain ⟨p1, p1', f1, f2, e3⟩ := h3 _ hmem
      rw [e1] at f1; rw [e2] at f2; cases f1; cases f2
      rw [precedenceCmp_eq_iff.2 hT] at e3; cases e3
    | reduce h2 _ h3 =>
      rw [h1' _ h2] at h3
      obtain ⟨p1, p1', f1, f2, e3⟩ := h3 (by simp)
      rw [e1] at f1; rw [e2] at f2; cases f1; cases f2
      rw [precedenceCmp_eq_iff.2 hT] at e3; cases e3
    | error _ _ h2 h3 => rfl

/-- A test that can be evaluated: in the state `q` the token can be shifted, and `r` is the only rule that can be reduced. -/
def clashIn (R : Run ord ds) (q : StateId) (a : SymbolId) (r : RuleId) : Bool :=
  decide (q < R.sts.length) && (R.g.rawActions q (R.sts.getD q default)).any (fun x => x.la = a && match x.detail with | .shift _ => true | _ => false) &&
  (R.g.rawActions q (R.sts.getD q default)).contains ⟨a, .reduce r⟩ &&
  (R.g.rawActions q (R.sts.getD q default)).all (fun x => x.la ≠ a || match x.detail with | .reduce r' => r' = r | _ => true)

theorem clashIn_iff (ho : OrdOk ord) (R : Run ord ds) {q : StateId} {a : SymbolId} {r : RuleId} (h : clashIn R q a r = true) :
    ∃ γ X, R.StateOf γ q ∧ ShiftsOn R.g γ a X ∧ ReducesOn R.g γ a r ∧ ∀ r', ReducesOn R.g γ a r' → r' = r := by
  obtain ⟨hi, ha, _⟩ := R.aspec ho
  unfold clashIn at h
  simp only [Bool.and_eq_true, decide_eq_true_eq, List.any_eq_true, List.all_eq_true, List.contains_iff_mem, Bool.or_eq_true] at h
  obtain ⟨⟨⟨hq, x, hx, hx1, hx2⟩, h2⟩, h3⟩ := h
  obtain ⟨γ, hp⟩ := ha.exists_path q hq
  have red : ∀ {r}, ReducesOn R.g γ a r ↔ (⟨a, .reduce r⟩ : Action) ∈ R.g.rawActions q (R.sts.getD q default) := by
    intro r
    rw [reducesOn_iff hi ha hp, mem_rawActions hi ha hq]
    constructor
    · intro h; exact .inr (.inl ⟨r, h, rfl⟩)
    · rintro (⟨_, _, h⟩ | ⟨r', h, e⟩ | ⟨_, h⟩)
      · cases h
      · cases e; exact h
      · cases h
  rw [mem_rawActions hi ha hq] at hx
  have hsh : ∃ X, ShiftsOn R.g γ a X := by
    rcases hx with ⟨k, ⟨X, h4, h5⟩, e⟩ | ⟨r', _, e⟩ | ⟨_, e⟩
    · have hx1 : x.la = a := hx1
      rw [hx1] at h5
      have hk : (R.g.sym X).kind ≠ .nonTerminal := by
        intro hk
        rcases (mem_shiftActions.1 h5).2 with ⟨h6, _⟩ | ⟨_, h6⟩
        · rw [hk] at h6; cases h6
        · have := (red.2 h2).2.1
          rw [show a = X from h6, hk] at this; cases this
      exact ⟨X, (shiftsOn_iff hi ha hp).2 ⟨⟨k, h4⟩, (reads_iff hk).1 h5⟩⟩
    · rw [e] at hx2; cases hx2
    · rw [e] at hx2; cases hx2
  obtain ⟨X, hX⟩ := hsh
  refine ⟨γ, X, ⟨hq, fun it => path_items hi ha hp it⟩, hX, red.2 h2, ?_⟩
  intro r' hr'
  have := h3 _ (red.1 hr')
  simpa using this

namespace C14ex
open Tests (U L s r)
open Examples (compiles compiles_iff tablesOf)
open C22ex (tokOf)

/-- `%nonassoc E; %left P; %right W; s ::= e; e ::= e E e; e ::= e P e; e ::= e W e; e ::= X;` -/
def ops : List Decl :=
  [ .assoc .none [U 0], .assoc .left [U 1], .assoc .right [U 2], r (L 0) [s (L 1)], r (L 1) [s (L 1), s (U 0), s (L 1)], r (L 1) [s (L 1), s (U 1), s (L 1)],
    r (L 1) [s (L 1), s (U 2), s (L 1)], r (L 1) [s (U 3)] ]
example : compiles ops = true ∧ flat ops = true ∧ apart id ops = true := by decide +kernel
/-- There is a conflict between the token and the rule. -/
def has (i : Ident) (r : RuleId) (R : Run id ops) : Bool := (List.range R.sts.length).any (fun q => clashIn R q (tokOf R.g i) r)
-- all combinations: the token tighter, looser, equal with each kind of associativity
example : (runOf ops).any (fun R => [U 0, U 1, U 2].all (fun i => [1, 2, 3].all (fun r => has i r R))) = true := by decide +kernel
example : (runOf ops).map (fun R => ([U 0, U 1, U 2].map (fun i => (R.g.sym (tokOf R.g i)).precedence), [1, 2, 3].map (fun r => (R.g.rule r).precedence))) =
    some ([some ⟨1, .none⟩, some ⟨2, .left⟩, some ⟨3, .right⟩], [some ⟨1, .none⟩, some ⟨2, .left⟩, some ⟨3, .right⟩]) := by decide +kernel
-- there is no wildcard
example : (runOf ops).all (fun R => R.g.wildcard.isNone) = true := by decide +kernel
-- without precedence there is a conflict
example : compile id (ops.filter (fun | .assoc .left _ => false | _ => true)) = .error .conflicts := by decide +kernel

/-- The conflict of `C22ex.lost` after `X` -/
def wrong (R : Run id C22ex.lost) : Bool :=
  (List.range R.sts.length).any (fun q => clashIn R q (tokOf R.g (U 1)) 1 &&
    decide ((R.g.sym (tokOf R.g (U 1))).precedence = some ⟨1, .none⟩) && decide ((R.g.rule 1).precedence = some ⟨1, .none⟩) &&
    !decide (((tablesOf C22ex.lost).findShift (R.row q) (R.g.sym (tokOf R.g (U 1))).index).toOption = some ((tablesOf C22ex.lost).nState + (tablesOf C22ex.lost).nRule)))
end C14ex

/-- C14 fails: with a fallback, a `%nonassoc` token is not an error after a rule of the same precedence. -/
theorem C14_false : ¬ C14_statement := by
  intro h
  obtain ⟨R⟩ := run_exists (ord := id) (Examples.compiles_iff (ds := C22ex.lost) (by decide +kernel))
  have hw : C14ex.wrong R = true := run_of_test (P := fun R => C14ex.wrong R = true) (f := C14ex.wrong)
    (by decide +kernel) (fun _ h => h) R
  unfold C14ex.wrong at hw
  rw [List.any_eq_true] at hw
  obtain ⟨q, hq, hw⟩ := hw
  simp only [Bool.and_eq_true, decide_eq_true_eq, Bool.not_eq_true', decide_eq_false_iff_not] at hw
  obtain ⟨⟨⟨h1, h2⟩, h3⟩, h4⟩ := hw
  obtain ⟨γ, X, hs, hX, hr, hu⟩ := clashIn_iff OrdOk.id R h1
  obtain ⟨p, p', e1, e2, _, _, e3⟩ := h id OrdOk.id _ _ (Examples.compiles_iff (by decide +kernel)) (by decide +kernel) (by decide +kernel) R γ q hs _ X 1 hX hr hu
  rw [h2] at e1; rw [h3] at e2; cases e1; cases e2
  rw [e3 ⟨rfl, rfl⟩] at h4
  exact h4 rfl

/-! ## C15 -/

/-- C15 as stated, for two rules that can both be reduced, and for tables without overlapping rows: if the macro succeeds, they have
different precedences, and the higher one is reduced. -/
def C15_statement : Prop :=
  ∀ (ord : List (SymbolId × SymbolId) → List (SymbolId × SymbolId)), OrdOk ord → ∀ (ds : List Decl) (t : Tables), compile ord ds = .ok t → flat ds = true →
    apart ord ds = true → ∀ (R : Run ord ds) (γ : List SymbolId) (q : StateId), R.StateOf γ q → ∀ a r r',
      (∀ X, ¬ ShiftsOn R.g γ a X) → ReducesOn R.g γ a r → ReducesOn R.g γ a r' → r ≠ r' → (∀ x, ReducesOn R.g γ a x → x = r ∨ x = r') →
      ∃ p p', (R.g.rule r).precedence = some p ∧ (R.g.rule r').precedence = some p' ∧ p.level ≠ p'.level ∧
        (p'.level < p.level → t.findShift (R.row q) (R.g.sym a).index = .ok (t.nState + r))

/-- A reduce/reduce conflict seen from the state -/
theorem Spec.Run.clash2 (ho : OrdOk ord) (R : Run ord ds) {γ : List SymbolId} {q : StateId} (hq : R.StateOf γ q) {a : SymbolId} {r : RuleId}
    (hr : ReducesOn R.g γ a r) :
    ∃ sh rd, ((∀ X, ¬ ShiftsOn R.g γ a X) → sh = []) ∧ (∀ r, r ∈ rd ↔ ReducesOn R.g γ a r) ∧ R.g.Outcome a sh rd (actionsFor (R.actionsOf q) a) := by
  obtain ⟨hi, ha, hs⟩ := R.aspec ho
  obtain ⟨_, _, γ', hs', hv⟩ := id hr
  have hp := (R.stateOf_path ho ((hs' _).2 hv.viable)).1 hq
  obtain ⟨sh, rd, h1, h2, h3⟩ := R.outcome ho hq.1 ⟨hr.1, hr.2.1⟩
  refine ⟨sh, rd, ?_, fun r => ?_, h3⟩
  · intro hno
    cases sh with
    | nil => rfl
    | cons k sh =>
      exfalso
      obtain ⟨X, h4, h5⟩ := (h1 k).1 (by simp)
      have hk : (R.g.sym X).kind ≠ .nonTerminal := by
        intro hk
        rcases (mem_shiftActions.1 h5).2 with ⟨h6, _⟩ | ⟨_, h6⟩
        · rw [hk] at h6; cases h6
        · have := hr.2.1
          rw [show a = X from h6, hk] at this; cases this
      exact hno X ((shiftsOn_iff hi ha hp).2 ⟨⟨k, h4⟩, (reads_iff hk).1 h5⟩)
  · rw [h2, reducesOn_iff hi ha hp]

/-- C15, any number of rules and with or without a shift: both have precedences, and the lower one is not reduced. -/
theorem C15_losers (ho : OrdOk ord) (R : Run ord ds) {γ : List SymbolId} {q : StateId} (hq : R.StateOf γ q) {a : SymbolId} {r r' : RuleId}
    (hr : ReducesOn R.g γ a r) (hr' : ReducesOn R.g γ a r') (hne : r ≠ r') :
    ∃ p p', (R.g.rule r).precedence = some p ∧ (R.g.rule r').precedence = some p' ∧ (p'.level < p.level → ¬ R.Own q a (.reduce r')) := by
  obtain ⟨sh, rd, _, hrd, hout⟩ := R.clash2 ho hq hr
  have m1 := (hrd r).2 hr
  have m2 := (hrd r').2 hr'
  have hboth : ∃ p p', (R.g.rule r).precedence = some p ∧ (R.g.rule r').precedence = some p' := by
    by_cases hs : sh = []
    · subst hs
      generalize actionsFor (R.actionsOf q) a = l at hout
      cases hout with
      | nothing _ h => rw [h] at m1; cases m1
      | shift h => cases h
      | reduce _ _ _ h =>
        rcases h r m1 with h1 | ⟨p1, p2, e1, e2, _⟩ | ⟨h1, _⟩
        · rcases h r' m2 with h2 | ⟨p1, p2, e1, e2, _⟩ | ⟨h2, _⟩
          · exact absurd (h1.trans h2.symm) hne
          · exact ⟨p1, p2, h1 ▸ e1, e2⟩
          · exact absurd rfl h2
        · rcases h r' m2 with h2 | ⟨p3, p4, e3, e4, _⟩ | ⟨h2, _⟩
          · exact ⟨p2, p1, e2, h2 ▸ e1⟩
          · exact ⟨p2, p4, e2, e4⟩
          · exact absurd rfl h2
        · exact absurd rfl h1
      | error h => cases h
    · obtain ⟨_, p, _, h1⟩ := hout.both hs m1
      obtain ⟨_, p', _, h2⟩ := hout.both hs m2
      exact ⟨p, p', h1, h2⟩
  obtain ⟨p, p', h1, h2⟩ := hboth
  refine ⟨p, p', h1, h2, ?_⟩
  intro hlt
  unfold Run.Own
  generalize actionsFor (R.actionsOf q) a = l at hout
  intro h
  cases hout with
  | nothing h _ => cases h
  | shift => cases h
  | reduce _ _ h3 h4 =>
    cases h
    rcases h4 r m1 with h5 | ⟨p1, p2, e1, e2, h5⟩ | ⟨h5, p1, p2, e1, e2, h6⟩
    · exact hne h5
    · rw [h2] at e1; rw [h1] at e2; cases e1; cases e2; omega
    · obtain ⟨p3, p4, e3, e4, h7⟩ := h3 h5
      rw [e1] at e3; rw [h2] at e4; rw [h1] at e2; cases e3; cases e4; cases e2
      rw [precedenceCmp_gt] at h6
      rw [precedenceCmp_lt] at h7
      unfold Tighter at h6
      unfold Looser at h7
      omega
  | error => cases h

/-- C15 for two rules.
Missing: with the same precedence, `%left` or `%right`, no conflict is reported (`C15_false`); reduces in states where the wildcard has an action too,
tables with overlapping rows; more than two rules only as `C15_losers`. -/
theorem C15_partial (ho : OrdOk ord) (hc : compile ord ds = .ok t) (hf : flat ds = true) (hA : apart ord ds = true) (R : Run ord ds)
    {γ : List SymbolId} {q : StateId} (hq : R.StateOf γ q) {a : SymbolId} {r r' : RuleId} (hno : ∀ X, ¬ ShiftsOn R.g γ a X)
    (hr : ReducesOn R.g γ a r) (hr' : ReducesOn R.g γ a r') (hne : r ≠ r') (hu : ∀ x, ReducesOn R.g γ a x → x = r ∨ x = r') :
    ∃ p p', (R.g.rule r).precedence = some p ∧ (R.g.rule r').precedence = some p' ∧ ¬ Excluded p p' ∧
      (p'.level < p.level → R.Quiet q → t.findShift (R.row q) (R.g.sym a).index = .ok (t.nState + r)) := by
  obtain ⟨p, p', e1, e2, hl⟩ := C15_losers ho R hq hr hr' hne
  obtain ⟨sh, rd, hs, hrd, hout⟩ := R.clash2 ho hq hr
  obtain ⟨hn1, hn2⟩ := R.sizes ho hc
  have hs := hs hno
  subst hs
  have m1 := (hrd r).2 hr
  have m2 := (hrd r').2 hr'
  have ha : IsToken R.g a := ⟨hr.1, hr.2.1⟩
  have look := (C22_partial ho hc hf hA R hq.1 ha).1
  have hx : ∃ x, R.Own q a (.reduce x) ∧ (x = r ∨ x = r') ∧ ∀ b ∈ rd, b = x ∨ R.g.Beats x b := by
    unfold Run.Own
    generalize actionsFor (R.actionsOf q) a = l at hout
    cases hout with
    | nothing _ h => rw [h] at m1; cases m1
    | shift h => cases h
    | @reduce x h1 _ _ h =>
      refine ⟨x, rfl, hu x ((hrd x).1 h1), ?_⟩
      intro b hb
      rcases h b hb with h | h | ⟨h, _⟩
      · exact .inl h
      · exact .inr h
      · exact absurd rfl h
    | error h => cases h
  obtain ⟨x, ho1, ho2, ho3⟩ := hx
  refine ⟨p, p', e1, e2, ?_, ?_⟩
  · rintro ⟨h1, h2⟩
    obtain ⟨b⟩ := bridge ho R.decls R.auto
    have hass : p.assoc = p'.assoc := b.levels p p' ⟨r, e1⟩ ⟨r', e2⟩ h1
    rcases ho2 with rfl | rfl
    · rcases ho3 r' m2 with h | ⟨p1, p2, f1, f2, h⟩
      · exact hne h.symm
      · rw [e1] at f1; rw [e2] at f2; cases f1; cases f2
        rcases h with h | ⟨_, h | h⟩
        · omega
        · exact h h2
        · exact h (hass ▸ h2)
    · rcases ho3 r m1 with h | ⟨p1, p2, f1, f2, h⟩
      · exact hne h
      · rw [e2] at f1; rw [e1] at f2; cases f1; cases f2
        rcases h with h | ⟨_, h | h⟩
        · omega
        · exact h (hass ▸ h2)
        · exact h h2
  · intro hlt hQ
    rcases ho2 with rfl | rfl
    · rw [hn1]
      exact toOption_ok ((look _ ho1 (fun _ _ => hQ) (by simp)).trans rfl)
    · exact absurd ho1 (hl hlt)

/-- A test that can be evaluated: in the state `q` the token can be reduced by `r` and `r'` only. -/
def clash2In (R : Run ord ds) (q : StateId) (a : SymbolId) (r r' : RuleId) : Bool :=
  decide (q < R.sts.length) && decide (a < R.g.syms.length) && decide ((R.g.sym a).kind = .terminal) &&
  (R.g.rawActions q (R.sts.getD q default)).contains ⟨a, .reduce r⟩ && (R.g.rawActions q (R.sts.getD q default)).contains ⟨a, .reduce r'⟩ &&
  (R.g.rawActions q (R.sts.getD q default)).all (fun x => x.la ≠ a || match x.detail with | .reduce x => x = r || x = r' | _ => false)

theorem clash2In_iff (ho : OrdOk ord) (R : Run ord ds) {q : StateId} {a : SymbolId} {r r' : RuleId} (h : clash2In R q a r r' = true) :
    ∃ γ, R.StateOf γ q ∧ (∀ X, ¬ ShiftsOn R.g γ a X) ∧ ReducesOn R.g γ a r ∧ ReducesOn R.g γ a r' ∧ ∀ x, ReducesOn R.g γ a x → x = r ∨ x = r' := by
  obtain ⟨hi, ha, _⟩ := R.aspec ho
  unfold clash2In at h
  simp only [Bool.and_eq_true, decide_eq_true_eq, List.all_eq_true, List.contains_iff_mem, Bool.or_eq_true] at h
  obtain ⟨⟨⟨⟨⟨hq, _⟩, _⟩, h1⟩, h2⟩, h3⟩ := h
  obtain ⟨γ, hp⟩ := ha.exists_path q hq
  have red : ∀ {r}, ReducesOn R.g γ a r ↔ (⟨a, .reduce r⟩ : Action) ∈ R.g.rawActions q (R.sts.getD q default) := by
    intro r
    rw [reducesOn_iff hi ha hp, mem_rawActions hi ha hq]
    constructor
    · intro h; exact .inr (.inl ⟨r, h, rfl⟩)
    · rintro (⟨_, _, h⟩ | ⟨r', h, e⟩ | ⟨_, h⟩)
      · cases h
      · cases e; exact h
      · cases h
  refine ⟨γ, ⟨hq, fun it => path_items hi ha hp it⟩, ?_, red.2 h1, red.2 h2, ?_⟩
  · intro X hX
    obtain ⟨⟨k, hk⟩, hk2⟩ := (shiftsOn_iff hi ha hp).1 hX
    have hm : (⟨a, .shift k⟩ : Action) ∈ R.g.rawActions q (R.sts.getD q default) := by
      rw [mem_rawActions hi ha hq]
      exact .inl ⟨k, ⟨X, hk, (reads_iff (Reads.kind hk2)).2 hk2⟩, rfl⟩
    have := h3 _ hm
    simp at this
  · intro x hx
    have := h3 _ (red.1 hx)
    simpa using this

namespace C15ex
open Tests (U L s r)
open Examples (compiles compiles_iff tablesOf)
open C22ex (tokOf)

/-- `%left A; %left B; s ::= a T; s ::= b T; s ::= a U; s ::= b V; a ::= X [A]; b ::= X [B];` -/
def gram (x y : Ident) : List Decl :=
  [ .assoc .left [U 0], .assoc .left [U 1], .assoc .none [U 2], r (L 0) [s (L 1), s (U 5)], r (L 0) [s (L 2), s (U 5)], r (L 0) [s (L 1), s (U 6)], r (L 0) [s (L 2), s (U 7)],
    r (L 1) [s (U 8)] none (some x), r (L 2) [s (U 8)] none (some y) ]
/-- The conflict on `T` -/
def has (ds : List Decl) (R : Run id ds) : Bool := (List.range R.sts.length).any (fun q => clash2In R q (tokOf R.g (U 5)) 4 5)
/-- The precedences of the two rules -/
def precs (ds : List Decl) (R : Run id ds) := ((R.g.rule 4).precedence, (R.g.rule 5).precedence)
-- different
example : compiles (gram (U 0) (U 1)) = true ∧ flat (gram (U 0) (U 1)) = true ∧ apart id (gram (U 0) (U 1)) = true := by decide +kernel
example : (runOf (gram (U 0) (U 1))).any (has _) = true := by decide +kernel
example : (runOf (gram (U 0) (U 1))).map (precs _) = some (some ⟨1, .left⟩, some ⟨2, .left⟩) := by decide +kernel
-- no precedence, or equal and `%nonassoc`: reported
example : compile id (gram (U 3) (U 1)) = .error .conflicts := by decide +kernel
example : compile id (gram (U 2) (U 2)) = .error .conflicts := by decide +kernel
/-- Equal and `%left` -/
def wrong (R : Run id (gram (U 0) (U 0))) : Bool := has _ R && decide (precs _ R = (some ⟨1, .left⟩, some ⟨1, .left⟩))
end C15ex

/-- C15 fails: no conflict is reported for two rules of the same precedence if it is `%left`. -/
theorem C15_false : ¬ C15_statement := by
  intro h
  obtain ⟨R⟩ := run_exists (ord := id) (Examples.compiles_iff (ds := C15ex.gram (Tests.U 0) (Tests.U 0)) (by decide +kernel))
  have hw : C15ex.wrong R = true := run_of_test (P := fun R => C15ex.wrong R = true) (f := C15ex.wrong)
    (by decide +kernel) (fun _ h => h) R
  unfold C15ex.wrong C15ex.has C15ex.precs at hw
  simp only [Bool.and_eq_true, List.any_eq_true, decide_eq_true_eq, Prod.mk.injEq] at hw
  obtain ⟨⟨q, hq, hw⟩, h1, h2⟩ := hw
  obtain ⟨γ, hs, hX, hr, hr', hu⟩ := clash2In_iff OrdOk.id R hw
  obtain ⟨p, p', e1, e2, h3, _⟩ := h id OrdOk.id _ _ (Examples.compiles_iff (by decide +kernel)) (by decide +kernel) (by decide +kernel) R γ q hs _ 4 5 hX hr hr' (by decide) hu
  rw [h1] at e1; rw [h2] at e2; cases e1; cases e2
  exact h3 rfl

end Pomelo
