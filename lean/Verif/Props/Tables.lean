import Verif.Proofs.Rows
import Verif.Examples
import Verif.Props.Decls
import Verif.Proofs.Conflicts
import Verif.Proofs.Written
/-!
# C12, C20, C22, C23, C24, C43: what the tables say

`Spec.Run` names the results of the passes of the macro: `actionsOf q` are the actions of the state
`q` after conflict resolution, `finalOf q` those after the choice of a default action, `row q` is
its number in the tables.
-/

namespace Pomelo

open Spec

variable {ord : List (SymbolId × SymbolId) → List (SymbolId × SymbolId)} {ds : List Decl} {t : Tables}

/-- The passes of the macro, executed -/
def runOf (ds : List Decl) : Option (Run id ds) :=
  match h0 : newFromDecls ds with
  | .error _ => none
  | .ok g0 =>
    match h1 : g0.automaton id with
    | .error _ => none
    | .ok (g, sts) =>
      match h2 : g.findActions sts with
      | .error _ => none
      | .ok (_, _ + 1) => none
      | .ok (acts, 0) =>
        match h3 : g.compressTables acts with
        | .error _ => none
        | .ok final => some ⟨g0, g, sts, acts, final, h0, h1, h2, h3⟩

theorem Spec.Run.unique (R R' : Run ord ds) : R = R' := by
  obtain ⟨g0, g, sts, acts, acts', h1, h2, h3, h4⟩ := R
  obtain ⟨g0', g', sts', acts1, acts1', e1, e2, e3, e4⟩ := R'
  rw [h1] at e1; cases e1
  rw [h2] at e2; cases e2
  rw [h3] at e3; cases e3
  rw [h4] at e4; cases e4
  rfl

/-- A test that can be evaluated -/
theorem run_of_test {ds : List Decl} {P : Run id ds → Prop} {f : Run id ds → Bool} (h : (runOf ds).any f = true) (hf : ∀ R, f R = true → P R) :
    ∀ R : Run id ds, P R := by
  intro R
  cases hr : runOf ds with
  | none => rw [hr] at h; cases h
  | some R' => rw [hr] at h; rw [R.unique R']; exact hf R' h

theorem Made.default_eq {R : Run ord ds} {hc : compile ord ds = .ok t} {dflt : SymbolId} (m : Made (R.cspec hc) dflt) {q : StateId} (hq : q < R.sts.length) : R.defaultOf q = (ownOf (R.finalOf q) dflt).getD .error := by
  have hq' : q < R.final.length := by have := m.len; rw [show R.final.length = R.sts.length from this]; exact hq
  have e : (R.finalOf q).filter (fun a => (R.g.sym a.la).name = .dflt) = onSym dflt (R.finalOf q) := by
    unfold onSym
    apply List.filter_congr
    intro a ha
    have hlt : a.la < R.g.syms.length := m.las'.lt q hq' a ha
    rw [decide_eq_decide]
    constructor
    · intro hn
      exact m.inv.names _ _ hlt m.dlt (hn.trans m.dname.symm) (fun h => by have h := hn.symm.trans h; cases h)
    · intro hn; rw [hn]; exact m.dname
  unfold Run.defaultOf
  rw [e, counts_eq]
  rfl

theorem Spec.IsToken.ne {g : Grammar} {a : SymbolId} (h : IsToken g a) : (g.sym a).kind ≠ .nonTerminal := by
  rw [h.2]; simp

theorem ownOf_counts {l : List Action} {a : SymbolId} {d : Detail} (h : ownOf l a = some d) : counts d = true := by
  rw [counts_eq]
  unfold ownOf lives at h
  have := List.mem_of_getLast? h
  exact (List.mem_filter.1 this).2

theorem Made.default_counts {R : Run ord ds} {hc : compile ord ds = .ok t} {dflt : SymbolId} (m : Made (R.cspec hc) dflt) {q : StateId}
    (hq : q < R.sts.length) : counts (R.defaultOf q) = true := by
  rw [m.default_eq hq]
  cases h : ownOf (R.finalOf q) dflt with
  | none => rfl
  | some d => exact ownOf_counts h

/-! ## C12 -/

/-- C12 as stated: the search in the packed tables gives the action of the state for the token, if
there is one, and otherwise the default of the state; fallback and wildcard, which the search also
follows, do not apply.  Nonterminals are looked up only where they have an action. -/
def C12_statement : Prop :=
  ∀ (ord : List (SymbolId × SymbolId) → List (SymbolId × SymbolId)), OrdOk ord → ∀ (ds : List Decl) (t : Tables), compile ord ds = .ok t → flat ds = true →
    ∀ (R : Run ord ds) (q : StateId), q < R.sts.length →
      (∀ a, IsToken R.g a → ∀ d, (actionsFor (R.finalOf q) a).getLast? = some d →
        (t.findShift (R.row q) (R.g.sym a).index).toOption = R.encode d) ∧
      (∀ a, IsToken R.g a → actionsFor (R.finalOf q) a = [] →
        a = 0 ∨ ((R.g.sym a).fallback = none ∧ ∀ w, R.g.wildcard = some w → actionsFor (R.finalOf q) w = []) →
        (t.findShift (R.row q) (R.g.sym a).index).toOption = R.encode (R.defaultOf q)) ∧
      (∀ A, A < R.g.syms.length → (R.g.sym A).kind = .nonTerminal → (R.g.sym A).name ≠ .dflt →
        ∀ d, (actionsFor (R.finalOf q) A).getLast? = some d →
        (t.findReduce (R.row q) (R.g.sym A).index).toOption = R.encode d)

/-- C12 for tables without overlapping rows.  The actions of the state, and those for nonterminals, are found in
any case; only the search for what is not there needs `apart`.
Missing: overlapping rows, where it is false (`C12_false`). -/
theorem C12_partial (ho : OrdOk ord) (hc : compile ord ds = .ok t) (hf : flat ds = true) (R : Run ord ds) {q : StateId} (hq : q < R.sts.length) :
    (∀ a, IsToken R.g a → ∀ d, (actionsFor (R.finalOf q) a).getLast? = some d →
      (t.findShift (R.row q) (R.g.sym a).index).toOption = R.encode d) ∧
    (∀ a, IsToken R.g a → actionsFor (R.finalOf q) a = [] → apart ord ds = true →
      a = 0 ∨ ((R.g.sym a).fallback = none ∧ ∀ w, R.g.wildcard = some w → actionsFor (R.finalOf q) w = []) →
      (t.findShift (R.row q) (R.g.sym a).index).toOption = R.encode (R.defaultOf q)) ∧
    (∀ A, A < R.g.syms.length → (R.g.sym A).kind = .nonTerminal → (R.g.sym A).name ≠ .dflt →
      ∀ d, (actionsFor (R.finalOf q) A).getLast? = some d →
      (t.findReduce (R.row q) (R.g.sym A).index).toOption = R.encode d) := by
  obtain ⟨dflt, m⟩ := (R.cspec hc).made ho hf
  have hno : ∀ {a}, actionsFor (R.finalOf q) a = [] → ownOf (R.finalOf q) a = none := by
    intro a h
    rw [← actionsFor_last, h]; rfl
  refine ⟨?_, ?_, ?_⟩
  · intro a ha d hd
    rw [actionsFor_last] at hd
    have h1 := m.tok_own hq hd ha.1 ha.ne
    rw [CSpec.encode R hc (ownOf_counts hd)]
    exact congrArg Except.toOption h1
  · intro a ha hn hA h0
    have hp : R.g.Pick (R.finalOf q) dflt a ((ownOf (R.finalOf q) dflt).getD .error) := by
      refine .dflt (hno hn) ?_
      rcases h0 with h0 | ⟨h1, h2⟩
      · exact .inl h0
      · exact .inr ⟨h1, fun w hw => hno (h2 w hw)⟩
    have h1 := m.tok_lookup hA hq hp ha.1 ha.ne
    rw [CSpec.encode R hc (m.default_counts hq), m.default_eq hq]
    exact congrArg Except.toOption h1
  · intro A hA hk hn d hd
    rw [actionsFor_last] at hd
    have h1 := m.goto hq hd hA hk (fun h => hn (by rw [h]; exact m.dname))
    rw [CSpec.encode R hc (ownOf_counts hd)]
    exact congrArg Except.toOption h1

namespace C12ex
open Tests (U L s r)
open Examples (compiles compiles_iff tablesOf)

/-- `s ::= a; a ::= A;` -/
def tiny : List Decl := [ r (L 0) [s (L 1)], r (L 1) [s (U 1)] ]

/-- State 0 has no action on the end of input and no default, but the tables have one. -/
def wrong (ds : List Decl) (R : Run id ds) : Bool :=
  decide (0 < R.sts.length) && decide (0 < R.g.syms.length) && decide ((R.g.sym 0).kind = .terminal) &&
    decide (actionsFor (R.finalOf 0) 0 = []) &&
    !decide (((tablesOf ds).findShift (R.row 0) (R.g.sym 0).index).toOption = R.encode (R.defaultOf 0))
end C12ex

/-- C12 fails for `s ::= a; a ::= A;`: in the first state the end of input is looked up as if it had an action. -/
theorem C12_false : ¬ C12_statement := by
  intro h
  obtain ⟨R⟩ := run_exists (ord := id) (Examples.compiles_iff (ds := C12ex.tiny) (by decide +kernel))
  have hw : C12ex.wrong C12ex.tiny R = true := run_of_test (P := fun R => C12ex.wrong C12ex.tiny R = true) (f := C12ex.wrong C12ex.tiny)
    (by decide +kernel) (fun _ h => h) R
  simp only [C12ex.wrong, Bool.and_eq_true, decide_eq_true_eq, Bool.not_eq_true', decide_eq_false_iff_not] at hw
  obtain ⟨⟨⟨⟨h1, h2⟩, h3⟩, h4⟩, h5⟩ := hw
  exact h5 ((h id OrdOk.id _ _ (Examples.compiles_iff (by decide +kernel)) (by decide +kernel) R 0 h1).2.1 0 ⟨h2, h3⟩ h4 (.inl rfl))

/-! ## C22 -/

theorem Made.lives_cases {R : Run ord ds} {hc : compile ord ds = .ok t} {dflt : SymbolId} (m : Made (R.cspec hc) dflt) {q : StateId}
    (hq : q < R.sts.length) {a : SymbolId} (hk : (R.g.sym a).kind ≠ .nonTerminal) {d : Detail} (h : R.Own q a d) :
    (∃ k, d = .shift k ∧ lives (onSym a (R.actionsOf q)) = [d]) ∨ (∃ r, d = .reduce r ∧ lives (onSym a (R.actionsOf q)) = [d]) ∨
      (∃ r, d = .error ∧ lives (onSym a (R.actionsOf q)) = [d, .reduce r]) := by
  unfold Run.Own at h
  rw [actionsFor_eq] at h
  obtain ⟨sh, rd, _, _, hout⟩ := m.outcome hq hk
  have hout : R.g.Outcome a sh rd (lives (onSym a (R.actionsOf q))) := hout
  generalize lives (onSym a (R.actionsOf q)) = l at h hout ⊢
  cases hout with
  | nothing => cases h
  | @shift k => cases h; exact .inl ⟨k, rfl, rfl⟩
  | @reduce r => cases h; exact .inr (.inl ⟨r, rfl, rfl⟩)
  | @error k r => cases h; exact .inr (.inr ⟨r, rfl, rfl⟩)

theorem Made.pick_own {R : Run ord ds} {hc : compile ord ds = .ok t} {dflt : SymbolId} (ho : OrdOk ord) (m : Made (R.cspec hc) dflt) {q : StateId}
    (hq : q < R.sts.length) {a : SymbolId} (hk : (R.g.sym a).kind ≠ .nonTerminal) {d : Detail} (h : R.Own q a d)
    (hr : ∀ r, d = .reduce r → R.Quiet q) (he : d = .error → (R.g.sym a).fallback = none ∧ R.NoWild q) :
    R.g.Pick (R.finalOf q) dflt a d := by
  rcases m.lives_cases hq hk h with ⟨k, rfl, hl⟩ | ⟨r, rfl, hl⟩ | ⟨r, rfl, hl⟩
  · obtain ⟨_, _, _, hown⟩ := m.own hq
    have hne : a ≠ dflt := by rintro rfl; exact hk (m.inv.default_name m.dlt m.didx)
    exact .own (hown.shift a hne k hl)
  · refine m.exact_quiet ho hq hk hl ?_
    intro w hw
    have hwk : (R.g.sym w).kind ≠ .nonTerminal := by
      intro h'
      have h1 := m.inv.wild w hw
      rcases m.inv.isTok_kind h1.1 h1.2 with h2 | h2 <;> rw [show ((R.cspec hc).g.sym w).kind = .nonTerminal from h'] at h2 <;> cases h2
    rcases hr r rfl w hw with h1 | ⟨⟨k, h1⟩, h2⟩
    · rw [actionsFor_eq] at h1; exact .inl h1
    · refine .inr ⟨⟨k, ?_⟩, h2⟩
      rcases m.lives_cases hq hwk h1 with ⟨k', h3, h4⟩ | ⟨r, h3, _⟩ | ⟨r, h3, _⟩
      · exact h4
      · cases h3
      · cases h3
  · obtain ⟨hf, hw⟩ := he rfl
    refine .own (m.error_own ho hq hk hl hf ?_)
    intro w hwc k hm
    have hwk : (R.g.sym w).kind ≠ .nonTerminal := by
      intro h'
      have h1 := m.inv.wild w hwc
      rcases m.inv.isTok_kind h1.1 h1.2 with h2 | h2 <;> rw [show ((R.cspec hc).g.sym w).kind = .nonTerminal from h'] at h2 <;> cases h2
    apply hw w hwc k
    unfold Run.Own
    rw [actionsFor_eq]
    obtain ⟨sh, rd, _, _, hout⟩ := m.outcome hq hwk
    have hout : R.g.Outcome w sh rd (lives (onSym w (R.actionsOf q))) := hout
    have hm : Detail.shift k ∈ lives (onSym w (R.actionsOf q)) := hm
    generalize lives (onSym w (R.actionsOf q)) = l at hm hout ⊢
    cases hout with
    | nothing => cases hm
    | shift => simp only [List.mem_singleton, Detail.shift.injEq] at hm; subst hm; rfl
    | reduce => simp at hm
    | error => simp at hm

theorem Made.like_fallback {R : Run ord ds} {hc : compile ord ds = .ok t} {dflt : SymbolId} (m : Made (R.cspec hc) dflt) (hA : apart ord ds = true)
    {q : StateId} (hq : q < R.sts.length) {a f : SymbolId} (ha : a < R.g.syms.length) (hk : (R.g.sym a).kind ≠ .nonTerminal) (h : actionsFor (R.actionsOf q) a = []) (hf : (R.g.sym a).fallback = some f) :
    (t.findShift (R.row q) (R.g.sym a).index).toOption = (t.findShift (R.row q) (R.g.sym f).index).toOption := by
  have hq' : q < R.final.length := by have := m.len; rw [show R.final.length = R.sts.length from this]; exact hq
  obtain ⟨_, _, _, hown⟩ := m.own hq
  have hne : a ≠ dflt := by rintro rfl; exact hk (m.inv.default_name m.dlt m.didx)
  rw [actionsFor_eq] at h
  have hno : ownOf (R.finalOf q) a = none := hown.nothing a hne h
  obtain ⟨hfl, hfn, han⟩ := m.inv.fb _ ha _ hf
  have h0 : a ≠ 0 := by rintro rfl; rw [m.inv.dollar.1] at han; cases han
  have hi0 : (R.g.sym a).index ≠ 0 := fun e => h0 (m.inv.index_inj ha (Nat.lt_of_lt_of_le Nat.zero_lt_two m.inv.two)
    (Eq.trans e m.inv.dollar.2.2.symm))
  have hfi : (R.g.sym f).index ≠ 0 := fun e => by
    have := m.inv.index_inj hfl (b := 0) (Nat.lt_of_lt_of_le Nat.zero_lt_two m.inv.two) (Eq.trans e m.inv.dollar.2.2.symm)
    rw [this, m.inv.dollar.1] at hfn; cases hfn
  have hfbt : t.fallback.getD (R.g.sym a).index 0 = (R.g.sym f).index := by
    have := m.tab.fb a ha
    rw [show ((R.cspec hc).g.sym a).fallback = some f from hf] at this
    exact this
  rcases m.tab.tok q hq' with ⟨h1, _⟩ | ⟨ofs, h1, h2, h3⟩
  · have key : ∀ x, t.findShift (R.row q) x = t.dfltAct (R.row q) := by
      intro x
      unfold Tables.findShift Tables.findShiftFuel
      rcases h1 with h1 | h1
      · rw [show t.shiftOfst[R.row q]? = none from h1]
      · rw [show t.shiftOfst[R.row q]? = some t.shiftUseDflt from h1]; simp
    rw [key, key]
  · have hl : t.lookup (ofs + (R.g.sym a).index) (R.g.sym a).index = none := (h3 a ha hk).2 hA hno
    have step : ∀ n, t.findShiftFuel (R.row q) (n + 1) (R.g.sym a).index = t.findShiftFuel (R.row q) n (R.g.sym f).index := by
      intro n
      rw [Tables.findShiftFuel]
      simp only [show t.shiftOfst[R.row q]? = some ofs from h1, if_neg h2]
      rw [if_neg (by rw [m.tab.noCode]; exact Nat.ne_of_lt (m.inv.perm _ ha).1), hl]
      simp only
      rw [if_neg hi0, hfbt, if_pos hfi]
    have l1 : ∀ c, t.findShift (R.row q) (R.g.sym a).index = .ok c → t.findShift (R.row q) (R.g.sym f).index = .ok c := by
      intro c h
      unfold Tables.findShift at h
      rw [step] at h
      exact findShift_of_fuel h
    have l2 : ∀ c, t.findShift (R.row q) (R.g.sym f).index = .ok c → t.findShift (R.row q) (R.g.sym a).index = .ok c := by
      intro c h
      unfold Tables.findShift at h
      rw [← step] at h
      exact findShift_of_fuel h
    cases e1 : t.findShift (R.row q) (R.g.sym a).index with
    | ok c => rw [l1 c e1]
    | error e =>
      cases e2 : t.findShift (R.row q) (R.g.sym f).index with
      | ok c => rw [l2 c e2] at e1; cases e1
      | error e' => rfl

/-- C22 as stated, for tables without overlapping rows -/
def C22_statement : Prop :=
  ∀ (ord : List (SymbolId × SymbolId) → List (SymbolId × SymbolId)), OrdOk ord → ∀ (ds : List Decl) (t : Tables), compile ord ds = .ok t → flat ds = true →
    apart ord ds = true → ∀ (R : Run ord ds) (q : StateId), q < R.sts.length → ∀ a, IsToken R.g a →
      (∀ d, R.Own q a d → (t.findShift (R.row q) (R.g.sym a).index).toOption = R.encode d) ∧
      (∀ f, actionsFor (R.actionsOf q) a = [] → (R.g.sym a).fallback = some f →
        (t.findShift (R.row q) (R.g.sym a).index).toOption = (t.findShift (R.row q) (R.g.sym f).index).toOption)

/-- C22: the action of the token itself is used, whatever its fallback; a token without an action is treated
like its fallback.
Missing: tokens with a fallback that are excluded by `%nonassoc` (`C22_false`), reduces in states where the
wildcard has an action too (`C24_false`), tables with overlapping rows. -/
theorem C22_partial (ho : OrdOk ord) (hc : compile ord ds = .ok t) (hf : flat ds = true) (hA : apart ord ds = true) (R : Run ord ds) {q : StateId}
    (hq : q < R.sts.length) {a : SymbolId} (ha : IsToken R.g a) :
    (∀ d, R.Own q a d → (∀ r, d = .reduce r → R.Quiet q) → (d = .error → (R.g.sym a).fallback = none ∧ R.NoWild q) →
      (t.findShift (R.row q) (R.g.sym a).index).toOption = R.encode d) ∧
    (∀ f, actionsFor (R.actionsOf q) a = [] → (R.g.sym a).fallback = some f →
      (t.findShift (R.row q) (R.g.sym a).index).toOption = (t.findShift (R.row q) (R.g.sym f).index).toOption) := by
  obtain ⟨dflt, m⟩ := (R.cspec hc).made ho hf
  refine ⟨?_, ?_⟩
  · intro d h h1 h2
    have h3 := m.tok_lookup hA hq (m.pick_own ho hq ha.ne h h1 h2) ha.1 ha.ne
    have hd : counts d = true := by
      rcases m.lives_cases hq ha.ne h with ⟨k, rfl, _⟩ | ⟨r, rfl, _⟩ | ⟨r, rfl, _⟩ <;> rfl
    rw [CSpec.encode R hc hd]
    exact congrArg Except.toOption h3
  · intro f h hfb
    exact m.like_fallback hA hq ha.1 ha.ne h hfb

namespace C22ex
open Tests (U L s r)
open Examples (compiles compiles_iff tablesOf)

/-- The symbol with that name -/
def tokOf (g : Grammar) (i : Ident) : SymbolId := (g.symbolFind (.ident i)).getD 0

/-- `%fallback ID A; s ::= X A B; s ::= X ID C; s ::= Y ID C; s ::= Y X B;` : `A` has its own action after `X`, and stands for `ID` after `Y`. -/
def own : List Decl :=
  [ .fallback (U 0) [U 1], r (L 0) [s (U 4), s (U 1), s (U 2)], r (L 0) [s (U 4), s (U 0), s (U 3)], r (L 0) [s (U 5), s (U 0), s (U 3)], r (L 0) [s (U 5), s (U 4), s (U 2)] ]

/-- A state where the token has an action, its fallback another one -/
def both (R : Run id own) (q : StateId) : Bool :=
  decide (q < R.sts.length) && (match (actionsFor (R.actionsOf q) (tokOf R.g (U 1))), (actionsFor (R.actionsOf q) (tokOf R.g (U 0))) with
    | [.shift a], [.shift b] => a != b
    | _, _ => false)
/-- A state where only the fallback has an action -/
def only (R : Run id own) (q : StateId) : Bool :=
  decide (q < R.sts.length) && (match (actionsFor (R.actionsOf q) (tokOf R.g (U 1))), (actionsFor (R.actionsOf q) (tokOf R.g (U 0))) with
    | [], [.shift _] => true
    | _, _ => false)
example : compiles own = true ∧ flat own = true ∧ apart id own = true := by decide +kernel
-- both cases of C22 occur, for a token with a fallback
example : (runOf own).any (fun R => (List.range 20).any (both R) && (List.range 20).any (only R) &&
    decide ((R.g.sym (tokOf R.g (U 1))).fallback = some (tokOf R.g (U 0)))) = true := by decide +kernel

/-- `%nonassoc T; %fallback ID T; s ::= a T B; a ::= X [T]; s ::= X T C; s ::= X ID D;` -/
def lost : List Decl :=
  [ .assoc .none [U 1], .fallback (U 0) [U 1], r (L 0) [s (L 1), s (U 1), s (U 2)], r (L 1) [s (U 5)] none (some (U 1)), r (L 0) [s (U 5), s (U 1), s (U 3)],
    r (L 0) [s (U 5), s (U 0), s (U 4)] ]
/-- The same without the fallback -/
def kept : List Decl := lost.filter (fun | .fallback _ _ => false | _ => true)

/-- After `X` the token `T` is an error, but the tables reduce. -/
def wrong (R : Run id lost) : Bool :=
  (List.range R.sts.length).any (fun q => decide ((actionsFor (R.actionsOf q) (tokOf R.g (U 1))).head? = some .error) &&
    decide (tokOf R.g (U 1) < R.g.syms.length) && decide ((R.g.sym (tokOf R.g (U 1))).kind = .terminal) &&
    !decide (((tablesOf lost).findShift (R.row q) (R.g.sym (tokOf R.g (U 1))).index).toOption = R.encode .error))
example : (runOf lost).any wrong = true := by decide +kernel
-- with the fallback `X T B` is accepted, without it is an error, although `T` has an action of its own after `X` in both
example : (Tests.runAll kept Tests.strictSem (Tests.toks [3, 1, 2])).isSome = false := by decide +kernel
example : (Tests.runAll lost Tests.strictSem (Tests.toks [4, 1, 3])).isSome = true := by decide +kernel
end C22ex

/-- C22 fails: `%fallback` turns the error of a `%nonassoc` token into a reduce. -/
theorem C22_false : ¬ C22_statement := by
  intro h
  obtain ⟨R⟩ := run_exists (ord := id) (Examples.compiles_iff (ds := C22ex.lost) (by decide +kernel))
  have hw : C22ex.wrong R = true := run_of_test (P := fun R => C22ex.wrong R = true) (f := C22ex.wrong)
    (by decide +kernel) (fun _ h => h) R
  unfold C22ex.wrong at hw
  rw [List.any_eq_true] at hw
  obtain ⟨q, hq, hw⟩ := hw
  simp only [Bool.and_eq_true, decide_eq_true_eq, Bool.not_eq_true', decide_eq_false_iff_not] at hw
  obtain ⟨⟨⟨h1, h2⟩, h3⟩, h4⟩ := hw
  exact h4 ((h id OrdOk.id _ _ (Examples.compiles_iff (by decide +kernel)) (by decide +kernel) (by decide +kernel) R q (List.mem_range.1 hq) _ ⟨h2, h3⟩).1 _ h1)

/-! ## C24 -/

/-- The token has an action in the state, its own or that of the first of its fallbacks that has one. -/
inductive Spec.Run.Through (R : Run ord ds) (q : StateId) : SymbolId → Detail → Prop
  | own {a d} : R.Own q a d → Through R q a d
  | fallback {a f d} : actionsFor (R.actionsOf q) a = [] → (R.g.sym a).fallback = some f → Through R q f d → Through R q a d

/-- Neither the token nor any of its fallbacks has an action in the state. -/
inductive Spec.Run.Nowhere (R : Run ord ds) (q : StateId) : SymbolId → Prop
  | stop {a} : actionsFor (R.actionsOf q) a = [] → (R.g.sym a).fallback = none → Nowhere R q a
  | fallback {a f} : actionsFor (R.actionsOf q) a = [] → (R.g.sym a).fallback = some f → Nowhere R q f → Nowhere R q a

/-- C24 as stated, for tables without overlapping rows: what is done with a token that has an action, directly or through its
fallbacks, is that action; and the end of input is not treated as the wildcard. -/
def C24_statement : Prop :=
  ∀ (ord : List (SymbolId × SymbolId) → List (SymbolId × SymbolId)), OrdOk ord → ∀ (ds : List Decl) (t : Tables), compile ord ds = .ok t → flat ds = true →
    apart ord ds = true → ∀ (R : Run ord ds) (q : StateId), q < R.sts.length →
    (∀ a, IsToken R.g a → ∀ d, d ≠ .error → R.Through q a d → (t.findShift (R.row q) (R.g.sym a).index).toOption = R.encode d) ∧
    (actionsFor (R.actionsOf q) 0 = [] → (t.findShift (R.row q) 0).toOption = R.encode (R.defaultOf q))

/-- C24 for the tokens that have an action, directly or through fallbacks, in states where the wildcard has no action or
is shifted (and has no fallback), or if the action is a shift.
Missing: reduces in states where the wildcard is reduced too (`C24_false`), tables with overlapping rows. -/
theorem C24_own_partial (ho : OrdOk ord) (hc : compile ord ds = .ok t) (hf : flat ds = true) (hA : apart ord ds = true) (R : Run ord ds) {q : StateId}
    (hq : q < R.sts.length) {a : SymbolId} (ha : IsToken R.g a) {d : Detail} (hd : d ≠ .error) (h : R.Through q a d)
    (hw : (∃ k, d = .shift k) ∨ R.Quiet q) :
    (t.findShift (R.row q) (R.g.sym a).index).toOption = R.encode d := by
  obtain ⟨dflt, m⟩ := (R.cspec hc).made ho hf
  have hl := ha.1
  have hk := ha.ne
  clear ha
  induction h with
  | @own a d h =>
    have h3 := m.tok_lookup hA hq (m.pick_own ho hq hk h (fun r hr => by
      rcases hw with ⟨k, hw⟩ | hw
      · rw [hr] at hw; cases hw
      · exact hw) (fun h => absurd h hd)) hl hk
    have hd : counts d = true := by
      rcases m.lives_cases hq hk h with ⟨k, rfl, _⟩ | ⟨r, rfl, _⟩ | ⟨r, rfl, _⟩ <;> rfl
    rw [CSpec.encode R hc hd]
    exact congrArg Except.toOption h3
  | fallback h1 h2 _ ih =>
    obtain ⟨hfl, hfn, _⟩ := m.inv.fb _ hl _ h2
    rw [m.like_fallback hA hq hl hk h1 h2]
    refine ih hd hw hfl ?_
    intro h
    rcases m.inv.isTok_kind hfl hfn with h' | h' <;> rw [show ((R.cspec hc).g.sym _).kind = .nonTerminal from h] at h' <;> cases h'

/-- C24: a token without an action, directly or through its fallbacks, is treated as the wildcard. -/
theorem C24_wildcard (ho : OrdOk ord) (hc : compile ord ds = .ok t) (hf : flat ds = true) (hA : apart ord ds = true) (R : Run ord ds) {q : StateId}
    (hq : q < R.sts.length) {a w : SymbolId} (ha : IsToken R.g a) (h0 : a ≠ 0) (h : R.Nowhere q a) (hw : R.g.wildcard = some w)
    {d : Detail} (hd : d ≠ .error) (hwd : R.Own q w d) :
    (t.findShift (R.row q) (R.g.sym a).index).toOption = R.encode d := by
  obtain ⟨dflt, m⟩ := (R.cspec hc).made ho hf
  obtain ⟨_, _, _, hown⟩ := m.own hq
  have htk : ∀ x, x < R.g.syms.length → (R.g.sym x).name.isTok = true → (R.g.sym x).kind ≠ .nonTerminal := by
    intro x hx hn h
    rcases m.inv.isTok_kind hx hn with h' | h' <;> rw [show ((R.cspec hc).g.sym x).kind = .nonTerminal from h] at h' <;> cases h'
  have hdf : ∀ x, (R.g.sym x).kind ≠ .nonTerminal → x ≠ dflt := by
    rintro x hx rfl; exact hx (m.inv.default_name m.dlt m.didx)
  obtain ⟨hwl, hwn⟩ := m.inv.wild w hw
  have hwk := htk w hwl hwn
  have hcd : counts d = true := by
    rcases m.lives_cases hq hwk hwd with ⟨k, rfl, _⟩ | ⟨r, rfl, _⟩ | ⟨r, rfl, _⟩ <;> rfl
  rw [CSpec.encode R hc hcd]
  have hp : ∀ a, a < R.g.syms.length → (R.g.sym a).kind ≠ .nonTerminal → a ≠ 0 → R.Nowhere q a → R.g.Pick (R.finalOf q) dflt a d := by
    intro a hl hk h0 h
    induction h with
    | @stop a h1 h2 =>
      rw [actionsFor_eq] at h1
      have hno : ownOf (R.finalOf q) a = none := hown.nothing a (hdf a hk) h1
      rcases m.lives_cases hq hwk hwd with ⟨k, rfl, hlv⟩ | ⟨r, rfl, hlv⟩ | ⟨r, rfl, _⟩
      · exact .wild hno h0 h2 hw (hown.shift w (hdf w hwk) k hlv)
      · rcases hown.reduce w (hdf w hwk) r hlv with ⟨h3, _⟩ | ⟨h3, h4, _⟩
        · exact .wild hno h0 h2 hw h3
        · have h5 := hown.dfl
          have : (ownOf (R.finalOf q) dflt).getD .error = .reduce r := by
            rw [show ownOf (R.finalOf q) dflt = _ from h5, h4]; rfl
          rw [← this]
          exact .dflt hno (.inr ⟨h2, fun w' hw' => by rw [hw] at hw'; cases hw'; exact h3⟩)
      · exact absurd rfl hd
    | @fallback a f h1 h2 _ ih =>
      rw [actionsFor_eq] at h1
      obtain ⟨hfl, hfn, han⟩ := m.inv.fb _ hl _ h2
      refine .fb (hown.nothing a (hdf a hk) h1) h0 h2 (ih hfl (htk _ hfl hfn) ?_)
      rintro rfl; rw [m.inv.dollar.1] at hfn; cases hfn
  exact congrArg Except.toOption (m.tok_lookup hA hq (hp a ha.1 ha.ne h0 h) ha.1 ha.ne)

/-- C24: the end of input has its own action or the default of the state, never that of the wildcard. -/
theorem C24_end (ho : OrdOk ord) (hc : compile ord ds = .ok t) (hf : flat ds = true) (hA : apart ord ds = true) (R : Run ord ds) {q : StateId}
    (hq : q < R.sts.length) :
    (∀ d, R.Own q 0 d → (t.findShift (R.row q) 0).toOption = R.encode d) ∧
    (actionsFor (R.actionsOf q) 0 = [] → (t.findShift (R.row q) 0).toOption = R.encode (R.defaultOf q)) := by
  obtain ⟨dflt, m⟩ := (R.cspec hc).made ho hf
  obtain ⟨_, _, _, hown⟩ := m.own hq
  have h00 : 0 < R.g.syms.length := Nat.lt_of_lt_of_le Nat.zero_lt_two m.inv.two
  have hk : (R.g.sym 0).kind ≠ .nonTerminal := by
    rw [show (R.g.sym 0).kind = .terminal from m.inv.dollar.2.1]; simp
  have hix : (R.g.sym 0).index = 0 := m.inv.dollar.2.2
  have hne : (0 : SymbolId) ≠ dflt := by rintro rfl; exact hk (m.inv.default_name m.dlt m.didx)
  refine ⟨?_, ?_⟩
  · intro d h
    have hcd : counts d = true := by
      rcases m.lives_cases hq hk h with ⟨k, rfl, _⟩ | ⟨r, rfl, _⟩ | ⟨r, rfl, _⟩ <;> rfl
    rw [CSpec.encode R hc hcd]
    have hp : R.g.Pick (R.finalOf q) dflt 0 d := by
      obtain ⟨sh, rd, hsh, hrd, hout⟩ := m.outcome hq hk
      have hns : sh = [] := by
        cases sh with
        | nil => rfl
        | cons k sh =>
          exfalso
          obtain ⟨X, hX, hm⟩ := (hsh k).1 (by simp)
          obtain ⟨r', hr', hx⟩ := hX.rhs m.inv m.auto
          obtain ⟨hX1, hX2, _⟩ := m.inv.rhs r' hr' X hx
          rcases (mem_shiftActions.1 hm).2 with ⟨_, h6⟩ | ⟨_, h6⟩
          · have := (m.inv.subs X hX1 _ h6).2
            simp only [m.inv.dollar.1] at this
            cases this
          · simp only at h6
            rw [← h6] at hX2
            exact hX2 m.inv.dollar.1
      subst hns
      rcases m.lives_cases hq hk h with ⟨k, rfl, hlv⟩ | ⟨r, rfl, hlv⟩ | ⟨r, rfl, hlv⟩
      · exact .own (hown.shift 0 hne k hlv)
      · rcases hown.reduce 0 hne r hlv with ⟨h3, _⟩ | ⟨h3, h4, _⟩
        · exact .own h3
        · have : (ownOf (R.finalOf q) dflt).getD .error = .reduce r := by
            rw [show ownOf (R.finalOf q) dflt = _ from hown.dfl, h4]; rfl
          rw [← this]
          exact .dflt h3 (.inl rfl)
      · exfalso
        have hout : R.g.Outcome 0 [] rd (lives (onSym 0 (R.actionsOf q))) := hout
        rw [hlv] at hout
        cases hout with
        | error h => cases h
    have h3 := m.tok_lookup hA hq hp h00 hk
    rw [show ((R.cspec hc).g.sym 0).index = 0 from hix] at h3
    exact congrArg Except.toOption h3
  · intro h
    rw [actionsFor_eq] at h
    have hp : R.g.Pick (R.finalOf q) dflt 0 ((ownOf (R.finalOf q) dflt).getD .error) := .dflt (hown.nothing 0 hne h) (.inl rfl)
    have h3 := m.tok_lookup hA hq hp h00 hk
    rw [show ((R.cspec hc).g.sym 0).index = 0 from hix] at h3
    rw [CSpec.encode R hc (m.default_counts hq), m.default_eq hq]
    exact congrArg Except.toOption h3

namespace C24ex
open Tests (U L s r)
open Examples (compiles compiles_iff tablesOf)
open C22ex (tokOf)

/-- `s ::= a T; s ::= b Any Any; a ::= X; b ::= X; %wildcard Any;`: after `X`, both `T` and the wildcard reduce -/
def taken : List Decl :=
  [ r (L 0) [s (L 1), s (U 1)], r (L 0) [s (L 2), s (U 0), s (U 0)], r (L 1) [s (U 5)], r (L 2) [s (U 5)], .wildcard (U 0) ]
/-- After `X` the token `T` has the action of reducing `a ::= X`, but `b ::= X` is reduced as for the wildcard. -/
def wrong (R : Run id taken) : Bool :=
  (List.range R.sts.length).any (fun q => decide ((actionsFor (R.actionsOf q) (tokOf R.g (U 1))).head? = some (.reduce 2)) &&
    decide (tokOf R.g (U 1) < R.g.syms.length) && decide ((R.g.sym (tokOf R.g (U 1))).kind = .terminal) &&
    !decide (((tablesOf taken).findShift (R.row q) (R.g.sym (tokOf R.g (U 1))).index).toOption = R.encode (.reduce 2)))
-- the sentence `X T` is rejected
example : (Tests.runAll taken Tests.strictSem (Tests.toks [3, 1])).isSome = false := by decide +kernel

/-- `%wildcard Any; %fallback ID A; s ::= X A B; s ::= X ID C; s ::= X Any D; s ::= Y ID C;` -/
def use : List Decl :=
  [ .wildcard (U 9), .fallback (U 0) [U 1], r (L 0) [s (U 4), s (U 1), s (U 2)], r (L 0) [s (U 4), s (U 0), s (U 3)],
    r (L 0) [s (U 4), s (U 9), s (U 6)], r (L 0) [s (U 5), s (U 0), s (U 3)] ]
example : compiles use = true ∧ flat use = true ∧ apart id use = true := by decide +kernel
-- there is a state in which a token has its own action, another one (`D`) none, and the wildcard is shifted
example : (runOf use).any (fun R => (List.range R.sts.length).any (fun q =>
    (match actionsFor (R.actionsOf q) (tokOf R.g (U 1)), actionsFor (R.actionsOf q) (tokOf R.g (U 6)), actionsFor (R.actionsOf q) (tokOf R.g (U 9)) with
      | [.shift a], [], [.shift b] => a != b && decide (R.g.wildcard = some (tokOf R.g (U 9))) && decide ((R.g.sym (tokOf R.g (U 6))).fallback = none)
      | _, _, _ => false))) = true := by decide +kernel
end C24ex

/-- C24 fails: a token whose reduce became the default is treated as the wildcard. -/
theorem C24_false : ¬ C24_statement := by
  intro h
  obtain ⟨R⟩ := run_exists (ord := id) (Examples.compiles_iff (ds := C24ex.taken) (by decide +kernel))
  have hw : C24ex.wrong R = true := run_of_test (P := fun R => C24ex.wrong R = true) (f := C24ex.wrong)
    (by decide +kernel) (fun _ h => h) R
  unfold C24ex.wrong at hw
  rw [List.any_eq_true] at hw
  obtain ⟨q, hq, hw⟩ := hw
  simp only [Bool.and_eq_true, decide_eq_true_eq, Bool.not_eq_true', decide_eq_false_iff_not] at hw
  obtain ⟨⟨⟨h1, h2⟩, h3⟩, h4⟩ := hw
  exact h4 ((h id OrdOk.id _ _ (Examples.compiles_iff (by decide +kernel)) (by decide +kernel) (by decide +kernel) R q (List.mem_range.1 hq)).1 _ ⟨h2, h3⟩ _
    (by simp) (.own h1))

/-! ## C20 -/

theorem Spec.Run.aspec (ho : OrdOk ord) (R : Run ord ds) : GInv R.g ∧ Auto R.g R.sts ∧ ActsSpec R.g R.sts R.acts := by
  have hi := GInv.automaton R.decls ho R.auto
  have ha := automaton_auto ho R.decls R.auto
  obtain ⟨b⟩ := bridge ho R.decls R.auto
  exact ⟨hi, ha, findActions_spec hi ha b.levels b.noStart R.actions⟩

/-- The actions of a state after conflict resolution -/
theorem Spec.Run.mem_acts (ho : OrdOk ord) (R : Run ord ds) {q : StateId} (hq : q < R.sts.length) {a : SymbolId} {d : Detail}
    (h : d ∈ actionsFor (R.actionsOf q) a) :
    (∃ k, d = .shift k ∧ R.g.CanShift R.sts q a k) ∨ (∃ r, d = .reduce r ∧ R.g.CanReduce R.sts q a r) ∨
      (d = .error ∧ ∃ k r, R.g.CanShift R.sts q a k ∧ R.g.CanReduce R.sts q a r) ∨ (d = .accept ∧ q = 0 ∧ a = R.g.start.getD 0) := by
  obtain ⟨hi, ha, hs⟩ := R.aspec ho
  rw [actionsFor_eq] at h
  by_cases hst : q ≠ 0 ∨ a ≠ R.g.start.getD 0
  · obtain ⟨sh, rd, hsh, hrd, hout⟩ := hs.out q hq a hst
    have hout : R.g.Outcome a sh rd (lives (onSym a (R.actionsOf q))) := hout
    generalize lives (onSym a (R.actionsOf q)) = l at h hout
    cases hout with
    | nothing => cases h
    | @shift k h1 =>
      simp only [List.mem_singleton] at h
      exact .inl ⟨k, h, (hsh k).1 (by rw [h1]; simp)⟩
    | @reduce r h1 =>
      simp only [List.mem_singleton] at h
      exact .inr (.inl ⟨r, h, (hrd r).1 h1⟩)
    | @error k r c h1 h2 =>
      simp only [List.mem_cons, List.not_mem_nil, or_false] at h
      rcases h with h | h
      · exact .inr (.inr (.inl ⟨h, k, r, (hsh k).1 (by rw [h1]; simp), (hrd r).1 h2⟩))
      · exact .inr (.inl ⟨r, h, (hrd r).1 h2⟩)
  · simp only [ne_eq, not_or, not_not] at hst
    obtain ⟨rfl, rfl⟩ := hst
    rw [show onSym (R.g.start.getD 0) (R.actionsOf 0) = _ from hs.acc] at h
    simp only [lives, List.map_cons, List.map_nil, Detail.live, List.filter_cons, if_true, List.filter_nil, List.mem_singleton] at h
    exact .inr (.inr (.inr ⟨h, rfl, rfl⟩))

/-- C20: if the macro succeeds, every rule is reduced in some state on one of its lookahead tokens, and that reduce has not lost a conflict. -/
theorem C20_reduced (ho : OrdOk ord) (R : Run ord ds) {r : RuleId} (hr : r < R.g.rules.length) :
    ∃ γ q a, R.StateOf γ q ∧ ReducesOn R.g γ a r ∧ Detail.reduce r ∈ actionsFor (R.actionsOf q) a := by
  obtain ⟨hi, ha, hs⟩ := R.aspec ho
  obtain ⟨q, hq, a, haq, hd⟩ := hs.all r hr
  have hm : Detail.reduce r ∈ actionsFor (R.actionsOf q) a.la := by
    unfold actionsFor
    rw [List.mem_filter, List.mem_map]
    exact ⟨⟨a, List.mem_filter.2 ⟨haq, by simp⟩, hd⟩, rfl⟩
  obtain ⟨γ, hp⟩ := ha.exists_path q hq
  refine ⟨γ, q, a.la, ⟨hq, path_items hi ha hp⟩, ?_, hm⟩
  rw [reducesOn_iff hi ha hp]
  rcases R.mem_acts ho hq hm with ⟨k, h, _⟩ | ⟨r', h, h2⟩ | ⟨h, _⟩ | ⟨h, _⟩
  · cases h
  · cases h; exact h2
  · cases h
  · cases h

/-- C20: the written rules are among them. -/
theorem C20_compiles (ho : OrdOk ord) (hc : compile ord ds = .ok t) : ∃ R : Run ord ds, (rulesOf ds).length ≤ R.g.rules.length ∧
    ∀ r, r < (rulesOf ds).length → ∃ γ q a, R.StateOf γ q ∧ ReducesOn R.g γ a r ∧ Detail.reduce r ∈ actionsFor (R.actionsOf q) a := by
  obtain ⟨R⟩ := run_exists hc
  obtain ⟨b⟩ := bridge ho R.decls R.auto
  have hl : (rulesOf ds).length ≤ R.g.rules.length := by
    rw [← b.nrules, ← b.rules.length_eq, b.rulesP, List.length_append]
    exact Nat.le_add_right _ _
  exact ⟨R, hl, fun r hr => C20_reduced ho R (Nat.lt_of_lt_of_le hr hl)⟩

namespace C20ex
open Tests (U L s r)
open Examples (compiles)
/-- A rule that cannot be reached -/
def never : List Decl := [ r (L 0) [s (U 1)], r (L 1) [s (U 2)] ]
example : compile id never = .error .cannotReduce := by decide +kernel
/-- A rule that loses the only conflict it takes part in: `%left A; %left B; s ::= a C; s ::= b C; a ::= X [A]; b ::= X [B];` -/
def loses : List Decl :=
  [ .assoc .left [U 1], .assoc .left [U 2], r (L 0) [s (L 1), s (U 3)], r (L 0) [s (L 2), s (U 3)], r (L 1) [s (U 4)] none (some (U 1)),
    r (L 2) [s (U 4)] none (some (U 2)) ]
example : compile id loses = .error .cannotReduce := by decide +kernel
-- it is accepted if it can also win
example : compiles (loses ++ [r (L 0) [s (L 1), s (U 5)]]) = true := by decide +kernel
end C20ex

/-! ## C23 -/

/-- C23 as stated: if the macro succeeds, following fallbacks comes to an end from every token. -/
def C23_statement : Prop :=
  ∀ (ord : List (SymbolId × SymbolId) → List (SymbolId × SymbolId)), OrdOk ord → ∀ (ds : List Decl) (t : Tables), compile ord ds = .ok t → ∀ i, Ends (fallbackOf ds) i

/-- C23 if no token is declared as its own fallback.
Missing: `%fallback A A;` is not rejected (`C23_false`). -/
theorem C23_partial (hc : compile ord ds = .ok t) (hn : noSelfFallback ds = true) : ∀ i, Ends (fallbackOf ds) i := by
  obtain ⟨R⟩ := run_exists hc
  obtain ⟨gD, hp, _⟩ := newFromDecls_spec R.decls
  exact fallbacks_end hp hn

namespace C23ex
open Tests (U L s r)
open Examples (compiles)
/-- `%fallback B B; s ::= A;` -/
def self : List Decl := [ .fallback (U 2) [U 2], r (L 0) [s (U 1)] ]
/-- `%fallback A B; %fallback B C; s ::= A B C;` -/
def chain : List Decl := [ .fallback (U 1) [U 2], .fallback (U 2) [U 3], r (L 0) [s (U 1), s (U 2), s (U 3)] ]
example : compiles chain = true ∧ noSelfFallback chain = true ∧ fallbackOf chain (U 3) = some (U 2) := by decide +kernel
-- a longer loop is an error
example : compile id (.fallback (U 3) [U 1] :: chain) = .error .fallbackLoop := by decide +kernel
end C23ex

/-- C23 fails for a token that is its own fallback. -/
theorem C23_false : ¬ C23_statement := by
  intro h
  have h := h id OrdOk.id C23ex.self _ (Examples.compiles_iff (by decide +kernel)) (Tests.U 2)
  have key : ∀ i, Ends (fallbackOf C23ex.self) i → i ≠ Tests.U 2 := by
    intro i hi
    induction hi with
    | stop h => rintro rfl; cases h
    | next h _ ih =>
      rintro rfl
      have : fallbackOf C23ex.self (Tests.U 2) = some (Tests.U 2) := by decide +kernel
      rw [this] at h
      cases h
      exact ih rfl
  exact key _ h rfl

/-! ## C43 -/

/-- C43: the integers for shifts, reduces, error and accept are in disjoint ranges with the bounds used by the generated
parser, and two actions of the states with the same integer are the same. -/
theorem C43 (ho : OrdOk ord) (hc : compile ord ds = .ok t) (R : Run ord ds) {q : StateId} (hq : q < R.sts.length)
    {a : SymbolId} {d : Detail} (h : d ∈ actionsFor (R.actionsOf q) a) :
    ∃ n, R.encode d = some n ∧
      (n < t.nState ↔ ∃ k, d = .shift k) ∧
      ((t.nState ≤ n ∧ n < t.nState + t.nRule) ↔ d = .reduce (n - t.nState)) ∧
      (n = t.nState + t.nRule ↔ d = .error) ∧
      (n = t.nState + t.nRule + 1 ↔ d = .accept) ∧
      ∀ q' a' d', q' < R.sts.length → d' ∈ actionsFor (R.actionsOf q') a' → R.encode d' = some n → d' = d := by
  obtain ⟨hi, ha, hs⟩ := R.aspec ho
  obtain ⟨_, _, _, _, d4, _⟩ := compressTables_spec hi R.compress
  have hlen : R.final.length = R.sts.length := by rw [d4, hs.len]
  obtain ⟨gen⟩ := compile_gen R hc
  have e1 : t.nState = R.sts.length := by rw [gen.nState, resort_len, hlen]
  have e2 : t.nRule = R.g.rules.length := by rw [gen.nRule, gen.shape.rlen]
  have hk : ∀ {q a k}, R.g.CanShift R.sts q a k → k < R.sts.length := by
    rintro q a k ⟨X, hX, _⟩; exact hX.dst
  have hr : ∀ {q a r}, R.g.CanReduce R.sts q a r → r < R.g.rules.length := fun h => (canReduce_rule hi ha h).1
  have hnum : ∀ k, k < R.sts.length → R.row k < R.sts.length := fun k hk => by
    have := stateNum_lt (g := R.g) R.final (hlen.symm ▸ hk)
    exact Nat.lt_of_lt_of_eq this hlen
  have hinj : ∀ k k', k < R.sts.length → k' < R.sts.length → R.row k = R.row k' → k = k' := fun k k' h1 h2 =>
    stateNum_inj (g := R.g) R.final (hlen.symm ▸ h1) (hlen.symm ▸ h2)
  rw [e1, e2]
  have cls : ∀ {q a d}, q < R.sts.length → d ∈ actionsFor (R.actionsOf q) a →
      (∃ k, d = .shift k ∧ k < R.sts.length) ∨ (∃ r, d = .reduce r ∧ r < R.g.rules.length) ∨ d = .error ∨ d = .accept := by
    intro q a d hq h
    rcases R.mem_acts ho hq h with ⟨k, h1, h2⟩ | ⟨r, h1, h2⟩ | ⟨h1, _⟩ | ⟨h1, _⟩
    · exact .inl ⟨k, h1, hk h2⟩
    · exact .inr (.inl ⟨r, h1, hr h2⟩)
    · exact .inr (.inr (.inl h1))
    · exact .inr (.inr (.inr h1))
  have hc4 := cls hq h
  have num : ∀ {N M x r : Nat}, x < N → r < M → (x = N + r → False) ∧ (N + r = N + M → False) ∧ (N + r = N + M + 1 → False) ∧
      (x = N + M → False) ∧ (x = N + M + 1 → False) := by
    intro N M x r h1 h2
    exact ⟨by omega, by omega, by omega, by omega, by omega⟩
  have num2 : ∀ {N M x : Nat}, x < N → (x = N + M → False) ∧ (x = N + M + 1 → False) := by
    intro N M x h1
    exact ⟨by omega, by omega⟩
  have num3 : ∀ {N M r : Nat}, r < M → (N + r = N + M → False) ∧ (N + r = N + M + 1 → False) ∧ N ≤ N + r ∧ N + r < N + M ∧ ¬ N + r < N ∧ N + r - N = r := by
    intro N M r h1
    exact ⟨by omega, by omega, by omega, by omega, by omega, by omega⟩
  have num4 : ∀ {N M : Nat}, ¬ N + M < N ∧ ¬ N + M + 1 < N ∧ ¬ N + M < N + M ∧ ¬ N + M + 1 < N + M ∧ N + M ≠ N + M + 1 := by
    intro N M
    exact ⟨by omega, by omega, by omega, by omega, by omega⟩
  have uniq : ∀ d d' n, ((∃ k, d = .shift k ∧ k < R.sts.length) ∨ (∃ r, d = .reduce r ∧ r < R.g.rules.length) ∨ d = .error ∨ d = .accept) →
      ((∃ k, d' = .shift k ∧ k < R.sts.length) ∨ (∃ r, d' = .reduce r ∧ r < R.g.rules.length) ∨ d' = .error ∨ d' = .accept) →
      R.encode d = some n → R.encode d' = some n → d' = d := by
    intro d d' n h1 h2 h3 h4
    rcases h1 with ⟨k, rfl, hk1⟩ | ⟨r, rfl, hr1⟩ | rfl | rfl <;> rcases h2 with ⟨k', rfl, hk2⟩ | ⟨r', rfl, hr2⟩ | rfl | rfl <;>
      simp only [Run.encode, Option.some.injEq] at h3 h4 <;> subst h3
    · rw [hinj k' k hk2 hk1 h4]
    · exact ((num (hnum k hk1) hr2).1 h4.symm).elim
    · exact ((num2 (hnum k hk1)).1 h4.symm).elim
    · exact ((num2 (hnum k hk1)).2 h4.symm).elim
    · exact ((num (hnum k' hk2) hr1).1 h4).elim
    · rw [Nat.add_left_cancel h4]
    · exact ((num3 hr1).1 h4.symm).elim
    · exact ((num3 hr1).2.1 h4.symm).elim
    · exact ((num2 (hnum k' hk2)).1 h4).elim
    · exact ((num3 hr2).1 h4).elim
    · rfl
    · exact (num4.2.2.2.2 h4.symm).elim
    · exact ((num2 (hnum k' hk2)).2 h4).elim
    · exact ((num3 hr2).2.1 h4).elim
    · exact (num4.2.2.2.2 h4).elim
    · rfl
  rcases hc4 with ⟨k, rfl, h1⟩ | ⟨r, rfl, h1⟩ | rfl | rfl
  · refine ⟨_, rfl, ⟨fun _ => ⟨k, rfl⟩, fun _ => hnum k h1⟩, ⟨fun h => ?_, fun h => by cases h⟩, ⟨fun h => ?_, fun h => by cases h⟩, ⟨fun h => ?_, fun h => by cases h⟩,
      fun q' a' d' hq' h' he => uniq _ _ _ (.inl ⟨k, rfl, h1⟩) (cls hq' h') rfl he⟩
    · exact absurd (hnum k h1) (Nat.not_lt.2 h.1)
    · exact ((num2 (hnum k h1)).1 h).elim
    · exact ((num2 (hnum k h1)).2 h).elim
  · obtain ⟨n1, n2, n3, n4, n5, n6⟩ := num3 (N := R.sts.length) h1
    refine ⟨_, rfl, ⟨fun h => (n5 h).elim, fun ⟨k, h⟩ => by cases h⟩, ⟨fun _ => by rw [n6], fun _ => ⟨n3, n4⟩⟩, ⟨fun h => (n1 h).elim, fun h => by cases h⟩,
      ⟨fun h => (n2 h).elim, fun h => by cases h⟩, fun q' a' d' hq' h' he => uniq _ _ _ (.inr (.inl ⟨r, rfl, h1⟩)) (cls hq' h') rfl he⟩
  · obtain ⟨n1, n2, n3, n4, n5⟩ := num4 (N := R.sts.length) (M := R.g.rules.length)
    exact ⟨_, rfl, ⟨fun h => (n1 h).elim, fun ⟨k, h⟩ => by cases h⟩, ⟨fun h => (n3 h.2).elim, fun h => by cases h⟩, ⟨fun _ => rfl, fun _ => rfl⟩,
      ⟨fun h => (n5 h).elim, fun h => by cases h⟩, fun q' a' d' hq' h' he => uniq _ _ _ (.inr (.inr (.inl rfl))) (cls hq' h') rfl he⟩
  · obtain ⟨n1, n2, n3, n4, n5⟩ := num4 (N := R.sts.length) (M := R.g.rules.length)
    exact ⟨_, rfl, ⟨fun h => (n2 h).elim, fun ⟨k, h⟩ => by cases h⟩, ⟨fun h => (n4 h.2).elim, fun h => by cases h⟩, ⟨fun h => (n5 h.symm).elim, fun h => by cases h⟩,
      ⟨fun _ => rfl, fun _ => rfl⟩, fun q' a' d' hq' h' he => uniq _ _ _ (.inr (.inr (.inr rfl))) (cls hq' h') rfl he⟩

namespace C43ex
open C22ex (own)
-- shifts, reduces and accept occur in one grammar, error in another
example : Examples.compiles own = true ∧ (runOf own).any (fun R =>
    (List.range R.sts.length).any (fun q => (R.actionsOf q).any (fun a => decide (a.detail = .accept))) &&
    (List.range R.sts.length).any (fun q => (R.actionsOf q).any (fun a => decide (a.detail = .reduce 2))) &&
    (List.range R.sts.length).any (fun q => (R.actionsOf q).any (fun a => decide (a.detail = .shift 3)))) = true := by decide +kernel
example : (runOf C22ex.lost).any (fun R => (List.range R.sts.length).any (fun q => (R.actionsOf q).any (fun a => decide (a.detail = .error)))) = true := by
  decide +kernel
end C43ex

end Pomelo
