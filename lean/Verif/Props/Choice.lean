import Verif.Proofs.Choice
import Verif.Props.Parse
/-!
# C58: the choice between any number of candidates

C14 and C15 are about two candidates for a token.  Here any number of rules may be complete, with or without a shift.
-/

namespace Pomelo

open Spec

variable {ord : List (SymbolId × SymbolId) → List (SymbolId × SymbolId)} {ds : List Decl} {t : Tables}

/-- C58 as stated: the rule that gives way to nothing and that the token is not stronger than is reduced, for tables without overlapping rows and
states without an action for the wildcard. -/
def C58_statement : Prop :=
  ∀ (ord : List (SymbolId × SymbolId) → List (SymbolId × SymbolId)), OrdOk ord → ∀ (ds : List Decl) (t : Tables), compile ord ds = .ok t → flat ds = true →
    apart ord ds = true → ∀ (R : Run ord ds) (γ : List SymbolId) (q : StateId), R.StateOf γ q → R.Quiet q → ∀ a r, ReducesOn R.g γ a r → ¬ Yields R.g γ a r →
      (∀ X, ShiftsOn R.g γ a X → ∃ p p', (R.g.sym a).precedence = some p ∧ (R.g.rule r).precedence = some p' ∧ Looser p p') →
      t.findShift (R.row q) (R.g.sym a).index = .ok (t.nState + r)

theorem Spec.ReducesOn.viable {g : Grammar} {γ : List SymbolId} {a : SymbolId} {r : RuleId} (h : ReducesOn g γ a r) : ∃ it, Viable g γ it := by
  obtain ⟨_, _, γ', h1, h2⟩ := h
  exact ⟨_, (h1 _).2 h2.viable⟩

/-- C58, exactly: what a state does on a token. -/
theorem C58_exact (ho : OrdOk ord) (R : Run ord ds) {γ : List SymbolId} {q : StateId} (hq : R.StateOf γ q) {it : Item} (hv : Viable R.g γ it)
    {a : SymbolId} (ht : IsToken R.g a) :
    (∀ k, R.Own q a (.shift k) ↔ ∃ X, ShiftsOn R.g γ a X ∧ R.StateOf (γ ++ [X]) k ∧ ∀ r, ReducesOn R.g γ a r → Prevails R.g a r) ∧
    (∀ r, R.Own q a (.reduce r) ↔ ReducesOn R.g γ a r ∧ ¬ Yields R.g γ a r ∧ ¬ Barred R.g γ a) ∧
    (R.Own q a .error ↔ Barred R.g γ a) := by
  obtain ⟨hi, ha, _⟩ := R.aspec ho
  have hp := (R.stateOf_path ho hv).1 hq
  have herr := R.error_iff ho hq ht hv
  obtain ⟨sh, rd, h1, h2, hout⟩ := R.outcome ho hq.1 ht
  have hrd : ∀ x, x ∈ rd ↔ ReducesOn R.g γ a x := fun x => by rw [h2, reducesOn_iff hi ha hp]
  refine ⟨fun k => ?_, fun r => ?_, herr⟩
  · constructor
    · intro h
      have hk : k ∈ sh ∧ ∀ b ∈ rd, R.g.TokVs a b .gt := by
        unfold Run.Own at h
        generalize actionsFor (R.actionsOf q) a = l at hout h
        cases hout with
        | nothing => cases h
        | shift e h' => cases h; rw [e]; exact ⟨by simp, h'⟩
        | reduce => cases h
        | error => cases h
      obtain ⟨X, hX, hX2⟩ := (h1 k).1 hk.1
      have hkind : (R.g.sym X).kind ≠ .nonTerminal := by
        intro hK
        rcases (mem_shiftActions.1 hX2).2 with ⟨h3, _⟩ | ⟨_, h3⟩
        · rw [hK] at h3; cases h3
        · have := ht.2
          rw [show a = X from h3, hK] at this; cases this
      exact ⟨X, (shiftsOn_iff hi ha hp).2 ⟨⟨k, hX⟩, (reads_iff hkind).1 hX2⟩, ⟨hX.dst, path_items hi ha (.snoc hp hX)⟩,
        fun r hr => tokVs_gt.1 (hk.2 r ((hrd r).2 hr))⟩
    · rintro ⟨X, hX, hk, hr⟩
      obtain ⟨⟨k', hk'⟩, hX2⟩ := (shiftsOn_iff hi ha hp).1 hX
      have e : k = k' := ha.items_inj hi hk.1 hk'.dst (fun it => (hk.2 it).trans (path_items hi ha (.snoc hp hk') it).symm)
      subst e
      have hks : k ∈ sh := (h1 k).2 ⟨X, hk', (reads_iff (Reads.kind hX2)).2 hX2⟩
      have hgt : ∀ b ∈ rd, R.g.TokVs a b .gt := fun b hb => tokVs_gt.2 (hr b ((hrd b).1 hb))
      unfold Run.Own
      generalize actionsFor (R.actionsOf q) a = l at hout ⊢
      have hne : sh ≠ [] := List.ne_nil_of_mem hks
      cases hout with
      | nothing e => exact absurd e hne
      | shift e => rw [e] at hks; rw [List.mem_singleton.1 hks]; rfl
      | reduce m _ h =>
        obtain ⟨p, p', e1, e2, e3⟩ := h hne
        obtain ⟨q, q', f1, f2, f3⟩ := hgt _ m
        rw [e1] at f1; rw [e2] at f2; cases f1; cases f2
        rw [e3] at f3; cases f3
      | error _ _ m h =>
        obtain ⟨p, p', e1, e2, e3⟩ := h
        obtain ⟨q, q', f1, f2, f3⟩ := hgt _ m
        rw [e1] at f1; rw [e2] at f2; cases f1; cases f2
        rw [e3] at f3; cases f3
  · constructor
    · intro h
      have hm : .reduce r ∈ actionsFor (R.actionsOf q) a := List.mem_of_head? h
      have hr : ReducesOn R.g γ a r := by
        rw [← hrd]
        unfold Run.Own at h
        generalize actionsFor (R.actionsOf q) a = l at hout h
        cases hout with
        | nothing => cases h
        | shift => cases h
        | reduce m => cases h; exact m
        | error => cases h
      refine ⟨hr, (R.left_iff ho hq hr).1 hm, fun hb => ?_⟩
      have := herr.2 hb
      unfold Run.Own at this h
      rw [h] at this; cases this
    · rintro ⟨hr, hy, hb⟩
      have hm := (R.left_iff ho hq hr).2 hy
      rw [← herr] at hb
      unfold Run.Own at hb ⊢
      generalize actionsFor (R.actionsOf q) a = l at hout hm hb ⊢
      cases hout with
      | nothing => cases hm
      | shift => simp at hm
      | reduce => simp at hm; rw [hm]; rfl
      | error => exact absurd rfl hb

/-- The lookups in the tables that follow from `C58_exact`.
Missing: the rule that gives way to nothing is reduced only if the token is not barred, as it can be by a weaker rule (`C58_false`); the wildcard, fallbacks of
tokens that are barred, and tables with overlapping rows. -/
theorem C58_partial (ho : OrdOk ord) (hc : compile ord ds = .ok t) (hf : flat ds = true) (hA : apart ord ds = true) (R : Run ord ds)
    {γ : List SymbolId} {q : StateId} (hq : R.StateOf γ q) {a : SymbolId} (ht : IsToken R.g a) :
    (∀ X, ShiftsOn R.g γ a X → (∀ r, ReducesOn R.g γ a r → Prevails R.g a r) →
      ∃ k, R.StateOf (γ ++ [X]) k ∧ t.findShift (R.row q) (R.g.sym a).index = .ok (R.row k)) ∧
    (R.Quiet q → ∀ r, ReducesOn R.g γ a r → ¬ Yields R.g γ a r → ¬ Barred R.g γ a → t.findShift (R.row q) (R.g.sym a).index = .ok (t.nState + r)) ∧
    (Barred R.g γ a → (R.g.sym a).fallback = none → R.NoWild q → t.findShift (R.row q) (R.g.sym a).index = .ok (t.nState + t.nRule)) := by
  have ex := fun {it} (hv : Viable R.g γ it) => C58_exact ho R hq hv ht
  obtain ⟨hn1, hn2⟩ := R.sizes ho hc
  have look := (C22_partial ho hc hf hA R hq.1 ht).1
  have fin : ∀ {d}, (R.Own q a d → (∀ r, d = .reduce r → R.Quiet q) → (d = .error → (R.g.sym a).fallback = none ∧ R.NoWild q) → ∀ {n}, R.encode d = some n →
      t.findShift (R.row q) (R.g.sym a).index = .ok n) := fun h h2 h3 _ he => toOption_ok ((look _ h h2 h3).trans he)
  refine ⟨?_, ?_, ?_⟩
  · intro X hX hr
    obtain ⟨it, hv, _⟩ := id hX
    obtain ⟨hi, ha, _⟩ := R.aspec ho
    have hp := (R.stateOf_path ho hv).1 hq
    obtain ⟨⟨k, hk⟩, _⟩ := (shiftsOn_iff hi ha hp).1 hX
    have hk' : R.StateOf (γ ++ [X]) k := ⟨hk.dst, path_items hi ha (.snoc hp hk)⟩
    exact ⟨k, hk', fin (d := .shift k) (((ex hv).1 k).2 ⟨X, hX, hk', hr⟩) (by simp) (by simp) rfl⟩
  · intro hQ r h1 h2 h3
    rw [hn1]
    obtain ⟨it, hv⟩ := h1.viable
    exact fin (d := .reduce r) (((ex hv).2.1 r).2 ⟨h1, h2, h3⟩) (fun _ _ => hQ) (by simp) rfl
  · intro hb hF hW
    rw [hn1, hn2]
    obtain ⟨_, _, _, _, ⟨it, hv, _⟩, _⟩ := id hb
    exact fin (d := .error) ((ex hv).2.2.2 hb) (by simp) (fun _ => ⟨hF, hW⟩) rfl

/-- Without ties between the token and rules of the same non-associative precedence the statement holds. -/
theorem C58_untied_partial (ho : OrdOk ord) (hc : compile ord ds = .ok t) (hf : flat ds = true) (hA : apart ord ds = true) (R : Run ord ds)
    {γ : List SymbolId} {q : StateId} (hq : R.StateOf γ q) (hQ : R.Quiet q) {a : SymbolId} {r : RuleId} (hr : ReducesOn R.g γ a r) (hy : ¬ Yields R.g γ a r)
    (hn : ¬ Tied R.g γ a) : t.findShift (R.row q) (R.g.sym a).index = .ok (t.nState + r) := by
  refine (C58_partial ho hc hf hA R hq ⟨hr.1, hr.2.1⟩).2.1 hQ r hr hy ?_
  rintro ⟨X, c, p, p', h1, h2, h3, h4, h5, _⟩
  exact hn ⟨X, c, p, p', h1, h2, h3, h4, h5⟩

/-! ## Three candidates -/

namespace C58ex
open Tests (U L s r)
open Examples (compiles compiles_iff tablesOf)
open C22ex (tokOf)

/-- `%nonassoc A; %left B; s ::= q A G; s ::= p A F; s ::= D A; s ::= p I;` and the two rules -/
def base (ds : List Decl) : List Decl :=
  [.assoc .none [U 0], .assoc .left [U 1], r (L 0) [s (L 2), s (U 0), s (U 6)], r (L 0) [s (L 1), s (U 0), s (U 5)], r (L 0) [s (U 3), s (U 0)],
    r (L 0) [s (L 1), s (U 8)]] ++ ds
/-- … `p ::= D; [A]  q ::= D; [B]`: after `D`, before `A`, one can shift, or reduce by the rule of `p` or by that of `q`, which is the strongest -/
def pq : List Decl := base [r (L 1) [s (U 3)] none (some (U 0)), r (L 2) [s (U 3)] none (some (U 1))]
/-- … `q ::= D; [B]  p ::= D; [A]`: the same in the other order -/
def qp : List Decl := base [r (L 2) [s (U 3)] none (some (U 1)), r (L 1) [s (U 3)] none (some (U 0))]

/-- In the state `q` the rule `r` is left for the token `i`, and is stronger than the token. -/
def strongIn (ds : List Decl) (i : Ident) (r : RuleId) (R : Run id ds) (q : StateId) : Bool :=
  (R.g.rawActions q (R.sts.getD q default)).contains ⟨tokOf R.g i, .reduce r⟩ &&
    (actionsFor (R.actionsOf q) (tokOf R.g i)).contains (.reduce r) &&
    decide ((R.g.sym (tokOf R.g i)).precedence = some ⟨1, .none⟩) && decide ((R.g.rule r).precedence = some ⟨2, .left⟩) && R.g.wildcard.isNone

/-- What the tables say in the state `q` -/
def lookup (ds : List Decl) (i : Ident) (R : Run id ds) (q : StateId) : Option Nat :=
  ((tablesOf ds).findShift (R.row q) (R.g.sym (tokOf R.g i)).index).toOption

example : compiles pq = true ∧ compiles qp = true ∧ flat pq = true ∧ flat qp = true ∧ apart id pq = true ∧ apart id qp = true := by decide +kernel

theorem strongIn_iff {ds : List Decl} {i : Ident} {r : RuleId} {R : Run id ds} {q : StateId} (hq : q < R.sts.length) (h : strongIn ds i r R q = true) :
    ∃ γ, R.StateOf γ q ∧ R.Quiet q ∧
    ReducesOn R.g γ (tokOf R.g i) r ∧ ¬ Yields R.g γ (tokOf R.g i) r ∧ (R.g.sym (tokOf R.g i)).precedence = some ⟨1, .none⟩ ∧
    (R.g.rule r).precedence = some ⟨2, .left⟩ := by
  unfold strongIn at h
  simp only [Bool.and_eq_true, decide_eq_true_eq, List.contains_iff_mem, Option.isNone_iff_eq_none] at h
  obtain ⟨⟨⟨⟨h1, h2⟩, h3⟩, h4⟩, h5⟩ := h
  obtain ⟨hi, ha, _⟩ := R.aspec OrdOk.id
  obtain ⟨γ, hp⟩ := ha.exists_path q hq
  have hs : R.StateOf γ q := ⟨hq, path_items hi ha hp⟩
  have hr : ReducesOn R.g γ (tokOf R.g i) r := by
    rw [reducesOn_iff hi ha hp]
    rw [mem_rawActions hi ha hq] at h1
    rcases h1 with ⟨_, _, h⟩ | ⟨r', h, e⟩ | ⟨_, h⟩
    · cases h
    · cases e; exact h
    · exact absurd (congrArg Action.detail h) (by simp)
  refine ⟨γ, hs, fun w hw => ?_, hr, (R.left_iff OrdOk.id hs hr).1 h2, h3, h4⟩
  rw [h5] at hw; cases hw

/-- In some state the strongest rule is not what the tables say. -/
def wrong (ds : List Decl) (i : Ident) (r : RuleId) (R : Run id ds) : Bool :=
  (List.range R.sts.length).any (fun q => strongIn ds i r R q && !decide (lookup ds i R q = some ((tablesOf ds).nState + r)))

-- with the rules in the other order the strongest rule is taken in all states, and there is one with three candidates
example : (runOf qp).any (fun R => !wrong qp (U 0) 4 R && (List.range R.sts.length).any (fun q => strongIn qp (U 0) 4 R q &&
    decide (((R.g.rawActions q (R.sts.getD q default)).filter (fun x => x.la = tokOf R.g (U 0))).length = 3))) = true := by decide +kernel
-- in the first order the token is barred
example : (runOf pq).any (fun R => (List.range R.sts.length).any (fun q => (actionsFor (R.actionsOf q) (tokOf R.g (U 0))).head? = some .error)) = true := by decide +kernel

/-- What comes of the input -/
def accepts (ds : List Decl) (l : List Nat) : Bool := C01ex.acceptedB (tablesOf ds) Tests.logSem (Examples.tk l) 0 []
-- `D A G` is read as `q A G` with the rules in one order, and refused with the rules in the other
example : accepts qp [5, 1, 3] = true ∧ accepts pq [5, 1, 3] = false := by decide +kernel
end C58ex

/-- C58 fails: the strongest of three candidates is not taken, because a weaker rule before it ties with the token. -/
theorem C58_false : ¬ C58_statement := by
  intro h
  obtain ⟨R⟩ := run_exists (ord := id) (Examples.compiles_iff (ds := C58ex.pq) (by decide +kernel))
  have hw : C58ex.wrong C58ex.pq (Tests.U 0) 5 R = true := run_of_test (P := fun R => C58ex.wrong C58ex.pq (Tests.U 0) 5 R = true)
    (f := C58ex.wrong C58ex.pq (Tests.U 0) 5) (by decide +kernel) (fun _ h => h) R
  unfold C58ex.wrong at hw
  rw [List.any_eq_true] at hw
  obtain ⟨q, hq, hw⟩ := hw
  simp only [Bool.and_eq_true, Bool.not_eq_true', decide_eq_false_iff_not] at hw
  obtain ⟨γ, h1, h2, h3, h4, h5, h6⟩ := C58ex.strongIn_iff (List.mem_range.1 hq) hw.1
  apply hw.2
  unfold C58ex.lookup
  rw [h id OrdOk.id _ _ (Examples.compiles_iff (by decide +kernel)) (by decide +kernel) (by decide +kernel) R γ q h1 h2 _ 5 h3 h4
    (fun _ _ => ⟨_, _, h5, h6, .inl (by decide)⟩)]
  rfl

end Pomelo
