import Verif.Proofs.Conflicts
import Verif.Examples
/-!
# C18: LALR(1) lookaheads and conflicts

The states and lookaheads of the macro are compared with `Verif/Spec/Lr1.lean`, where items and
lookaheads are defined by viable prefixes, and the conflict report with `Verif/Spec/Conflict.lean`.
-/

namespace Pomelo

open Spec

variable {ord : List (SymbolId × SymbolId) → List (SymbolId × SymbolId)} {ds : List Decl}

/-- The items of a state as the macro computes them -/
def stateItems (sts : List LState) (q : StateId) : List Item := (sts.getD q default).configs.map (·.item)

/-- C18: every state is the set of items valid for some viable prefix, every viable prefix has its state,
and no two states are the same set. -/
theorem C18_states (ho : OrdOk ord) {g0 g : Grammar} {sts : List LState} (h0 : newFromDecls ds = .ok g0)
    (h : g0.automaton ord = .ok (g, sts)) :
    (∀ q, q < sts.length → ∃ γ, ∀ it, it ∈ stateItems sts q ↔ Viable g γ it) ∧
    (∀ γ it, Viable g γ it → ∃ q, q < sts.length ∧ ∀ it, it ∈ stateItems sts q ↔ Viable g γ it) ∧
    (∀ q q', q < sts.length → q' < sts.length → (∀ it, it ∈ stateItems sts q ↔ it ∈ stateItems sts q') → q = q') := by
  have hi := GInv.automaton h0 ho h
  have ha := automaton_auto ho h0 h
  refine ⟨?_, ?_, ?_⟩
  · intro q hq
    obtain ⟨γ, hp⟩ := ha.exists_path q hq
    exact ⟨γ, path_items hi ha hp⟩
  · intro γ it hv
    obtain ⟨q, hp⟩ := viable_path hi ha hv
    exact ⟨q, Path.lt ha hp, path_items hi ha hp⟩
  · intro q q' hq hq' he
    exact ha.items_inj hi hq hq' he

/-- C18: the follow set of an item in a state holds exactly its LALR(1) lookaheads: the union of the
lookaheads the item has for the prefixes that lead to the state. -/
theorem C18_lookaheads (ho : OrdOk ord) {g0 g : Grammar} {sts : List LState} (h0 : newFromDecls ds = .ok g0)
    (h : g0.automaton ord = .ok (g, sts)) {q : StateId} (hq : q < sts.length) (it : Item) (n : Nat) :
    (∃ c ∈ (sts.getD q default).configs, c.item = it ∧ n ∈ c.fws) ↔
      ∃ γ, (∀ it, it ∈ stateItems sts q ↔ Viable g γ it) ∧ Ahead g γ it n := by
  have hi := GInv.automaton h0 ho h
  have ha := automaton_auto ho h0 h
  have : (∃ c ∈ (sts.getD q default).configs, c.item = it ∧ n ∈ c.fws) ↔ g.LA sts q it n := ha.fws q hq it n
  rw [this, la_iff hi ha]
  constructor
  · rintro ⟨γ, hp, h⟩; exact ⟨γ, path_items hi ha hp, h⟩
  · rintro ⟨γ, he, h⟩
    obtain ⟨q', hq'⟩ := viable_path hi ha h.viable
    have : q = q' := by
      apply ha.items_inj hi hq (Path.lt ha hq')
      intro it
      rw [path_items hi ha hq']
      exact he it
    rw [this]
    exact ⟨γ, hq', h⟩

/-- C18: they are the LR(1) lookaheads in the strict sense if every symbol derives something. -/
theorem C18_lr1 {g : Grammar} (hv : NoVoid g) (γ : List SymbolId) (it : Item) (n : Nat) : Ahead g γ it n ↔ Valid1 g γ it n :=
  ahead_iff_valid1 hv

/-- C18: if the macro stops with "Parsing conflicts" there is a conflict that precedence does not settle. -/
theorem C18_reported (ho : OrdOk ord) {g0 g : Grammar} {sts : List LState} (h0 : newFromDecls ds = .ok g0)
    (h : g0.automaton ord = .ok (g, sts)) {acts : List (List Action)} {n : Nat} (hf : g.findActions sts = .ok (acts, n)) (hn : 0 < n) :
    ∃ γ a, Unsettled g γ a :=
  findActions_bad (GInv.automaton h0 ho h) (automaton_auto ho h0 h) hf hn

/-- The count of conflicts decides whether the macro goes on. -/
theorem build_conflicts {g0 g : Grammar} {sts : List LState}
    (h : g0.automaton ord = .ok (g, sts)) {acts : List (List Action)} {n : Nat} (hf : g.findActions sts = .ok (acts, n)) (hn : 0 < n) :
    g0.build ord = .error .conflicts := by
  unfold Grammar.build
  rw [h]
  simp only [bind, Except.bind]
  rw [hf]
  simp only [if_pos hn]
  rfl

/-- C18: if the macro succeeds, the only conflicts left are between two rules of the same
non-associative precedence, both beaten by a third rule.
Missing: that there are none; that is false, see `C18_missed`. -/
theorem C18_unreported_partial (ho : OrdOk ord) {t : Tables} (h : compile ord ds = .ok t) :
    ∃ g0 g sts, newFromDecls ds = .ok g0 ∧ g0.automaton ord = .ok (g, sts) ∧
      ∀ γ a, Unsettled g γ a → ∃ r r' p q, ReducesOn g γ a r ∧ ReducesOn g γ a r' ∧ r ≠ r' ∧
        (g.rule r).precedence = some p ∧ (g.rule r').precedence = some q ∧ p.level = q.level ∧ p.assoc = .none := by
  obtain ⟨s⟩ := compile_cspec h
  refine ⟨s.g0, s.g, s.sts, s.decls, s.auto, ?_⟩
  intro γ a hu
  obtain ⟨b⟩ := bridge ho s.decls s.auto
  exact findActions_good (s.ginv ho) (automaton_auto ho s.decls s.auto) b.levels b.noStart s.actions hu

/-- C18 for grammars that use no `%nonassoc`: the count of conflicts is positive iff there is an unsettled conflict. -/
theorem C18_exact_partial (ho : OrdOk ord) (hna : ∀ i p, precOf ds i = some p → p.assoc ≠ .none)
    {g0 g : Grammar} {sts : List LState} (h0 : newFromDecls ds = .ok g0)
    (h : g0.automaton ord = .ok (g, sts)) {acts : List (List Action)} {n : Nat} (hf : g.findActions sts = .ok (acts, n)) :
    0 < n ↔ ∃ γ a, Unsettled g γ a := by
  refine ⟨C18_reported ho h0 h hf, ?_⟩
  rintro ⟨γ, a, hu⟩
  apply Nat.pos_of_ne_zero
  rintro rfl
  obtain ⟨b⟩ := bridge ho h0 h
  obtain ⟨r, r', p, q, _, _, _, h1, _, _, h2⟩ :=
    findActions_good (GInv.automaton h0 ho h) (automaton_auto ho h0 h) b.levels b.noStart hf hu
  obtain ⟨i, hi⟩ := b.rule_prec h1
  exact hna i p hi h2

namespace C18ex
open Tests (U L s r)
open Examples (autoOf conflicts compiles)

/-- `s ::= l = r; s ::= r; l ::= * r; l ::= id; r ::= l`: LALR(1) but not SLR(1) -/
def assign : List Decl :=
  [ r (L 0) [s (L 1), s (U 1), s (L 2)], r (L 0) [s (L 2)], r (L 1) [s (U 2), s (L 2)], r (L 1) [s (U 3)], r (L 2) [s (L 1)] ]
example : conflicts assign = some 0 := by decide +kernel
/-- Follow sets of a state -/
def follow (ds : List Decl) (q : StateId) : Option (List (Nat × Nat × List Nat)) :=
  (autoOf ds).map (fun x => (x.2.getD q default).configs.map (fun c => (c.item.rule, c.item.dot, sortBy (· < ·) c.fws)))
-- in the state after `l` the rule `r ::= l` has the lookahead end of input only ...
example : follow assign 1 = some [(0, 1, [0]), (4, 1, [0])] := by decide +kernel
-- ... although `=` follows `r` elsewhere
example : follow assign 7 = some [(4, 1, [0, 1])] := by decide +kernel
/-- `e ::= e + e; e ::= id` without precedence -/
def plus : List Decl := [ r (L 0) [s (L 1)], r (L 1) [s (L 1), s (U 1), s (L 1)], r (L 1) [s (U 2)] ]
example : conflicts plus = some 1 := by decide +kernel
example : conflicts (.assoc .left [U 1] :: plus) = some 0 := by decide +kernel
/-- A compound that lists a token twice -/
def twice : List Decl := [ r (L 0) [⟨[U 1, U 1], false, false⟩] ]
example : conflicts twice = some 1 := by decide +kernel

/-- Two rules with the same non-associative precedence and a third one with a higher precedence, which
comes first -/
def hidden : List Decl :=
  [ .assoc .none [U 8], .assoc .left [U 9]
  , r (L 0) [s (L 3), s (U 1)], r (L 0) [s (L 1), s (U 1)], r (L 0) [s (L 2), s (U 1)], r (L 0) [s (L 1), s (U 2)], r (L 0) [s (L 2), s (U 3)]
  , r (L 3) [s (U 4)] none (some (U 9)), r (L 1) [s (U 4)] none (some (U 8)), r (L 2) [s (U 4)] none (some (U 8)) ]
/-- The same with the third rule last -/
def shown : List Decl :=
  [ .assoc .none [U 8], .assoc .left [U 9]
  , r (L 0) [s (L 3), s (U 1)], r (L 0) [s (L 1), s (U 1)], r (L 0) [s (L 2), s (U 1)], r (L 0) [s (L 1), s (U 2)], r (L 0) [s (L 2), s (U 3)]
  , r (L 1) [s (U 4)] none (some (U 8)), r (L 2) [s (U 4)] none (some (U 8)), r (L 3) [s (U 4)] none (some (U 9)) ]
example : compiles hidden = true := by decide +kernel
example : conflicts shown = some 1 := by decide +kernel

/-- Grammar and states of `hidden` -/
def hiddenAuto : Grammar × List LState := (autoOf hidden).getD default
end C18ex

/-- C18 is false in one direction: a conflict that precedence does not settle goes unreported. -/
theorem C18_missed : ∃ (ds : List Decl) (t : Tables) (g0 g : Grammar) (sts : List LState), compile id ds = .ok t ∧
    newFromDecls ds = .ok g0 ∧ g0.automaton id = .ok (g, sts) ∧ ∃ γ a, Unsettled g γ a := by
  have h1 : Examples.autoOf C18ex.hidden = some C18ex.hiddenAuto := by
    unfold C18ex.hiddenAuto
    have : (Examples.autoOf C18ex.hidden).isSome = true := by decide +kernel
    cases h : Examples.autoOf C18ex.hidden with
    | none => rw [h] at this; cases this
    | some x => rfl
  obtain ⟨g0, h2, h3⟩ := Examples.autoOf_iff h1
  have ho : OrdOk id := fun _ => List.Perm.refl _
  have eta : ∀ x : Grammar × List LState, x = (x.1, x.2) := fun _ => rfl
  rw [eta C18ex.hiddenAuto] at h3
  have hi := GInv.automaton h2 ho h3
  have ha := automaton_auto ho h2 h3
  refine ⟨C18ex.hidden, _, g0, _, _, Examples.compiles_iff (by decide +kernel), h2, h3, ?_⟩
  obtain ⟨γ, hp⟩ := ha.exists_path 9 (by decide +kernel)
  have hred : ∀ r, r = 6 ∨ r = 7 → ReducesOn C18ex.hiddenAuto.1 γ (C18ex.hiddenAuto.1.symbols.getD 3 0) r := by
    intro r hr
    rw [reducesOn_iff hi ha hp]
    refine ⟨by decide +kernel, by decide +kernel, ?_⟩
    rw [← ha.fws 9 (by decide +kernel)]
    rcases hr with rfl | rfl
    · exact ⟨(C18ex.hiddenAuto.2.getD 9 default).configs.getD 1 default, by decide +kernel, by decide +kernel, by decide +kernel⟩
    · exact ⟨(C18ex.hiddenAuto.2.getD 9 default).configs.getD 2 default, by decide +kernel, by decide +kernel, by decide +kernel⟩
  have e1 : (C18ex.hiddenAuto.1.rule 6).precedence = some ⟨1, .none⟩ := by decide +kernel
  have e2 : (C18ex.hiddenAuto.1.rule 7).precedence = some ⟨1, .none⟩ := by decide +kernel
  exact ⟨γ, _, .reduceReduce (hred 6 (.inl rfl)) (hred 7 (.inr rfl)) (by decide)
    (.inr (.inr ⟨_, _, e1, e2, rfl, rfl⟩))⟩

end Pomelo
