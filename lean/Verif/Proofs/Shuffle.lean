import Verif.Proofs.Embed
import Verif.Props.Lalr
import Verif.Spec.Sentence
import Verif.Spec.Macro
/-!
# Grammars that differ in the numbers of symbols and rules

As `Embed`, but the rules may have other numbers too.
-/

namespace Pomelo

open Spec

variable {g g' : Grammar}

/-- Two grammars with the same rules in any order; a symbol may have any number. -/
structure Shuf (g g' : Grammar) where
  rel : SymbolId → SymbolId → Prop
  σ : RuleId → RuleId
  τ : RuleId → RuleId
  fn : ∀ {x y y'}, rel x y → rel x y' → y = y'
  inj : ∀ {x x' y}, rel x y → rel x' y → x = x'
  lt : ∀ {x y}, rel x y → x < g.syms.length ∧ y < g'.syms.length
  kind : ∀ {x y}, rel x y → (g'.sym y).kind = (g.sym x).kind
  prec : ∀ {x y}, rel x y → (g'.sym y).precedence = (g.sym x).precedence
  subs : ∀ {x y}, rel x y → List.Forall₂ rel (g.sym x).subs (g'.sym y).subs
  σlt : ∀ r, r < g.rules.length → σ r < g'.rules.length
  τlt : ∀ r, r < g'.rules.length → τ r < g.rules.length
  left : ∀ r, τ (σ r) = r
  right : ∀ r, σ (τ r) = r
  lhs : ∀ r, r < g.rules.length → rel (g.rule r).lhs (g'.rule (σ r)).lhs
  rhs : ∀ r, r < g.rules.length → List.Forall₂ rel (g.rhsSyms r) (g'.rhsSyms (σ r))
  rprec : ∀ r, r < g.rules.length → (g'.rule (σ r)).precedence = (g.rule r).precedence
  start : rel (g.start.getD 0) (g'.start.getD 0)
  dollar : rel 0 0

namespace Shuf

/-- The other way round -/
def symm (e : Shuf g g') : Shuf g' g where
  rel := fun x y => e.rel y x
  σ := e.τ
  τ := e.σ
  fn := fun h k => e.inj h k
  inj := fun h k => e.fn h k
  lt := fun h => (e.lt h).symm
  kind := fun h => (e.kind h).symm
  prec := fun h => (e.prec h).symm
  subs := fun h => (e.subs h).flip
  σlt := e.τlt
  τlt := e.σlt
  left := e.right
  right := e.left
  lhs := fun r hr => by have := e.lhs _ (e.τlt r hr); rwa [e.right] at this
  rhs := fun r hr => by have := (e.rhs _ (e.τlt r hr)).flip; rwa [e.right] at this
  rprec := fun r hr => by have := (e.rprec _ (e.τlt r hr)).symm; rwa [e.right] at this
  start := e.start
  dollar := e.dollar

variable (e : Shuf g g')

/-- The item of the other grammar -/
def item (c : Item) : Item := ⟨e.σ c.rule, c.dot⟩

theorem item_symm (c : Item) : e.symm.item (e.item c) = c := by
  obtain ⟨r, d⟩ := c
  show Item.mk (e.τ (e.σ r)) d = _
  rw [e.left]

theorem symm_item (c : Item) : e.item (e.symm.item c) = c := e.symm.item_symm c

theorem reads {X Y a : SymbolId} (h : e.rel X Y) (hr : Reads g X a) : ∃ b, e.rel a b ∧ Reads g' Y b := by
  unfold Reads at hr ⊢
  rw [e.kind h]
  split at hr
  · subst hr; exact ⟨Y, h, rfl⟩
  · obtain ⟨b, hb, hab⟩ := forall₂_mem_left (e.subs h) hr
    exact ⟨b, hab, hb⟩
  · exact hr.elim

theorem rewrites {α β α' : List SymbolId} (h : Rewrites g α β) (ha : List.Forall₂ e.rel α α') : ∃ β', List.Forall₂ e.rel β β' ∧ Rewrites g' α' β' := by
  obtain ⟨u, v, r, hr, rfl, rfl⟩ := h
  obtain ⟨u', v', rfl, h1, h2⟩ := forall₂_splitL ha
  cases h2 with
  | @cons _ b _ v' h3 h4 =>
    refine ⟨u' ++ g'.rhsSyms (e.σ r) ++ v', forall₂_append (forall₂_append h1 (e.rhs r hr)) h4, u', v', e.σ r, e.σlt r hr, ?_, rfl⟩
    rw [e.fn h3 (e.lhs r hr)]

theorem derives {α β α' : List SymbolId} (h : Derives g α β) (ha : List.Forall₂ e.rel α α') : ∃ β', List.Forall₂ e.rel β β' ∧ Derives g' α' β' := by
  induction h with
  | refl => exact ⟨α', ha, Relation.ReflTransGen.refl⟩
  | tail _ h2 ih =>
    obtain ⟨β', h3, h4⟩ := ih
    obtain ⟨δ, h5, h6⟩ := e.rewrites h2 h3
    exact ⟨δ, h5, h4.tail h6⟩

theorem begins {α α' : List SymbolId} {n : Nat} (h : Begins g α n) (ha : List.Forall₂ e.rel α α') :
    ∃ a b, e.rel a b ∧ n = (g.sym a).index ∧ Begins g' α' (g'.sym b).index := by
  obtain ⟨a, X, β, rfl, h1, h2⟩ := h
  obtain ⟨β', h3, h4⟩ := e.derives h1 ha
  cases h3 with
  | cons h5 h6 =>
    obtain ⟨b, h7, h8⟩ := e.reads h5 h2
    exact ⟨a, b, h7, rfl, b, _, _, rfl, h4, h8⟩

theorem ruleOf {A A' : SymbolId} {r : RuleId} (h : RuleOf g A r) (ha : e.rel A A') : RuleOf g' A' (e.σ r) := by
  refine ⟨e.σlt r h.1, ?_⟩
  have := e.lhs r h.1
  rw [h.2] at this
  exact e.fn this ha

theorem atDot {c : Item} {A : SymbolId} (hc : c.rule < g.rules.length) (h : Spec.atDot g c = some A) : ∃ A', e.rel A A' ∧ Spec.atDot g' (e.item c) = some A' := by
  unfold Spec.atDot at *
  rcases forall₂_getElem? (e.rhs _ hc) c.dot with ⟨h1, _⟩ | ⟨a, b, h1, h2, h3⟩
  · rw [h1] at h; cases h
  · rw [h1] at h; cases h
    exact ⟨b, h3, h2⟩

theorem behind {c : Item} (hc : c.rule < g.rules.length) : List.Forall₂ e.rel (Spec.behind g c) (Spec.behind g' (e.item c)) :=
  List.forall₂_drop _ (e.rhs _ hc)

theorem viable' {γ : List SymbolId} {c : Item} (h : Viable g γ c) : ∃ γ', List.Forall₂ e.rel γ γ' ∧ Viable g' γ' (e.item c) := by
  induction h with
  | start hr => exact ⟨[], .nil, .start (e.ruleOf hr e.start)⟩
  | close h1 h2 h3 ih =>
    obtain ⟨γ', k1, k2⟩ := ih
    obtain ⟨A', k3, k4⟩ := e.atDot h1.rule_lt h2
    exact ⟨γ', k1, .close k2 k4 (e.ruleOf h3 k3)⟩
  | shift h1 h2 ih =>
    obtain ⟨γ', k1, k2⟩ := ih
    obtain ⟨A', k3, k4⟩ := e.atDot h1.rule_lt h2
    exact ⟨γ' ++ [A'], forall₂_append k1 (.cons k3 .nil), .shift k2 k4⟩

theorem viable {γ γ' : List SymbolId} {c : Item} (hγ : List.Forall₂ e.rel γ γ') (h : Viable g γ c) : Viable g' γ' (e.item c) := by
  obtain ⟨δ, h1, h2⟩ := e.viable' h
  have := forall₂_fn (R := e.rel) (fun h k => e.fn h k) hγ h1
  rw [this]
  exact h2

theorem viable_iff {γ γ' : List SymbolId} {c : Item} (hγ : List.Forall₂ e.rel γ γ') : Viable g' γ' (e.item c) ↔ Viable g γ c :=
  ⟨fun h => by have := e.symm.viable hγ.flip h; rwa [e.item_symm] at this, e.viable hγ⟩

theorem sameState {γ γ' δ δ' : List SymbolId} (hγ : List.Forall₂ e.rel γ γ') (hδ : List.Forall₂ e.rel δ δ') (h : SameState g γ δ) : SameState g' γ' δ' := by
  intro it
  rw [← e.symm_item it, e.viable_iff hγ, e.viable_iff hδ]
  exact h _

theorem ahead (hi : GInv g) (hi' : GInv g') {γ : List SymbolId} {c : Item} {n : Nat} (h : Ahead g γ c n) :
    ∃ γ' a b, List.Forall₂ e.rel γ γ' ∧ e.rel a b ∧ n = (g.sym a).index ∧ Ahead g' γ' (e.item c) (g'.sym b).index := by
  induction h with
  | start hr =>
    refine ⟨[], 0, 0, .nil, e.dollar, hi.dollar.2.2.symm, ?_⟩
    rw [hi'.dollar.2.2]
    exact .start (e.ruleOf hr e.start)
  | first h1 h2 h3 h4 =>
    obtain ⟨γ', k1, k2⟩ := e.viable' h1
    obtain ⟨A', k3, k4⟩ := e.atDot h1.rule_lt h2
    obtain ⟨a, b, k5, k6, k7⟩ := e.begins h4 (e.behind h1.rule_lt)
    exact ⟨γ', a, b, k1, k5, k6, .first k2 k4 (e.ruleOf h3 k3) k7⟩
  | pass h1 h2 h3 h4 ih =>
    obtain ⟨γ', a, b, k1, k2, k5, k6⟩ := ih
    obtain ⟨A', k3, k4⟩ := e.atDot h1.rule_lt h2
    obtain ⟨β', k7, k8⟩ := e.derives h4 (e.behind h1.rule_lt)
    cases k7
    exact ⟨γ', a, b, k1, k2, k5, .pass k6 k4 (e.ruleOf h3 k3) k8⟩
  | shift h1 h2 ih =>
    obtain ⟨γ', a, b, k1, k2, k5, k6⟩ := ih
    obtain ⟨A', k3, k4⟩ := e.atDot h1.rule_lt h2
    exact ⟨γ' ++ [A'], a, b, forall₂_append k1 (.cons k3 .nil), k2, k5, .shift k6 k4⟩

theorem reducesOn (hi : GInv g) (hi' : GInv g') {γ γ' : List SymbolId} (hγ : List.Forall₂ e.rel γ γ') {a : SymbolId} {r : RuleId}
    (h : ReducesOn g γ a r) : ∃ b, e.rel a b ∧ ReducesOn g' γ' b (e.σ r) := by
  obtain ⟨h1, h2, δ, h3, h4⟩ := h
  have hr : r < g.rules.length := h4.rule_lt
  obtain ⟨δ', x, b, k1, k2, k3, k4⟩ := e.ahead hi hi' h4
  have hx := hi.index_inj h1 (e.lt k2).1 k3
  subst hx
  refine ⟨b, k2, (e.lt k2).2, by rw [e.kind k2]; exact h2, δ', ?_, ?_⟩
  · exact e.sameState hγ k1 h3
  · rw [← (e.rhs r hr).length_eq]
    exact k4


theorem shiftsOn {γ γ' : List SymbolId} (hγ : List.Forall₂ e.rel γ γ') {a X : SymbolId} (h : ShiftsOn g γ a X) :
    ∃ b Y, e.rel a b ∧ e.rel X Y ∧ ShiftsOn g' γ' b Y := by
  obtain ⟨it, h1, h2, h3⟩ := h
  obtain ⟨Y, k1, k2⟩ := e.atDot h1.rule_lt h2
  obtain ⟨b, k3, k4⟩ := e.reads k1 h3
  exact ⟨b, Y, k3, k1, _, e.viable hγ h1, k2, k4⟩

theorem prefix_of_shifts {γ : List SymbolId} {a X : SymbolId} (h : ShiftsOn g γ a X) : ∃ γ', List.Forall₂ e.rel γ γ' := by
  obtain ⟨it, h1, _⟩ := h
  obtain ⟨γ', k, _⟩ := e.viable' h1
  exact ⟨γ', k⟩

theorem prefix_of_reduces {γ : List SymbolId} {a : SymbolId} {r : RuleId} (h : ReducesOn g γ a r) : ∃ γ', List.Forall₂ e.rel γ γ' := by
  obtain ⟨_, _, δ, h1, h2⟩ := h
  obtain ⟨γ', k, _⟩ := e.viable' ((h1 _).2 h2.viable)
  exact ⟨γ', k⟩

include e in
theorem noClash (hi : GInv g) (hi' : GInv g') (h : NoClash g) : NoClash g' where
  shiftReduce := by
    intro γ a X r h1 h2
    obtain ⟨γ', k⟩ := e.symm.prefix_of_shifts h1
    obtain ⟨b, Y, k1, _, k3⟩ := e.symm.shiftsOn k h1
    obtain ⟨c, k4, k5⟩ := e.symm.reducesOn hi' hi k h2
    have := e.symm.fn k1 k4
    subst this
    exact h.shiftReduce k3 k5
  reduceReduce := by
    intro γ a r r' h1 h2
    obtain ⟨γ', k⟩ := e.symm.prefix_of_reduces h1
    obtain ⟨b, k1, k3⟩ := e.symm.reducesOn hi' hi k h1
    obtain ⟨c, k4, k5⟩ := e.symm.reducesOn hi' hi k h2
    have := e.symm.fn k1 k4
    subst this
    have := h.reduceReduce k3 k5
    exact (e.right r).symm.trans ((congrArg e.σ this).trans (e.right r'))

include e in
theorem readTwice {γ : List SymbolId} {a : SymbolId} (h : ReadTwice g γ a) : ∃ γ' b, ReadTwice g' γ' b := by
  rcases h with ⟨X, Y, h1, h2, h3⟩ | ⟨X, h1, h2⟩
  · obtain ⟨γ', k⟩ := e.prefix_of_shifts h1
    obtain ⟨b, X', k1, k2, k3⟩ := e.shiftsOn k h1
    obtain ⟨c, Y', k4, k5, k6⟩ := e.shiftsOn k h2
    have := e.fn k1 k4
    subst this
    exact ⟨γ', b, .inl ⟨X', Y', k3, k6, fun hq => h3 (e.inj k2 (hq ▸ k5))⟩⟩
  · obtain ⟨γ', k⟩ := e.prefix_of_shifts h1
    obtain ⟨b, X', k1, k2, k3⟩ := e.shiftsOn k h1
    exact ⟨γ', b, .inr ⟨X', k3, fun hn => h2 (forall₂_nodup (R := fun y x => e.rel x y) (fun h k => e.fn h k) (e.subs k2).flip hn)⟩⟩

/-- A rule that may be reduced may be reduced. -/
theorem reducible (hi : GInv g) (hi' : GInv g') {r : RuleId} (h : ∃ γ a, ReducesOn g γ a r) : ∃ γ a, ReducesOn g' γ a (e.σ r) := by
  obtain ⟨γ, a, h⟩ := h
  obtain ⟨γ', k⟩ := e.prefix_of_reduces h
  obtain ⟨b, _, k2⟩ := e.reducesOn hi hi' k h
  exact ⟨γ', b, k2⟩

end Shuf

end Pomelo
