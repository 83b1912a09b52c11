import Verif.Proofs.TwinActs
import Verif.Proofs.StateReport
/-!
# Grammars with the same rules and other numbers of symbols

Two grammars with the same rules in the same order, over symbols that correspond to each other; each may have further symbols
that occur in no rule.  Their automata correspond, and the one has conflicts if and only if the other has.
-/

namespace Pomelo
open Spec

variable {g g' : Grammar} {sts sts' : List LState}

/-- The symbols of the rules of `g` correspond to those of the rules of `g'`. -/
structure Embed (g g' : Grammar) where
  rel : SymbolId → SymbolId → Prop
  fn : ∀ {x y y'}, rel x y → rel x y' → y = y'
  inj : ∀ {x x' y}, rel x y → rel x' y → x = x'
  lt : ∀ {x y}, rel x y → x < g.syms.length ∧ y < g'.syms.length
  kind : ∀ {x y}, rel x y → (g'.sym y).kind = (g.sym x).kind
  prec : ∀ {x y}, rel x y → (g'.sym y).precedence = (g.sym x).precedence
  subs : ∀ {x y}, rel x y → List.Forall₂ rel (g.sym x).subs (g'.sym y).subs
  nrules : g'.rules.length = g.rules.length
  lhs : ∀ r, r < g.rules.length → rel (g.rule r).lhs (g'.rule r).lhs
  rhs : ∀ r, r < g.rules.length → List.Forall₂ rel (g.rhsSyms r) (g'.rhsSyms r)
  rprec : ∀ r, r < g.rules.length → (g'.rule r).precedence = (g.rule r).precedence
  start : rel (g.start.getD 0) (g'.start.getD 0)
  dollar : rel 0 0

theorem forall₂_splitL {α β : Type} {R : α → β → Prop} : ∀ {u v : List α} {l : List β}, List.Forall₂ R (u ++ v) l →
    ∃ u' v', l = u' ++ v' ∧ List.Forall₂ R u u' ∧ List.Forall₂ R v v' := by
  intro u
  induction u with
  | nil => intro v l h; exact ⟨[], l, rfl, .nil, h⟩
  | cons a u ih =>
    intro v l h
    cases h with
    | cons h1 h2 =>
      obtain ⟨u', v', rfl, h3, h4⟩ := ih h2
      exact ⟨_ :: u', v', rfl, .cons h1 h3, h4⟩

theorem forall₂_append {α β : Type} {R : α → β → Prop} {a c : List α} {b d : List β} (h : List.Forall₂ R a b) (k : List.Forall₂ R c d) :
    List.Forall₂ R (a ++ c) (b ++ d) := by
  induction h with
  | nil => exact k
  | cons h1 _ ih => exact .cons h1 ih

theorem forall₂_fn {α β : Type} {R : α → β → Prop} (hR : ∀ {x y y'}, R x y → R x y' → y = y') : ∀ {l : List α} {a b : List β},
    List.Forall₂ R l a → List.Forall₂ R l b → a = b := by
  intro l a b h
  induction h generalizing b with
  | nil => intro k; cases k; rfl
  | cons h1 _ ih =>
    intro k
    cases k with
    | cons k1 k2 => rw [hR h1 k1, ih k2]

theorem forall₂_nodup {α β : Type} {R : α → β → Prop} (hR : ∀ {x x' y}, R x y → R x' y → x = x') {l : List α} {m : List β}
    (h : List.Forall₂ R l m) (hn : l.Nodup) : m.Nodup := by
  induction h with
  | nil => exact .nil
  | cons h1 h2 ih =>
    rw [List.nodup_cons] at hn ⊢
    refine ⟨fun hm => ?_, ih hn.2⟩
    obtain ⟨x, hx, hr⟩ := forall₂_mem_right h2 hm
    rw [hR h1 hr] at hn
    exact hn.1 hx

namespace Embed

/-- The other way round -/
def symm (e : Embed g g') : Embed g' g where
  rel := fun x y => e.rel y x
  fn := fun h k => e.inj h k
  inj := fun h k => e.fn h k
  lt := fun h => (e.lt h).symm
  kind := fun h => (e.kind h).symm
  prec := fun h => (e.prec h).symm
  subs := fun h => (e.subs h).flip
  nrules := e.nrules.symm
  lhs := fun r hr => e.lhs r (e.nrules ▸ hr)
  rhs := fun r hr => (e.rhs r (e.nrules ▸ hr)).flip
  rprec := fun r hr => (e.rprec r (e.nrules ▸ hr)).symm
  start := e.start
  dollar := e.dollar

variable (e : Embed g g')

theorem reads {X Y a : SymbolId} (h : e.rel X Y) (hr : Reads g X a) : ∃ b, e.rel a b ∧ Reads g' Y b := by
  unfold Reads at hr ⊢
  rw [e.kind h]
  split at hr
  · subst hr; exact ⟨Y, h, rfl⟩
  · obtain ⟨b, hb, hab⟩ := forall₂_mem_left (e.subs h) hr
    exact ⟨b, hab, hb⟩
  · exact hr.elim

theorem rewrites {α β α' : List SymbolId} (h : Rewrites g α β) (ha : List.Forall₂ e.rel α α') : ∃ β', List.Forall₂ e.rel β β' ∧ Rewrites g' α' β' := by
  obtain ⟨u, v, r, hr, rfl, rfl⟩ := h
  obtain ⟨u', v', rfl, h1, h2⟩ := forall₂_splitL ha
  cases h2 with
  | @cons _ b _ v' h3 h4 =>
    refine ⟨u' ++ g'.rhsSyms r ++ v', forall₂_append (forall₂_append h1 (e.rhs r hr)) h4, u', v', r, by rw [e.nrules]; exact hr, ?_, rfl⟩
    rw [e.fn h3 (e.lhs r hr)]

theorem derives {α β α' : List SymbolId} (h : Derives g α β) (ha : List.Forall₂ e.rel α α') : ∃ β', List.Forall₂ e.rel β β' ∧ Derives g' α' β' := by
  induction h with
  | refl => exact ⟨α', ha, Relation.ReflTransGen.refl⟩
  | tail _ h2 ih =>
    obtain ⟨β', h3, h4⟩ := ih
    obtain ⟨δ, h5, h6⟩ := e.rewrites h2 h3
    exact ⟨δ, h5, h4.tail h6⟩

theorem begins {α α' : List SymbolId} {n : Nat} (h : Begins g α n) (ha : List.Forall₂ e.rel α α') :
    ∃ a b, e.rel a b ∧ n = (g.sym a).index ∧ Begins g' α' (g'.sym b).index := by
  obtain ⟨a, X, β, rfl, h1, h2⟩ := h
  obtain ⟨β', h3, h4⟩ := e.derives h1 ha
  cases h3 with
  | cons h5 h6 =>
    obtain ⟨b, h7, h8⟩ := e.reads h5 h2
    exact ⟨a, b, h7, rfl, b, _, _, rfl, h4, h8⟩

theorem ruleOf {A A' : SymbolId} {r : RuleId} (h : RuleOf g A r) (ha : e.rel A A') : RuleOf g' A' r := by
  refine ⟨by rw [e.nrules]; exact h.1, ?_⟩
  have := e.lhs r h.1
  rw [h.2] at this
  exact e.fn this ha

theorem atDot {c : Item} {A : SymbolId} (hc : c.rule < g.rules.length) (h : Spec.atDot g c = some A) : ∃ A', e.rel A A' ∧ Spec.atDot g' c = some A' := by
  unfold Spec.atDot at *
  rcases forall₂_getElem? (e.rhs _ hc) c.dot with ⟨h1, _⟩ | ⟨a, b, h1, h2, h3⟩
  · rw [h1] at h; cases h
  · rw [h1] at h; cases h
    exact ⟨b, h3, h2⟩

theorem behind {c : Item} (hc : c.rule < g.rules.length) : List.Forall₂ e.rel (Spec.behind g c) (Spec.behind g' c) :=
  List.forall₂_drop _ (e.rhs _ hc)

theorem viable' {γ : List SymbolId} {c : Item} (h : Viable g γ c) : ∃ γ', List.Forall₂ e.rel γ γ' ∧ Viable g' γ' c := by
  induction h with
  | start hr => exact ⟨[], .nil, .start (e.ruleOf hr e.start)⟩
  | close h1 h2 h3 ih =>
    obtain ⟨γ', k1, k2⟩ := ih
    obtain ⟨A', k3, k4⟩ := e.atDot h1.rule_lt h2
    exact ⟨γ', k1, .close k2 k4 (e.ruleOf h3 k3)⟩
  | shift h1 h2 ih =>
    obtain ⟨γ', k1, k2⟩ := ih
    obtain ⟨A', k3, k4⟩ := e.atDot h1.rule_lt h2
    exact ⟨γ' ++ [A'], forall₂_append k1 (.cons k3 .nil), .shift k2 k4⟩

theorem viable {γ γ' : List SymbolId} {c : Item} (hγ : List.Forall₂ e.rel γ γ') (h : Viable g γ c) : Viable g' γ' c := by
  obtain ⟨δ, h1, h2⟩ := e.viable' h
  have := forall₂_fn (R := e.rel) (fun h k => e.fn h k) hγ h1
  rw [this]
  exact h2

theorem viable_iff {γ γ' : List SymbolId} {c : Item} (hγ : List.Forall₂ e.rel γ γ') : Viable g' γ' c ↔ Viable g γ c :=
  ⟨e.symm.viable hγ.flip, e.viable hγ⟩

theorem ahead (hi : GInv g) (hi' : GInv g') {γ : List SymbolId} {c : Item} {n : Nat} (h : Ahead g γ c n) :
    ∃ γ' a b, List.Forall₂ e.rel γ γ' ∧ e.rel a b ∧ n = (g.sym a).index ∧ Ahead g' γ' c (g'.sym b).index := by
  induction h with
  | start hr =>
    refine ⟨[], 0, 0, .nil, e.dollar, hi.dollar.2.2.symm, ?_⟩
    rw [hi'.dollar.2.2]
    exact .start (e.ruleOf hr e.start)
  | first h1 h2 h3 h4 =>
    obtain ⟨γ', k1, k2⟩ := e.viable' h1
    obtain ⟨A', k3, k4⟩ := e.atDot h1.rule_lt h2
    obtain ⟨a, b, k5, k6, k7⟩ := e.begins h4 (e.behind h1.rule_lt)
    exact ⟨γ', a, b, k1, k5, k6, .first k2 k4 (e.ruleOf h3 k3) k7⟩
  | pass h1 h2 h3 h4 ih =>
    obtain ⟨γ', a, b, k1, k2, k5, k6⟩ := ih
    obtain ⟨A', k3, k4⟩ := e.atDot h1.rule_lt h2
    obtain ⟨β', k7, k8⟩ := e.derives h4 (e.behind h1.rule_lt)
    cases k7
    exact ⟨γ', a, b, k1, k2, k5, .pass k6 k4 (e.ruleOf h3 k3) k8⟩
  | shift h1 h2 ih =>
    obtain ⟨γ', a, b, k1, k2, k5, k6⟩ := ih
    obtain ⟨A', k3, k4⟩ := e.atDot h1.rule_lt h2
    exact ⟨γ' ++ [A'], a, b, forall₂_append k1 (.cons k3 .nil), k2, k5, .shift k6 k4⟩

theorem reducesOn (hi : GInv g) (hi' : GInv g') {γ γ' : List SymbolId} (hγ : List.Forall₂ e.rel γ γ') {a : SymbolId} {r : RuleId}
    (h : ReducesOn g γ a r) : ∃ b, e.rel a b ∧ ReducesOn g' γ' b r := by
  obtain ⟨h1, h2, δ, h3, h4⟩ := h
  have hr : r < g.rules.length := h4.rule_lt
  obtain ⟨δ', x, b, k1, k2, k3, k4⟩ := e.ahead hi hi' h4
  have hx := hi.index_inj h1 (e.lt k2).1 k3
  subst hx
  refine ⟨b, k2, (e.lt k2).2, by rw [e.kind k2]; exact h2, δ', ?_, ?_⟩
  · intro it
    rw [e.viable_iff hγ, e.viable_iff k1]
    exact h3 it
  · rw [← (e.rhs r hr).length_eq]
    exact k4

/-! ## States -/

/-- The states correspond: they are reached by corresponding symbols. -/
def Mate (e : Embed g g') (sts sts' : List LState) (q q' : StateId) : Prop :=
  ∃ γ γ', List.Forall₂ e.rel γ γ' ∧ g.Path sts γ q ∧ g'.Path sts' γ' q'

variable {e} in
theorem Mate.symm {q q' : StateId} (h : e.Mate sts sts' q q') : e.symm.Mate sts' sts q' q := by
  obtain ⟨γ, γ', h1, h2, h3⟩ := h
  exact ⟨γ', γ, h1.flip, h3, h2⟩

section
variable (hi : GInv g) (hi' : GInv g') (ha : Auto g sts) (ha' : Auto g' sts')
include hi hi' ha ha'

theorem path {γ : List SymbolId} {q : StateId} (h : g.Path sts γ q) : ∃ γ' q', List.Forall₂ e.rel γ γ' ∧ g'.Path sts' γ' q' := by
  induction h with
  | nil => exact ⟨[], 0, .nil, .nil⟩
  | @snoc γ q X k h1 h2 ih =>
    obtain ⟨γ', q', h3, h4⟩ := ih
    obtain ⟨c, hc, hn⟩ := h2.some
    have hv := (path_items hi ha h1 c).1 hc
    obtain ⟨X', k1, k2⟩ := e.atDot hv.rule_lt hn
    obtain ⟨k', hk⟩ := ha'.move (Path.lt ha' h4) ((path_items hi' ha' h4 _).2 (e.viable h3 hv)) (sp := X') k2
    exact ⟨γ' ++ [X'], k', forall₂_append h3 (.cons k1 .nil), .snoc h4 hk⟩

theorem mate_exists {q : StateId} (hq : q < sts.length) : ∃ q', e.Mate sts sts' q q' := by
  obtain ⟨γ, h⟩ := ha.exists_path q hq
  obtain ⟨γ', q', h1, h2⟩ := e.path hi hi' ha ha' h
  exact ⟨q', γ, γ', h1, h, h2⟩

theorem mate_items {q q' : StateId} (h : e.Mate sts sts' q q') (it : Item) : it ∈ items (cfgs sts' q') ↔ it ∈ items (cfgs sts q) := by
  obtain ⟨γ, γ', h1, h2, h3⟩ := h
  rw [path_items hi' ha' h3, path_items hi ha h2]
  exact e.viable_iff h1

theorem mate_fn {q a b : StateId} (h : e.Mate sts sts' q a) (k : e.Mate sts sts' q b) : a = b := by
  have h1 := e.mate_items hi hi' ha ha' h
  have h2 := e.mate_items hi hi' ha ha' k
  obtain ⟨_, _, _, _, h3⟩ := h
  obtain ⟨_, _, _, _, k3⟩ := k
  exact ha'.items_inj hi' (Path.lt ha' h3) (Path.lt ha' k3) (fun it => by rw [h1, h2])

theorem mate_inj {q p a : StateId} (h : e.Mate sts sts' q a) (k : e.Mate sts sts' p a) : q = p :=
  e.symm.mate_fn hi' hi ha' ha h.symm k.symm

omit hi hi' ha ha' in
theorem mate_zero : e.Mate sts sts' 0 0 := ⟨[], [], .nil, .nil, .nil⟩

theorem mate_trans {q q' k : StateId} {X : SymbolId} (h : e.Mate sts sts' q q') (ht : g.Trans sts q X k) :
    ∃ X' k', e.rel X X' ∧ e.Mate sts sts' k k' ∧ g'.Trans sts' q' X' k' := by
  obtain ⟨γ, γ', h1, h2, h3⟩ := h
  obtain ⟨c, hc, hn⟩ := ht.some
  have hv := (path_items hi ha h2 c).1 hc
  obtain ⟨X', k1, k2⟩ := e.atDot hv.rule_lt hn
  obtain ⟨k', hk⟩ := ha'.move (Path.lt ha' h3) ((path_items hi' ha' h3 _).2 (e.viable h1 hv)) (sp := X') k2
  exact ⟨X', k', k1, ⟨γ ++ [X], γ' ++ [X'], forall₂_append h1 (.cons k1 .nil), .snoc h2 ht, .snoc h3 hk⟩, hk⟩

theorem canShift {q q' k : StateId} {s : SymbolId} (h : e.Mate sts sts' q q') (hs : g.CanShift sts q s k) :
    ∃ s' k', e.rel s s' ∧ e.Mate sts sts' k k' ∧ g'.CanShift sts' q' s' k' := by
  obtain ⟨X, h1, h2⟩ := hs
  obtain ⟨X', k', k1, k2, k3⟩ := e.mate_trans hi hi' ha ha' h h1
  rcases (mem_shiftActions.1 h2).2 with ⟨h4, h5⟩ | ⟨h4, h5⟩
  · obtain ⟨b, h6, h7⟩ := forall₂_mem_left (e.subs k1) h5
    exact ⟨b, k', h7, k2, X', k3, mem_shiftActions.2 ⟨rfl, .inl ⟨by rw [e.kind k1]; exact h4, h6⟩⟩⟩
  · simp only at h5
    subst h5
    exact ⟨X', k', k1, k2, X', k3, mem_shiftActions.2 ⟨rfl, .inr ⟨by rw [e.kind k1]; exact h4, rfl⟩⟩⟩

theorem canReduce {q q' : StateId} {s : SymbolId} {r : RuleId} (h : e.Mate sts sts' q q') (hs : g.CanReduce sts q s r) :
    ∃ s', e.rel s s' ∧ g'.CanReduce sts' q' s' r := by
  obtain ⟨γ, γ', h1, h2, h3⟩ := h
  rw [← reducesOn_iff hi ha h2] at hs
  obtain ⟨b, k1, k2⟩ := e.reducesOn hi hi' h1 hs
  exact ⟨b, k1, (reducesOn_iff hi' ha' h3).1 k2⟩

end

end Embed

end Pomelo
