import Verif.Proofs.Auto
import Verif.Spec.Lr1
import Mathlib.Data.List.Induction
/-! # The states of the automaton are the sets of LR(0) items, the follow sets their LALR(1) lookaheads -/

namespace Pomelo

open Spec

theorem Spec.Viable.rule {g : Grammar} {γ : List SymbolId} {c : Item} (h : Viable g γ c) : c.rule < g.rules.length := by
  induction h with
  | start h => exact h.1
  | close _ _ h => exact h.1
  | shift _ _ ih => exact ih

theorem Spec.Ahead.viable {g : Grammar} {γ : List SymbolId} {c : Item} {n : Nat} (h : Ahead g γ c n) : Viable g γ c := by
  induction h with
  | start h => exact .start h
  | first h1 h2 h3 _ => exact .close h1 h2 h3
  | pass _ h2 h3 _ ih => exact .close ih h2 h3
  | shift _ h2 ih => exact .shift ih h2

theorem Spec.Valid1.ahead {g : Grammar} {γ : List SymbolId} {c : Item} {n : Nat} (h : Valid1 g γ c n) : Ahead g γ c n := by
  induction h with
  | start h => exact .start h
  | close _ h2 h3 h4 ih =>
    rcases h4 with h4 | ⟨h4, rfl⟩
    · exact .first ih.viable h2 h3 h4
    · exact .pass ih h2 h3 h4
  | shift _ h2 ih => exact .shift ih h2

theorem begins_or_nil {g : Grammar} : ∀ {α : List SymbolId}, (∀ X ∈ α, (∃ n, Begins g [X] n) ∨ Derives g [X] []) →
    (∃ n, Begins g α n) ∨ Derives g α [] := by
  intro α
  induction α with
  | nil => intro _; exact .inr (.refl _)
  | cons X α ih =>
    intro h
    rcases h X (by simp) with ⟨n, a, Y, β, h1, h2, h3⟩ | h1
    · exact .inl ⟨n, a, Y, β ++ α, h1, by simpa using h2.append_right α, h3⟩
    · have hx : Derives g (X :: α) α := by simpa using h1.append_right α
      rcases ih (fun Y hY => h Y (by simp [hY])) with ⟨n, a, Y, β, h2, h3, h4⟩ | h2
      · exact .inl ⟨n, a, Y, β, h2, Derives.trans hx h3, h4⟩
      · exact .inr (Derives.trans hx h2)

/-- Where no symbol is void the two notions of lookahead are the same. -/
theorem ahead_iff_valid1 {g : Grammar} (hv : NoVoid g) {γ : List SymbolId} {c : Item} {n : Nat} : Ahead g γ c n ↔ Valid1 g γ c n := by
  refine ⟨fun h => ?_, Valid1.ahead⟩
  have hbeh : ∀ {c : Item}, c.rule < g.rules.length → (∃ n, Begins g (behind g c) n) ∨ Derives g (behind g c) [] := by
    intro c hc
    apply begins_or_nil
    intro X hX
    exact hv c.rule hc X (List.mem_of_mem_drop hX)
  have hex : ∀ {γ c}, Viable g γ c → ∃ m, Valid1 g γ c m := by
    intro γ c h
    induction h with
    | start h => exact ⟨0, .start h⟩
    | close h1 h2 h3 ih =>
      obtain ⟨m, hm⟩ := ih
      rcases hbeh (Viable.rule h1) with ⟨n, hn⟩ | hn
      · exact ⟨n, .close hm h2 h3 (.inl hn)⟩
      · exact ⟨m, .close hm h2 h3 (.inr ⟨hn, rfl⟩)⟩
    | shift _ h2 ih => obtain ⟨m, hm⟩ := ih; exact ⟨m, .shift hm h2⟩
  induction h with
  | start h => exact .start h
  | first h1 h2 h3 h4 => obtain ⟨m, hm⟩ := hex h1; exact .close hm h2 h3 (.inl h4)
  | pass _ h2 h3 h4 ih => exact .close ih h2 h3 (.inr ⟨h4, rfl⟩)
  | shift _ h2 ih => exact .shift ih h2

/-- States along a sequence of symbols -/
inductive Grammar.Path (g : Grammar) (sts : List LState) : List SymbolId → StateId → Prop
  | nil : g.Path sts [] 0
  | snoc {γ q X k} : g.Path sts γ q → g.Trans sts q X k → g.Path sts (γ ++ [X]) k

theorem Path.inv_nil {g : Grammar} {sts : List LState} {q : StateId} (h : g.Path sts [] q) : q = 0 := by
  generalize hγ : ([] : List SymbolId) = γ at h
  cases h with
  | nil => rfl
  | snoc => simp at hγ

theorem Path.inv_snoc {g : Grammar} {sts : List LState} {γ : List SymbolId} {X : SymbolId} {k : StateId}
    (h : g.Path sts (γ ++ [X]) k) : ∃ q, g.Path sts γ q ∧ g.Trans sts q X k := by
  generalize hγ : γ ++ [X] = δ at h
  cases h with
  | nil => simp at hγ
  | snoc h1 h2 =>
    obtain ⟨e1, e2⟩ := List.append_inj' hγ rfl
    simp only [List.cons.injEq, and_true] at e2
    subst e1; subst e2
    exact ⟨_, h1, h2⟩

section
variable {g : Grammar} {sts : List LState}

theorem step_ruleOf (hi : GInv g) {c : Item} (hc : c.rule < g.rules.length) {r : RuleId} :
    g.Step c r ↔ ∃ A, atDot g c = some A ∧ RuleOf g A r := by
  unfold Grammar.Step
  constructor
  · rintro ⟨A, h1, h2, h3⟩
    have hA := (hi.rhs c.rule hc A (List.mem_of_getElem? h1)).1
    exact ⟨A, h1, (hi.mem_rules hA).1 h3⟩
  · rintro ⟨A, h1, h2⟩
    have hA := (hi.rhs c.rule hc A (List.mem_of_getElem? h1)).1
    refine ⟨A, h1, ?_, (hi.mem_rules hA).2 h2⟩
    rw [← h2.2]; exact (hi.lhs r h2.1).2.1

theorem Path.lt (ha : Auto g sts) {γ : List SymbolId} {q : StateId} (h : g.Path sts γ q) : q < sts.length := by
  cases h with
  | nil => exact ha.pos
  | snoc _ h => exact h.dst

theorem Path.unique (ha : Auto g sts) {γ : List SymbolId} : ∀ {q q' : StateId}, g.Path sts γ q → g.Path sts γ q' → q = q' := by
  induction γ using List.reverseRecOn with
  | nil => intro q q' h1 h2; rw [Path.inv_nil h1, Path.inv_nil h2]
  | append_singleton γ X ih =>
    intro q q' h1 h2
    obtain ⟨p, a1, a2⟩ := Path.inv_snoc h1
    obtain ⟨p', b1, b2⟩ := Path.inv_snoc h2
    have := ih a1 b1
    subst this
    exact ha.unique a2 b2

theorem Auto.exists_path (ha : Auto g sts) : ∀ q, q < sts.length → ∃ γ, g.Path sts γ q := by
  intro q
  induction q using Nat.strongRecOn with
  | ind q ih =>
    intro hq
    rcases ha.reach q hq with rfl | ⟨p, sp, h1, h2⟩
    · exact ⟨[], .nil⟩
    · obtain ⟨γ, h3⟩ := ih p h1 h2.src
      exact ⟨_, .snoc h3 h2⟩

theorem mem_start (hi : GInv g) (ha : Auto g sts) {it : Item} : it ∈ basisOf sts 0 ↔ ∃ r, RuleOf g (g.start.getD 0) r ∧ it = ⟨r, 0⟩ := by
  rw [ha.start]
  have h := hi.start_kind.2.1
  constructor
  · rintro ⟨r, h1, h2⟩; exact ⟨r, (hi.mem_rules h).1 h1, h2⟩
  · rintro ⟨r, h1, h2⟩; exact ⟨r, (hi.mem_rules h).2 h1, h2⟩

theorem just_mem (ha : Auto g sts) {q : StateId} (hq : q < sts.length) {c : Item} (h : g.Just (basisOf sts q) c) :
    c ∈ items (cfgs sts q) := by
  induction h with
  | base h => exact ha.sub q hq _ h
  | step _ h3 ih => exact ha.closed q hq _ ih _ h3

theorem path_items (hi : GInv g) (ha : Auto g sts) {γ : List SymbolId} {q : StateId} (hp : g.Path sts γ q) (it : Item) :
    it ∈ items (cfgs sts q) ↔ Viable g γ it := by
  constructor
  · intro h
    have hbase : ∀ {γ q}, g.Path sts γ q → (∀ it ∈ basisOf sts q, Viable g γ it) → ∀ it ∈ items (cfgs sts q), Viable g γ it := by
      intro γ q hp hb it hit
      have hj := ha.just q (Path.lt ha hp) it hit
      induction hj with
      | base h => exact hb _ h
      | step h1 h2 ih =>
        rename_i c r'
        have hc : c ∈ items (cfgs sts q) := just_mem ha (Path.lt ha hp) h1
        have hv := ih hc
        obtain ⟨A, h3, h4⟩ := (step_ruleOf hi (Viable.rule hv)).1 h2
        exact .close hv h3 h4
    have key : ∀ {γ q}, g.Path sts γ q → ∀ it ∈ items (cfgs sts q), Viable g γ it := by
      intro γ q hp
      induction hp with
      | nil =>
        apply hbase .nil
        intro it hit
        obtain ⟨r, h1, rfl⟩ := (mem_start hi ha).1 hit
        exact .start h1
      | snoc h1 h2 ih =>
        apply hbase (.snoc h1 h2)
        intro it hit
        obtain ⟨c, h3, h4, rfl⟩ := (h2.basis it).1 hit
        exact .shift (ih c h3) h4
    exact key hp it h
  · intro h
    induction h generalizing q with
    | start h =>
      rw [Path.inv_nil hp]
      exact ha.sub 0 ha.pos _ ((mem_start hi ha).2 ⟨_, h, rfl⟩)
    | close h1 h2 h3 ih =>
      exact ha.closed q (Path.lt ha hp) _ (ih hp) _ ((step_ruleOf hi (Viable.rule h1)).2 ⟨_, h2, h3⟩)
    | shift h1 h2 ih =>
      obtain ⟨p, h3, h4⟩ := Path.inv_snoc hp
      exact ha.sub _ h4.dst _ ((h4.basis _).2 ⟨_, ih h3, h2, rfl⟩)

theorem viable_path (hi : GInv g) (ha : Auto g sts) {γ : List SymbolId} {it : Item} (h : Viable g γ it) : ∃ q, g.Path sts γ q := by
  induction h with
  | start _ => exact ⟨0, .nil⟩
  | close _ _ _ ih => exact ih
  | shift h1 h2 ih =>
    obtain ⟨q, hq⟩ := ih
    obtain ⟨k, hk⟩ := ha.move (Path.lt ha hq) ((path_items hi ha hq _).2 h1) h2
    exact ⟨k, .snoc hq hk⟩

/-- Basis and items determine each other. -/
theorem Auto.basis_dot (hi : GInv g) (ha : Auto g sts) {q : StateId} (hq : q < sts.length) :
    (q = 0 ∧ ∀ it ∈ items (cfgs sts q), it.dot = 0) ∨
    (q ≠ 0 ∧ (∃ it, it ∈ basisOf sts q) ∧ ∀ it, it ∈ basisOf sts q ↔ it ∈ items (cfgs sts q) ∧ it.dot ≠ 0) := by
  rcases ha.reach q hq with rfl | ⟨p, sp, h1, h2⟩
  · left
    refine ⟨rfl, ?_⟩
    intro it hit
    cases ha.just 0 hq it hit with
    | base h => obtain ⟨r, _, rfl⟩ := (mem_start hi ha).1 h; rfl
    | step _ _ => rfl
  · right
    refine ⟨Nat.ne_of_gt (Nat.lt_of_le_of_lt (Nat.zero_le _) h1), ?_, ?_⟩
    · obtain ⟨c, h3, h4⟩ := h2.some
      exact ⟨_, (h2.basis _).2 ⟨c, h3, h4, rfl⟩⟩
    · intro it
      constructor
      · intro h
        obtain ⟨c, _, _, rfl⟩ := (h2.basis it).1 h
        exact ⟨ha.sub q hq _ h, Nat.succ_ne_zero _⟩
      · rintro ⟨h3, h4⟩
        cases ha.just q hq it h3 with
        | base h => exact h
        | step _ _ => exact absurd rfl h4

/-- A state is determined by its items. -/
theorem Auto.items_inj (hi : GInv g) (ha : Auto g sts) {q q' : StateId} (hq : q < sts.length) (hq' : q' < sts.length)
    (h : ∀ it, it ∈ items (cfgs sts q) ↔ it ∈ items (cfgs sts q')) : q = q' := by
  rcases ha.basis_dot hi hq with ⟨h1, h2⟩ | ⟨h1, ⟨x, hx⟩, h2⟩ <;> rcases ha.basis_dot hi hq' with ⟨h3, h4⟩ | ⟨h3, ⟨y, hy⟩, h4⟩
  · rw [h1, h3]
  · exfalso
    have h5 := (h4 y).1 hy
    exact h5.2 (h2 y ((h y).2 h5.1))
  · exfalso
    have h5 := (h2 x).1 hx
    exact h5.2 (h4 x ((h x).1 h5.1))
  · apply ha.distinct q q' hq hq'
    apply sorted_ext (ha.sorted q hq) (ha.sorted q' hq')
    intro it
    rw [h2, h4, h]

theorem la_iff (hi : GInv g) (ha : Auto g sts) {q : StateId} {it : Item} {n : Nat} :
    g.LA sts q it n ↔ ∃ γ, g.Path sts γ q ∧ Ahead g γ it n := by
  constructor
  · intro h
    induction h with
    | start h =>
      obtain ⟨r, h1, rfl⟩ := (mem_start hi ha).1 h
      exact ⟨[], .nil, .start h1⟩
    | first h1 h2 h3 h4 =>
      obtain ⟨γ, hp⟩ := ha.exists_path _ h1
      have hv := (path_items hi ha hp _).1 h2
      obtain ⟨A, h5, h6⟩ := (step_ruleOf hi (Viable.rule hv)).1 h3
      exact ⟨γ, hp, .first hv h5 h6 h4⟩
    | pass h1 h2 h3 ih =>
      obtain ⟨γ, hp, ih⟩ := ih
      obtain ⟨A, h5, h6⟩ := (step_ruleOf hi (Viable.rule ih.viable)).1 h2
      exact ⟨γ, hp, .pass ih h5 h6 h3⟩
    | shift h1 h2 h3 ih =>
      obtain ⟨γ, hp, ih⟩ := ih
      exact ⟨_, .snoc hp h3, .shift ih h2⟩
  · rintro ⟨γ, hp, h⟩
    induction h generalizing q with
    | start h =>
      rw [Path.inv_nil hp]
      exact .start ((mem_start hi ha).2 ⟨_, h, rfl⟩)
    | first h1 h2 h3 h4 =>
      exact .first (Path.lt ha hp) ((path_items hi ha hp _).2 h1) ((step_ruleOf hi (Viable.rule h1)).2 ⟨_, h2, h3⟩) h4
    | pass h1 h2 h3 h4 ih =>
      exact .pass (ih hp) ((step_ruleOf hi (Viable.rule h1.viable)).2 ⟨_, h2, h3⟩) h4
    | shift h1 h2 ih =>
      obtain ⟨p, h3, h4⟩ := Path.inv_snoc hp
      exact .shift (ih h3) h2 h4

end

end Pomelo
