import Verif.Proofs.Frame
import Verif.Proofs.Conflicts
import Verif.Proofs.Choice
/-!
# The automata of two grammars that differ in the numbers of their rules

State for state they have the same actions, with other numbers for states and rules.
-/

namespace Pomelo
open Spec

variable {g g' : Grammar} {sts sts' : List LState}

theorem path_transfer (R : Renumbered g g') (hi : GInv g) (ha : Auto g sts) (hi' : GInv g') (ha' : Auto g' sts') {γ : List SymbolId} {q : StateId}
    (h : g.Path sts γ q) : ∃ q', g'.Path sts' γ q' := by
  induction h with
  | nil => exact ⟨0, .nil⟩
  | @snoc γ q X k h1 h2 ih =>
    obtain ⟨q', h3⟩ := ih
    obtain ⟨c, hc, hn⟩ := h2.some
    have hv := (path_items hi ha h1 c).1 hc
    obtain ⟨k', hk⟩ := ha'.move (Path.lt ha' h3) ((path_items hi' ha' h3 _).2 (R.viable hv)) (sp := X) (by
      have := R.atDot hv.rule_lt
      exact this.trans hn)
    exact ⟨k', .snoc h3 hk⟩

theorem path_same (R : Renumbered g g') (hi : GInv g) (ha : Auto g sts) (hi' : GInv g') (ha' : Auto g' sts') {γ δ : List SymbolId} {q a b : StateId}
    (h1 : g.Path sts γ q) (h2 : g.Path sts δ q) (h3 : g'.Path sts' γ a) (h4 : g'.Path sts' δ b) : a = b := by
  apply ha'.items_inj hi' (Path.lt ha' h3) (Path.lt ha' h4)
  intro it
  rw [path_items hi' ha' h3, path_items hi' ha' h4]
  exact R.sameState (fun c => by rw [← path_items hi ha h1, ← path_items hi ha h2]) it

/-- The correspondence of the states -/
structure Twin (g g' : Grammar) (sts sts' : List LState) where
  R : Renumbered g g'
  inv : GInv g
  inv' : GInv g'
  auto : Auto g sts
  auto' : Auto g' sts'
  ρ : StateId → StateId
  ρ' : StateId → StateId
  path : ∀ γ q, g.Path sts γ q → g'.Path sts' γ (ρ q)
  path' : ∀ γ q, g'.Path sts' γ q → g.Path sts γ (ρ' q)

theorem twin_exists (R : Renumbered g g') (hi : GInv g) (ha : Auto g sts) (hi' : GInv g') (ha' : Auto g' sts') :
    ∃ T : Twin g g' sts sts', T.R = R := by
  classical
  have mk : ∀ {g g' : Grammar} {sts sts' : List LState}, Renumbered g g' → GInv g → Auto g sts → GInv g' → Auto g' sts' →
      ∃ ρ : StateId → StateId, ∀ γ q, g.Path sts γ q → g'.Path sts' γ (ρ q) := by
    intro g g' sts sts' R hi ha hi' ha'
    have : ∀ q, ∃ q', ∀ γ, g.Path sts γ q → g'.Path sts' γ q' := by
      intro q
      by_cases hq : ∃ γ, g.Path sts γ q
      · obtain ⟨γ, h⟩ := hq
        obtain ⟨q', h'⟩ := path_transfer R hi ha hi' ha' h
        refine ⟨q', fun δ hd => ?_⟩
        obtain ⟨q2, h2⟩ := path_transfer R hi ha hi' ha' hd
        rw [path_same R hi ha hi' ha' h hd h' h2]
        exact h2
      · exact ⟨0, fun γ h => absurd ⟨γ, h⟩ hq⟩
    exact ⟨fun q => (this q).choose, fun γ q h => (this q).choose_spec γ h⟩
  obtain ⟨ρ, h⟩ := mk R hi ha hi' ha'
  obtain ⟨ρ', h'⟩ := mk R.symm hi' ha' hi ha
  exact ⟨⟨R, hi, hi', ha, ha', ρ, ρ', h, h'⟩, rfl⟩

namespace Twin
variable (T : Twin g g' sts sts')
include T

/-- The other way round -/
def symm : Twin g' g sts' sts where
  R := T.R.symm
  inv := T.inv'
  inv' := T.inv
  auto := T.auto'
  auto' := T.auto
  ρ := T.ρ'
  ρ' := T.ρ
  path := T.path'
  path' := T.path

theorem lt {q : StateId} (hq : q < sts.length) : T.ρ q < sts'.length := by
  obtain ⟨γ, h⟩ := T.auto.exists_path q hq
  exact Path.lt T.auto' (T.path _ _ h)

theorem back {q : StateId} (hq : q < sts.length) : T.ρ' (T.ρ q) = q := by
  obtain ⟨γ, h⟩ := T.auto.exists_path q hq
  exact Path.unique T.auto (T.path' _ _ (T.path _ _ h)) h

theorem inj {q k : StateId} (hq : q < sts.length) (hk : k < sts.length) (h : T.ρ q = T.ρ k) : q = k := by
  rw [← T.back hq, h, T.back hk]

theorem zero : T.ρ 0 = 0 := Path.inv_nil (T.path [] 0 .nil)

theorem length : sts'.length = sts.length := by
  have key : ∀ {g g' : Grammar} {sts sts' : List LState} (T : Twin g g' sts sts'), sts.length ≤ sts'.length := by
    intro g g' sts sts' T
    have hnd : ((List.range sts.length).map T.ρ).Nodup := by
      apply List.Nodup.map_on
      · intro a ha b hb h
        exact T.inj (List.mem_range.1 ha) (List.mem_range.1 hb) h
      · exact List.nodup_range
    have hsub : (List.range sts.length).map T.ρ ⊆ List.range sts'.length := by
      intro x hx
      obtain ⟨i, hi, rfl⟩ := List.mem_map.1 hx
      exact List.mem_range.2 (T.lt (List.mem_range.1 hi))
    simpa using (hnd.subperm hsub).length_le
  exact Nat.le_antisymm (key T.symm) (key T)

theorem trans {q k : StateId} {X : SymbolId} (h : g.Trans sts q X k) : g'.Trans sts' (T.ρ q) X (T.ρ k) := by
  obtain ⟨γ, hp⟩ := T.auto.exists_path q h.src
  obtain ⟨p, h1, h2⟩ := Path.inv_snoc (T.path _ _ (.snoc hp h))
  rw [Path.unique T.auto' (T.path _ _ hp) h1]
  exact h2

theorem canShift {q k : StateId} {s : SymbolId} (h : g.CanShift sts q s k) : g'.CanShift sts' (T.ρ q) s (T.ρ k) := by
  obtain ⟨X, h1, h2⟩ := h
  obtain ⟨r, hr, hX⟩ := h1.rhs T.inv T.auto
  have hX := (T.inv.rhs r hr X hX).1
  refine ⟨X, T.trans h1, ?_⟩
  rw [mem_shiftActions] at h2 ⊢
  rw [T.R.kind X hX, T.R.subs X hX]
  exact ⟨rfl, h2.2⟩

theorem canReduce {q : StateId} {s : SymbolId} {r : RuleId} (hq : q < sts.length) (h : g.CanReduce sts q s r) : g'.CanReduce sts' (T.ρ q) s (T.R.σ r) := by
  obtain ⟨γ, hp⟩ := T.auto.exists_path q hq
  rw [← reducesOn_iff T.inv T.auto hp] at h
  rw [← reducesOn_iff T.inv' T.auto' (T.path _ _ hp)]
  exact T.R.reducesOn T.inv h

/-- The other numbers in an action -/
def detail : Detail → Detail
  | .shift k => .shift (T.ρ k)
  | .accept => .accept
  | .reduce r => .reduce (T.R.σ r)
  | .error => .error
  | .ssConflict k => .ssConflict (T.ρ k)
  | .srConflict r => .srConflict (T.R.σ r)
  | .rrConflict r => .rrConflict (T.R.σ r)
  | .shResolved k => .shResolved (T.ρ k)
  | .rdResolved r => .rdResolved (T.R.σ r)
  | .notUsed => .notUsed

/-- The action of the other automaton -/
def ren (a : Action) : Action := ⟨a.la, T.detail a.detail⟩

theorem raw {q : StateId} (hq : q < sts.length) {a : Action} (h : a ∈ g.rawActions q (sts.getD q default)) :
    T.ren a ∈ g'.rawActions (T.ρ q) (sts'.getD (T.ρ q) default) := by
  rw [mem_rawActions T.inv T.auto hq] at h
  rw [mem_rawActions T.inv' T.auto' (T.lt hq)]
  rcases h with ⟨k, h, e⟩ | ⟨r, h, e⟩ | ⟨h, e⟩
  · exact .inl ⟨_, T.canShift h, by simp [ren, e, detail]⟩
  · exact .inr (.inl ⟨_, T.canReduce hq h, by simp [ren, e, detail]⟩)
  · subst h
    refine .inr (.inr ⟨T.zero, ?_⟩)
    rw [e, T.R.start]
    rfl

theorem raw_back {q : StateId} (hq : q < sts.length) {a : Action} (h : a ∈ g.rawActions q (sts.getD q default)) : T.symm.ren (T.ren a) = a := by
  rw [mem_rawActions T.inv T.auto hq] at h
  rcases h with ⟨k, ⟨X, h, _⟩, e⟩ | ⟨r, h, e⟩ | ⟨h, e⟩
  · have hk := T.back h.dst
    cases a
    simp only at e
    subst e
    simp only [ren, detail]
    rw [show T.symm.ρ (T.ρ k) = k from hk]
  · have hr : r < g.rules.length := T.auto.item_rule T.inv hq (LA_item T.inv T.auto h.2.2).2
    have := (T.R.rule r hr).2.2
    cases a
    simp only at e
    subst e
    simp only [ren, detail]
    rw [show T.symm.R.σ (T.R.σ r) = r from this]
  · rw [e]; rfl

end Twin

/-- A class that lists a token twice makes a conflict. -/
theorem subs_nodup (hi : GInv g) (ha : Auto g sts) (hl : g.Levels) (hn : g.NoStart) {acts : List (List Action)}
    (h : g.findActions sts = .ok (acts, 0)) {q k : StateId} {X : SymbolId} (h1 : g.Trans sts q X k) : (g.sym X).subs.Nodup := by
  have hq := h1.src
  by_contra hnd
  obtain ⟨m, hm⟩ : ∃ m, 2 ≤ (g.sym X).subs.count m := by
    apply Classical.byContradiction
    intro hne
    apply hnd
    rw [List.nodup_iff_count]
    intro m
    apply Classical.byContradiction
    intro h3
    exact hne ⟨m, by omega⟩
  have hmem : m ∈ (g.sym X).subs := List.count_pos_iff.1 (by omega)
  obtain ⟨r0, hr0, hXr⟩ := h1.rhs hi ha
  have hk := hi.subsKind X (hi.rhs r0 hr0 X hXr).1 (by intro h; rw [h] at hmem; cases hmem)
  have h4 := raw_count hi ha hl hn h hq m k
  have h5 : (g.shiftActions X k).count ⟨m, .shift k⟩ = (g.sym X).subs.count m := by
    unfold Grammar.shiftActions
    rw [hk]
    simp only
    generalize (g.sym X).subs = l
    induction l with
    | nil => rfl
    | cons x l ih =>
      rw [List.map_cons, List.count_cons, List.count_cons, ih]
      by_cases e : x = m
      · subst e; simp
      · have : (⟨x, .shift k⟩ : Action) ≠ ⟨m, .shift k⟩ := fun h => e (congrArg Action.la h)
        simp [e, this]
  obtain ⟨L, hL1, hL2, hL3, hL4⟩ := ha.moves q hq
  obtain ⟨c, hc, hcn⟩ := h1.some
  obtain ⟨e, he, he1⟩ := List.mem_map.1 (hL4 c hc X hcn)
  have he2 : e.2 = k := by
    have := hL2 e he
    rw [he1] at this
    exact ha.unique this h1
  have h6 : (g.shiftActions X k).Sublist (actsOf sts q) := by
    rw [hL3]
    have : g.shiftActions X k = g.shiftActions e.1 e.2 := by rw [he1, he2]
    rw [this]
    obtain ⟨l1, l2, hL⟩ := List.append_of_mem he
    rw [hL, List.flatMap_append, List.flatMap_cons]
    exact (List.sublist_append_left _ _).trans (List.sublist_append_right _ _)
  have h7 : (actsOf sts q).Sublist (g.rawActions q (sts.getD q default)) := by
    unfold Grammar.rawActions
    rw [List.append_assoc]
    exact List.sublist_append_left _ _
  have := (h6.trans h7).count_le (⟨m, .shift k⟩ : Action)
  omega

namespace Twin
variable (T : Twin g g' sts sts')
include T

theorem subs' (h : ∀ q X k, g.Trans sts q X k → (g.sym X).subs.Nodup) : ∀ q X k, g'.Trans sts' q X k → (g'.sym X).subs.Nodup := by
  intro q X k ht
  obtain ⟨r, hr, hX⟩ := ht.rhs T.inv' T.auto'
  have hX := (T.inv'.rhs r hr X hX).1
  rw [← T.symm.R.subs X hX]
  exact h _ _ _ (T.symm.trans ht)

theorem raw_perm (h : ∀ q X k, g.Trans sts q X k → (g.sym X).subs.Nodup) {q : StateId} (hq : q < sts.length) :
    (g'.rawActions (T.ρ q) (sts'.getD (T.ρ q) default)).Perm ((g.rawActions q (sts.getD q default)).map T.ren) := by
  have h1 := nodup_raw T.inv T.auto hq (h q)
  have h2 := nodup_raw T.inv' T.auto' (T.lt hq) (T.subs' h _)
  have h3 : ((g.rawActions q (sts.getD q default)).map T.ren).Nodup := by
    apply List.Nodup.map_on
    · intro a ha b hb e
      rw [← T.raw_back hq ha, e, T.raw_back hq hb]
    · exact h1
  refine (List.perm_ext_iff_of_nodup h2 h3).2 (fun a => ?_)
  constructor
  · intro ha
    have h4 := T.symm.raw (T.lt hq) ha
    rw [show T.symm.ρ (T.ρ q) = q from T.back hq] at h4
    exact List.mem_map.2 ⟨_, h4, T.symm.raw_back (T.lt hq) ha⟩
  · intro ha
    obtain ⟨b, hb, rfl⟩ := List.mem_map.1 ha
    exact T.raw hq hb

end Twin

end Pomelo
