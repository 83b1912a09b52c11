import Verif.Proofs.StateActs
import Verif.Spec.Conflict
/-! # What a reported conflict is -/

namespace Pomelo

open Spec

variable {g : Grammar} {sts : List LState}

/-- Two actions that the precedences do not settle -/
def Grammar.PairBad (g : Grammar) (x y : Action) : Prop :=
  x.la = y.la ∧ match x.detail, y.detail with
    | .shift _, .shift _ => True
    | .shift _, .reduce b => (g.sym x.la).precedence = none ∨ (g.rule b).precedence = none
    | .reduce a, .reduce b => (g.rule a).precedence = none ∨ (g.rule b).precedence = none ∨
        ∃ p q, (g.rule a).precedence = some p ∧ (g.rule b).precedence = some q ∧ p.level = q.level ∧ p.assoc = .none
    | _, _ => False

/-- Not a shift nor a reduce -/
def Detail.dead (d : Detail) : Prop := (∀ a, d ≠ .shift a) ∧ ∀ a, d ≠ .reduce a

/-- The action is as before, or out of the game. -/
def Kept (y y' : Action) : Prop := y' = y ∨ (y'.la = y.la ∧ y'.detail.dead)

theorem precedenceCmp_eq {p q : Precedence} (h : precedenceCmp p q = .eq) : p.level = q.level ∧ p.assoc = .none := by
  unfold precedenceCmp at h
  split at h
  · cases h
  · split at h
    · cases h
    · refine ⟨by omega, ?_⟩
      revert h
      cases p.assoc <;> simp

theorem resolveConflict_kept (x y : Action) : Kept x (g.resolveConflict x y).1 ∧ Kept y (g.resolveConflict x y).2.1 ∧
    (x.la = y.la → (g.resolveConflict x y).2.2 = true → g.PairBad x y) := by
  have dd : ∀ {d : Detail}, d.rank = 3 → d.dead := by
    intro d hd
    constructor <;> rintro a rfl <;> cases hd
  unfold Grammar.resolveConflict Grammar.PairBad
  split
  · rename_i h1 h2
    refine ⟨.inl rfl, .inr ⟨rfl, dd rfl⟩, ?_⟩
    intro h _; rw [h1, h2]; exact ⟨h, trivial⟩
  · rename_i a b h1 h2
    split
    · split
      · exact ⟨.inr ⟨rfl, dd rfl⟩, .inl rfl, by simp⟩
      · exact ⟨.inr ⟨rfl, dd rfl⟩, .inl rfl, by simp⟩
      · exact ⟨.inl rfl, .inr ⟨rfl, dd rfl⟩, by simp⟩
    · rename_i hn
      refine ⟨.inl rfl, .inr ⟨rfl, dd rfl⟩, ?_⟩
      intro h _; rw [h1, h2]
      refine ⟨h, ?_⟩
      simp only
      cases hp : (g.sym x.la).precedence with
      | none => exact .inl rfl
      | some p =>
        cases hq : (g.rule b).precedence with
        | none => exact .inr rfl
        | some q => exact absurd hq (hn p q hp)
  · rename_i a b h1 h2
    split
    · rename_i p q hp hq
      split
      · exact ⟨.inr ⟨rfl, dd rfl⟩, .inl rfl, by simp⟩
      · rename_i he
        refine ⟨.inl rfl, .inr ⟨rfl, dd rfl⟩, ?_⟩
        intro h _; rw [h1, h2]
        exact ⟨h, .inr (.inr ⟨p, q, hp, hq, precedenceCmp_eq he⟩)⟩
      · exact ⟨.inl rfl, .inr ⟨rfl, dd rfl⟩, by simp⟩
    · rename_i hn
      refine ⟨.inl rfl, .inr ⟨rfl, dd rfl⟩, ?_⟩
      intro h _; rw [h1, h2]
      refine ⟨h, ?_⟩
      simp only
      cases hp : (g.rule a).precedence with
      | none => exact .inl rfl
      | some p =>
        cases hq : (g.rule b).precedence with
        | none => exact .inr (.inl rfl)
        | some q => exact absurd hq (hn p q hp)
  · exact ⟨.inl rfl, .inl rfl, by simp⟩

theorem Kept.refl (y : Action) : Kept y y := .inl rfl

theorem Kept.trans {a b c : Action} (h1 : Kept a b) (h2 : Kept b c) : Kept a c := by
  rcases h1 with rfl | ⟨h1, h1'⟩
  · exact h2
  · rcases h2 with rfl | ⟨h2, h2'⟩
    · exact .inr ⟨h1, h1'⟩
    · exact .inr ⟨h2.trans h1, h2'⟩

theorem PairBad.kept {a a' b b' : Action} (h1 : Kept a a') (h2 : Kept b b') (h : g.PairBad a' b') : g.PairBad a b := by
  rcases h1 with rfl | ⟨_, h1, h1'⟩
  · rcases h2 with rfl | ⟨_, h2, h2'⟩
    · exact h
    · exfalso
      obtain ⟨_, h⟩ := h
      revert h h2 h2'
      cases a'.detail <;> cases b'.detail <;> simp
  · exfalso
    obtain ⟨_, h⟩ := h
    revert h h1 h1'
    cases a'.detail <;> cases b'.detail <;> simp

theorem forall₂_kept_refl (l : List Action) : List.Forall₂ Kept l l := by
  induction l with
  | nil => exact .nil
  | cons a l ih => exact .cons (.refl a) ih

theorem forall₂_kept_trans {a b c : List Action} (h1 : List.Forall₂ Kept a b) (h2 : List.Forall₂ Kept b c) : List.Forall₂ Kept a c := by
  induction h1 generalizing c with
  | nil => cases h2; exact .nil
  | cons h _ ih => cases h2 with | cons h' h'' => exact .cons (h.trans h') (ih h'')

theorem resolveFrom_kept : ∀ (ys : List Action) (x : Action), List.Forall₂ Kept ys (g.resolveFrom x ys).2.1 ∧
    (0 < (g.resolveFrom x ys).2.2 → ∃ y ∈ ys, g.PairBad x y) := by
  intro ys
  induction ys with
  | nil => intro x; exact ⟨.nil, fun h => absurd h (Nat.lt_irrefl 0)⟩
  | cons y ys ih =>
    intro x
    unfold Grammar.resolveFrom
    split
    · rename_i hla
      obtain ⟨k1, k2, k3⟩ := resolveConflict_kept (g := g) x y
      obtain ⟨h1, h2⟩ := ih (g.resolveConflict x y).1
      refine ⟨.cons k2 h1, ?_⟩
      intro hpos
      simp only at hpos
      by_cases hc : (g.resolveConflict x y).2.2 = true
      · exact ⟨y, by simp, k3 hla hc⟩
      · simp only [hc, Bool.toNat_false] at hpos
        obtain ⟨z, hz, hb⟩ := h2 (by simpa using hpos)
        exact ⟨z, by simp [hz], PairBad.kept k1 (.refl z) hb⟩
    · exact ⟨forall₂_kept_refl _, fun h => absurd h (Nat.lt_irrefl 0)⟩

/-- A counted conflict is between two of the actions. -/
theorem resolveL_bad : ∀ (n : Nat) {l l0 : List Action}, l.length = n → List.Forall₂ Kept l0 l → 0 < (g.resolveL l).2 →
    ∃ x y, [x, y].Sublist l0 ∧ g.PairBad x y := by
  intro n
  induction n with
  | zero => intro l l0 h _ h2; rw [List.length_eq_zero_iff] at h; subst h; exact absurd h2 (Nat.lt_irrefl 0)
  | succ n ih =>
    intro l l0 h hk h2
    cases hk with
    | nil => cases h
    | @cons x0 x xs0 xs hx hxs =>
      rw [resolveL_cons] at h2
      simp only at h2
      obtain ⟨h3, h4⟩ := resolveFrom_kept (g := g) xs x
      rcases Nat.eq_zero_or_pos (g.resolveFrom x xs).2.2 with h0 | hpos
      · rw [h0, Nat.zero_add] at h2
        obtain ⟨a, b, hs, hb⟩ := ih (l0 := xs0) (by rw [resolveFrom_len]; simpa using h) (forall₂_kept_trans hxs h3) h2
        exact ⟨a, b, hs.cons _, hb⟩
      · obtain ⟨y, hy, hb⟩ := h4 hpos
        obtain ⟨i, hi, rfl⟩ := List.mem_iff_getElem.1 hy
        rcases forall₂_getElem? hxs i with ⟨_, h5⟩ | ⟨a, b, h5, h6, h7⟩
        · rw [List.getElem?_eq_none_iff] at h5; omega
        · rw [List.getElem?_eq_getElem hi] at h6
          cases h6
          exact ⟨x0, a, (List.singleton_sublist.2 (List.mem_of_getElem? h5)).cons_cons _, PairBad.kept hx h7 hb⟩

/-! ## The actions of a state are all different -/

theorem Grammar.Trans.symbol {q q' k : StateId} {X Y : SymbolId} (h1 : g.Trans sts q X k) (h2 : g.Trans sts q' Y k) : X = Y := by
  obtain ⟨c, hc, hn⟩ := h1.some
  have hm : c.succ ∈ basisOf sts k := (h1.basis _).2 ⟨c, hc, hn, rfl⟩
  obtain ⟨c', hc', hn', he⟩ := (h2.basis _).1 hm
  rw [Item.succ_inj he, hn'] at hn
  cases hn; rfl

theorem nodup_flatMap' {α β : Type} {f : α → List β} : ∀ {l : List α}, (∀ a ∈ l, (f a).Nodup) → l.Pairwise (fun a b => ∀ x ∈ f a, x ∉ f b) →
    (l.flatMap f).Nodup := by
  intro l
  induction l with
  | nil => intro _ _; simp
  | cons a l ih =>
    intro h1 h2
    rw [List.flatMap_cons, List.nodup_append]
    rw [List.pairwise_cons] at h2
    refine ⟨h1 a (by simp), ih (fun x hx => h1 x (by simp [hx])) h2.2, ?_⟩
    rintro x hx y hy rfl
    obtain ⟨b, hb, hy⟩ := List.mem_flatMap.1 hy
    exact h2.1 b hb x hx hy

theorem nodup_reduceActions (hi : GInv g) (ha : Auto g sts) {q : StateId} (hq : q < sts.length) :
    (g.reduceActions (sts.getD q default)).Nodup := by
  unfold Grammar.reduceActions
  have hnd := ha.nodup q hq
  have hin : ∀ j, j < g.numTerminals → ∀ j', j' < g.numTerminals → g.symbols.getD j 0 = g.symbols.getD j' 0 → j = j' := by
    intro j hj j' hj' he
    have hl : ∀ j, j < g.numTerminals → j < g.syms.length := fun j hj =>
      Nat.lt_of_lt_of_le hj (Nat.le_trans hi.nterm.2.1 (Nat.le_of_lt hi.nterm.2.2))
    rw [← (hi.index j (hl j hj)).2, he, (hi.index j' (hl j' hj')).2]
  have hmem : ∀ (c : Cfg) (x : Action), x ∈ (if c.item.dot = (g.rhsSyms c.item.rule).length then
      (List.range g.numTerminals).filterMap (fun j =>
        if c.fws.contains j then some (⟨g.symbols.getD j 0, .reduce c.item.rule⟩ : Action) else none)
      else []) → c.item = ⟨c.item.rule, (g.rhsSyms c.item.rule).length⟩ ∧ x.detail = .reduce c.item.rule := by
    intro c x hx
    split at hx
    · rename_i hd
      obtain ⟨j, _, hj⟩ := List.mem_filterMap.1 hx
      split at hj
      · cases hj; exact ⟨by rw [← hd], rfl⟩
      · cases hj
    · cases hx
  apply nodup_flatMap'
  · intro c _
    split
    · show List.Pairwise _ _
      rw [List.pairwise_filterMap]
      refine (List.nodup_range (n := g.numTerminals)).imp_of_mem ?_
      intro j j' hj hj' hne x hx y hy he
      split at hx
      · split at hy
        · simp only [Option.some.injEq] at hx hy
          subst hx hy
          exact hne (hin j (List.mem_range.1 hj) j' (List.mem_range.1 hj') (congrArg Action.la he))
        · cases hy
      · cases hx
    · simp
  · have hp : (cfgs sts q).Pairwise (fun a b => a.item ≠ b.item) := by
      have := hnd
      unfold items at this
      exact List.pairwise_map.1 this
    refine hp.imp ?_
    intro a b hne x hx hy
    obtain ⟨h1, h2⟩ := hmem a x hx
    obtain ⟨h3, h4⟩ := hmem b x hy
    rw [h2] at h4
    have h4 := Detail.reduce.inj h4
    apply hne
    rw [h1, h3, h4]

theorem nodup_raw (hi : GInv g) (ha : Auto g sts) {q : StateId} (hq : q < sts.length)
    (hs : ∀ X k, g.Trans sts q X k → (g.sym X).subs.Nodup) : (g.rawActions q (sts.getD q default)).Nodup := by
  unfold Grammar.rawActions
  obtain ⟨L, hL1, hL2, hL3, _⟩ := ha.moves q hq
  have hred := nodup_reduceActions hi ha hq
  have hsh : (sts.getD q default).actions.Nodup := by
    have : actsOf sts q = (sts.getD q default).actions := rfl
    rw [← this, hL3]
    apply nodup_flatMap'
    · intro e he
      unfold Grammar.shiftActions
      split
      · exact (hs _ _ (hL2 e he)).map (fun a b h => by cases h; rfl)
      · simp
    · have : L.Pairwise (fun a b => a.1 ≠ b.1) := List.pairwise_map.1 hL1
      refine this.imp_of_mem ?_
      intro e e' he he' hne x hx hx'
      have h1 := (mem_shiftActions.1 hx).1
      rw [(mem_shiftActions.1 hx').1] at h1
      have h1 := Detail.shift.inj h1
      have h2 := hL2 e' he'
      rw [h1] at h2
      exact hne (Grammar.Trans.symbol (hL2 e he) h2)
  have hshm : ∀ x ∈ (sts.getD q default).actions, ∃ k, x.detail = .shift k := by
    intro x hx
    obtain ⟨X, k, _, h⟩ := (ha.mem_acts hq x).1 hx
    exact ⟨k, (mem_shiftActions.1 h).1⟩
  have hredm : ∀ x ∈ g.reduceActions (sts.getD q default), ∃ r, x.detail = .reduce r := by
    intro x hx
    unfold Grammar.reduceActions at hx
    obtain ⟨c, _, hx⟩ := List.mem_flatMap.1 hx
    split at hx
    · obtain ⟨j, _, hj⟩ := List.mem_filterMap.1 hx
      split at hj
      · cases hj; exact ⟨_, rfl⟩
      · cases hj
    · cases hx
  rw [List.nodup_append, List.nodup_append]
  refine ⟨⟨hsh, hred, ?_⟩, by split <;> simp, ?_⟩
  · rintro x hx y hy rfl
    obtain ⟨k, h1⟩ := hshm x hx
    obtain ⟨r, h2⟩ := hredm x hy
    rw [h1] at h2; cases h2
  · rintro x hx y hy rfl
    split at hy
    · rw [List.mem_singleton] at hy
      subst hy
      rcases List.mem_append.1 hx with h | h
      · obtain ⟨_, h⟩ := hshm _ h; cases h
      · obtain ⟨_, h⟩ := hredm _ h; cases h
    · cases hy

/-! ## Reported conflicts -/

theorem reads_iff {X a : SymbolId} {k : StateId} (hk : (g.sym X).kind ≠ .nonTerminal) :
    (⟨a, .shift k⟩ : Action) ∈ g.shiftActions X k ↔ Reads g X a := by
  rw [mem_shiftActions]
  unfold Reads
  cases h : (g.sym X).kind <;> simp_all

theorem path_of_same (hi : GInv g) (ha : Auto g sts) {γ γ' : List SymbolId} {q : StateId} (hp : g.Path sts γ q) (h : SameState g γ γ')
    {it : Item} (hv : Viable g γ' it) : g.Path sts γ' q := by
  obtain ⟨q', hq'⟩ := viable_path hi ha hv
  have : q = q' := by
    apply ha.items_inj hi (Path.lt ha hp) (Path.lt ha hq')
    intro it
    rw [path_items hi ha hp, path_items hi ha hq', h it]
  rw [this]; exact hq'

theorem reducesOn_iff (hi : GInv g) (ha : Auto g sts) {γ : List SymbolId} {q : StateId} (hp : g.Path sts γ q) {a : SymbolId} {r : RuleId} :
    ReducesOn g γ a r ↔ g.CanReduce sts q a r := by
  constructor
  · rintro ⟨h1, h2, γ', h3, h4⟩
    exact ⟨h1, h2, (la_iff hi ha).2 ⟨γ', path_of_same hi ha hp h3 h4.viable, h4⟩⟩
  · rintro ⟨h1, h2, h3⟩
    obtain ⟨γ', h4, h5⟩ := (la_iff hi ha).1 h3
    refine ⟨h1, h2, γ', ?_, h5⟩
    intro it
    rw [← path_items hi ha hp, ← path_items hi ha h4]

theorem shiftsOn_iff (hi : GInv g) (ha : Auto g sts) {γ : List SymbolId} {q : StateId} (hp : g.Path sts γ q) {a X : SymbolId} :
    ShiftsOn g γ a X ↔ (∃ k, g.Trans sts q X k) ∧ Reads g X a := by
  constructor
  · rintro ⟨it, h1, h2, h3⟩
    exact ⟨ha.move (Path.lt ha hp) ((path_items hi ha hp it).2 h1) h2, h3⟩
  · rintro ⟨⟨k, h1⟩, h2⟩
    obtain ⟨c, hc, hn⟩ := h1.some
    exact ⟨c, (path_items hi ha hp c).1 hc, hn, h2⟩

theorem Reads.kind {X a : SymbolId} (h : Reads g X a) : (g.sym X).kind ≠ .nonTerminal := by
  unfold Reads at h
  cases hk : (g.sym X).kind <;> simp_all

/-- A conflict is counted only if there is one. -/
theorem findActions_bad (hi : GInv g) (ha : Auto g sts) {acts : List (List Action)} {n : Nat} (h : g.findActions sts = .ok (acts, n))
    (hpos : 0 < n) : ∃ γ a, Unsettled g γ a := by
  obtain ⟨_, _, h3, _⟩ := findActions_get h
  have : ¬ ∀ q, q < sts.length → (g.resolveState (g.rawActions q (sts.getD q default))).2 = 0 := fun h4 => by
    have := h3.2 h4; omega
  obtain ⟨q, hq⟩ := Classical.not_forall.1 this
  obtain ⟨hq, hn⟩ := Classical.not_imp.1 hq
  obtain ⟨γ, hp⟩ := ha.exists_path q hq
  by_cases hs : ∀ X k, g.Trans sts q X k → (g.sym X).subs.Nodup
  · have hnd := nodup_raw hi ha hq hs
    have hb : ∃ x y, [x, y].Sublist (sortBy g.actionLt (g.rawActions q (sts.getD q default))) ∧ g.PairBad x y :=
      resolveL_bad _ rfl (forall₂_kept_refl _) (Nat.pos_of_ne_zero hn)
    obtain ⟨x, y, hxy, hla, hbad⟩ := hb
    have hne : x ≠ y := by
      have := hxy.nodup (((perm_sortBy _ _).nodup_iff).2 hnd)
      simpa using this
    have hx : x ∈ g.rawActions q (sts.getD q default) := mem_sortBy.1 (hxy.subset (by simp))
    have hy : y ∈ g.rawActions q (sts.getD q default) := mem_sortBy.1 (hxy.subset (by simp))
    rw [mem_rawActions hi ha hq] at hx hy
    refine ⟨γ, x.la, ?_⟩
    rcases hx with ⟨k, ⟨X, hX, hX2⟩, hxd⟩ | ⟨r, hr, hxd⟩ | ⟨_, hxd⟩
    · have hXr := hX.rhs hi ha
      obtain ⟨r0, hr0, hXr⟩ := hXr
      have hXlt := (hi.rhs r0 hr0 X hXr).1
      rcases hy with ⟨k', ⟨Y, hY, hY2⟩, hyd⟩ | ⟨r, hr, hyd⟩ | ⟨_, hyd⟩
      · have hXY : X ≠ Y := by
          rintro rfl
          have := ha.unique hX hY
          subst this
          apply hne
          cases x; cases y; simp_all
        have hkX : (g.sym X).kind ≠ .nonTerminal := by
          intro hk
          rcases (mem_shiftActions.1 hX2).2 with ⟨h4, _⟩ | ⟨_, h4⟩
          · rw [hk] at h4; cases h4
          · simp only at h4
            rcases (mem_shiftActions.1 hY2).2 with ⟨_, h5⟩ | ⟨_, h5⟩
            · simp only at h5
              rw [← hla, h4] at h5
              obtain ⟨ry, hry, hYr⟩ := hY.rhs hi ha
              have h6 := (hi.subs Y (hi.rhs ry hry Y hYr).1 X h5).2
              rcases hi.isTok_kind hXlt h6 with h7 | h7 <;> rw [hk] at h7 <;> cases h7
            · simp only at h5
              exact hXY (by rw [← h4, hla, h5])
        have hkY : (g.sym Y).kind ≠ .nonTerminal := by
          intro hk
          rcases (mem_shiftActions.1 hY2).2 with ⟨h4, _⟩ | ⟨_, h4⟩
          · rw [hk] at h4; cases h4
          · simp only at h4
            rcases (mem_shiftActions.1 hX2).2 with ⟨_, h5⟩ | ⟨_, h5⟩
            · simp only at h5
              rw [hla, h4] at h5
              have h6 := (hi.subs X hXlt Y h5)
              rcases hi.isTok_kind h6.1 h6.2 with h7 | h7 <;> rw [hk] at h7 <;> cases h7
            · simp only at h5
              exact hXY (by rw [← h5, hla, h4])
        exact .shiftShift ((shiftsOn_iff hi ha hp).2 ⟨⟨k, hX⟩, (reads_iff hkX).1 hX2⟩)
          ((shiftsOn_iff hi ha hp).2 ⟨⟨k', hY⟩, (reads_iff hkY).1 (by rw [hla]; exact hY2)⟩) hXY
      · have hkX : (g.sym X).kind ≠ .nonTerminal := by
          intro hk
          rcases (mem_shiftActions.1 hX2).2 with ⟨h4, _⟩ | ⟨_, h4⟩
          · rw [hk] at h4; cases h4
          · simp only at h4
            have := hr.2.1
            rw [← hla, h4, hk] at this
            cases this
        rw [hxd, hyd] at hbad
        exact .shiftReduce ((shiftsOn_iff hi ha hp).2 ⟨⟨k, hX⟩, (reads_iff hkX).1 hX2⟩)
          ((reducesOn_iff hi ha hp).2 (by rw [hla]; exact hr)) hbad
      · rw [hxd, hyd] at hbad; exact absurd hbad (by simp)
    · rcases hy with ⟨k', ⟨Y, hY, hY2⟩, hyd⟩ | ⟨r', hr', hyd⟩ | ⟨_, hyd⟩
      · rw [hxd, hyd] at hbad; exact absurd hbad (by simp)
      · rw [hxd, hyd] at hbad
        refine .reduceReduce ((reducesOn_iff hi ha hp).2 hr) ((reducesOn_iff hi ha hp).2 (by rw [hla]; exact hr')) ?_ hbad
        rintro rfl
        apply hne
        cases x; cases y; simp_all
      · rw [hxd, hyd] at hbad; exact absurd hbad (by simp)
    · rw [hxd] at hbad; exact absurd hbad (by simp)
  · obtain ⟨X, hX⟩ := Classical.not_forall.1 hs
    obtain ⟨k, hX⟩ := Classical.not_forall.1 hX
    obtain ⟨hX, hnd⟩ := Classical.not_imp.1 hX
    obtain ⟨r0, hr0, hXr⟩ := hX.rhs hi ha
    have hXlt := (hi.rhs r0 hr0 X hXr).1
    cases hsub : (g.sym X).subs with
    | nil => rw [hsub] at hnd; simp at hnd
    | cons a as =>
      have hk := hi.subsKind X hXlt (by rw [hsub]; simp)
      refine ⟨γ, a, .repeated ((shiftsOn_iff hi ha hp).2 ⟨⟨k, hX⟩, ?_⟩) hnd⟩
      unfold Reads
      rw [hk, hsub]
      simp

theorem Grammar.Outcome.short {s : SymbolId} {sh : List StateId} {rd : List RuleId} {l : List Detail} (h : g.Outcome s sh rd l) : sh.length ≤ 1 := by
  cases h with
  | nothing h _ => rw [h]; simp
  | shift h _ => rw [h]; simp
  | reduce _ h _ _ => exact h
  | error h _ _ _ _ _ => rw [h]; simp

theorem raw_count (hi : GInv g) (ha : Auto g sts) (hl : g.Levels) (hn : g.NoStart) {acts : List (List Action)}
    (h : g.findActions sts = .ok (acts, 0)) {q : StateId} (hq : q < sts.length) (s : SymbolId) (k : StateId) :
    (g.rawActions q (sts.getD q default)).count ⟨s, .shift k⟩ ≤ 1 := by
  by_cases hm : (⟨s, .shift k⟩ : Action) ∈ g.rawActions q (sts.getD q default)
  · obtain ⟨h1, h2, h3, h4⟩ := findActions_get h
    have h3 := h3.1 rfl
    obtain ⟨a1, a2⟩ := resolveL_onSym (g := g) _ (Nat.le_refl _) (sorted_raw hi ha hq)
    have h5 := a2.1 (h3 q hq) s
    have hs : s ≠ g.start.getD 0 := by
      rw [mem_rawActions hi ha hq] at hm
      rcases hm with ⟨k', h, _⟩ | ⟨r, h, e⟩ | ⟨h0, h⟩
      · exact Grammar.CanShift.ne_start hi ha hn h
      · cases e
      · cases h
    obtain ⟨sh, rd, e1, e2, e3⟩ := group_shape (g := g) (raw := g.rawActions q (sts.getD q default)) (s := s) (by
      intro a hm he
      rw [mem_rawActions hi ha hq] at hm
      rcases hm with ⟨k, _, h⟩ | ⟨r, _, h⟩ | ⟨h0, h⟩
      · exact .inl ⟨k, h⟩
      · exact .inr ⟨r, h⟩
      · rw [h] at he; exact absurd he.symm hs)
    rw [e1] at h5
    have h6 := (resolve_group hl h5).short
    have h7 : (g.rawActions q (sts.getD q default)).count ⟨s, .shift k⟩ = (onSym s (sortBy g.actionLt (g.rawActions q (sts.getD q default)))).count ⟨s, .shift k⟩ := by
      unfold onSym
      rw [List.count_filter (by simp)]
      exact ((perm_sortBy _ _).count_eq _).symm
    rw [h7, e1, List.count_append]
    have h8 : (rd.map (fun r => (⟨s, .reduce r⟩ : Action))).count ⟨s, .shift k⟩ = 0 := by
      rw [List.count_eq_zero]
      intro h; obtain ⟨_, _, h⟩ := List.mem_map.1 h; cases h
    rw [h8]
    exact Nat.le_trans List.count_le_length (by simpa using h6)
  · rw [List.count_eq_zero.2 hm]; omega

/-- No conflict counted: all that precedences leave open are equal non-associative ones. -/
theorem findActions_good (hi : GInv g) (ha : Auto g sts) (hl : g.Levels) (hn : g.NoStart) {acts : List (List Action)}
    (h : g.findActions sts = .ok (acts, 0)) {γ : List SymbolId} {a : SymbolId} (hu : Unsettled g γ a) :
    ∃ r r' p q, ReducesOn g γ a r ∧ ReducesOn g γ a r' ∧ r ≠ r' ∧ (g.rule r).precedence = some p ∧ (g.rule r').precedence = some q ∧
      p.level = q.level ∧ p.assoc = .none := by
  have hspec := findActions_spec hi ha hl hn h
  have hpath : ∃ it, Viable g γ it := by
    cases hu with
    | shiftShift h _ _ => obtain ⟨it, h, _⟩ := h; exact ⟨it, h⟩
    | repeated h _ => obtain ⟨it, h, _⟩ := h; exact ⟨it, h⟩
    | shiftReduce h _ _ => obtain ⟨it, h, _⟩ := h; exact ⟨it, h⟩
    | reduceReduce h _ _ _ =>
      obtain ⟨_, _, γ', h1, h2⟩ := h
      exact ⟨_, (h1 _).2 h2.viable⟩
  obtain ⟨it, hit⟩ := hpath
  obtain ⟨q, hp⟩ := viable_path hi ha hit
  have hq := Path.lt ha hp
  have hsh : ∀ {X}, ShiftsOn g γ a X → ∃ k, g.Trans sts q X k ∧ g.CanShift sts q a k := by
    intro X hX
    obtain ⟨⟨k, h1⟩, h2⟩ := (shiftsOn_iff hi ha hp).1 hX
    exact ⟨k, h1, X, h1, (reads_iff (Reads.kind h2)).2 h2⟩
  have hst : a ≠ g.start.getD 0 := by
    have : (∃ X, ShiftsOn g γ a X) ∨ ∃ r, ReducesOn g γ a r := by
      cases hu with
      | shiftShift h _ _ => exact .inl ⟨_, h⟩
      | repeated h _ => exact .inl ⟨_, h⟩
      | shiftReduce h _ _ => exact .inl ⟨_, h⟩
      | reduceReduce h _ _ _ => exact .inr ⟨_, h⟩
    rcases this with ⟨X, hX⟩ | ⟨r, hr⟩
    · obtain ⟨k, _, h1⟩ := hsh hX
      exact Grammar.CanShift.ne_start hi ha hn h1
    · rintro rfl
      have := hr.2.1
      rw [hi.start_kind.1] at this; cases this
  obtain ⟨sh, rd, hs1, hs2, ho⟩ := hspec.out q hq a (.inr hst)
  have hlen := ho.short
  generalize lives (onSym a (acts.getD q [])) = lv at ho
  -- every action of a group of two has a precedence
  have hall : ∀ r ∈ rd, (sh ≠ [] ∨ ∃ r' ∈ rd, r' ≠ r) → (g.rule r).precedence ≠ none := by
    intro r hr hex
    cases ho with
    | nothing _ h => rw [h] at hr; cases hr
    | shift _ h2 => obtain ⟨_, _, _, h3, _⟩ := h2 r hr; rw [h3]; simp
    | reduce h1 h2 h3 h4 =>
      rename_i r0
      rcases h4 r hr with rfl | ⟨_, _, _, h5, _⟩ | ⟨_, _, _, _, h5, _⟩
      · rcases hex with hex | ⟨r', hr', hne⟩
        · obtain ⟨_, _, _, h5, _⟩ := h3 hex; rw [h5]; simp
        · rcases h4 r' hr' with h | ⟨_, _, h5, _⟩ | ⟨h6, _⟩
          · exact absurd h hne
          · rw [h5]; simp
          · obtain ⟨_, _, _, h5, _⟩ := h3 h6; rw [h5]; simp
      · rw [h5]; simp
      · rw [h5]; simp
    | error h1 h2 h3 h4 h5 h6 =>
      rename_i k r0 c
      rcases h6 r hr with rfl | ⟨_, _, _, h7, _⟩ | ⟨_, _, _, h7, _⟩
      · rcases h5 with rfl | ⟨_, _, h7, _⟩
        · obtain ⟨_, _, _, h7, _⟩ := h4; rw [h7]; simp
        · rw [h7]; simp
      · rw [h7]; simp
      · rw [h7]; simp
  have htok : sh ≠ [] → (∃ r, r ∈ rd) → (g.sym a).precedence ≠ none := by
    rintro hne ⟨r, hr⟩
    cases ho with
    | nothing h _ => exact absurd h hne
    | shift _ h2 => obtain ⟨_, _, h3, _⟩ := h2 r hr; rw [h3]; simp
    | reduce _ _ h3 _ => obtain ⟨_, _, h3, _⟩ := h3 hne; rw [h3]; simp
    | error _ _ _ h4 _ _ => obtain ⟨_, _, h3, _⟩ := h4; rw [h3]; simp
  cases hu with
  | @shiftShift X Y hX hY hne =>
    exfalso
    obtain ⟨k, h1, h2⟩ := hsh hX
    obtain ⟨k', h3, h4⟩ := hsh hY
    have e1 := (hs1 k).2 h2
    have e2 := (hs1 k').2 h4
    match sh, hlen with
    | [x], _ =>
      rw [List.mem_singleton] at e1 e2
      rw [e1] at h1; rw [e2] at h3
      exact hne (Grammar.Trans.symbol h1 h3)
    | [], _ => cases e1
  | @repeated X hX hnd =>
    exfalso
    obtain ⟨⟨k, h1⟩, h2⟩ := (shiftsOn_iff hi ha hp).1 hX
    obtain ⟨m, hm⟩ : ∃ m, 2 ≤ (g.sym X).subs.count m := by
      apply Classical.byContradiction
      intro hne
      apply hnd
      rw [List.nodup_iff_count]
      intro m
      apply Classical.byContradiction
      intro h3
      exact hne ⟨m, by omega⟩
    have hmem : m ∈ (g.sym X).subs := List.count_pos_iff.1 (by omega)
    obtain ⟨r0, hr0, hXr⟩ := h1.rhs hi ha
    have hk := hi.subsKind X (hi.rhs r0 hr0 X hXr).1 (by intro h; rw [h] at hmem; cases hmem)
    have h4 := raw_count hi ha hl hn h hq m k
    have h5 : (g.shiftActions X k).count ⟨m, .shift k⟩ = (g.sym X).subs.count m := by
      unfold Grammar.shiftActions
      rw [hk]
      simp only
      generalize (g.sym X).subs = l
      induction l with
      | nil => rfl
      | cons x l ih =>
        rw [List.map_cons, List.count_cons, List.count_cons, ih]
        by_cases e : x = m
        · subst e; simp
        · have : (⟨x, .shift k⟩ : Action) ≠ ⟨m, .shift k⟩ := fun h => e (congrArg Action.la h)
          simp [e, this]
    obtain ⟨L, hL1, hL2, hL3, hL4⟩ := ha.moves q hq
    obtain ⟨c, hc, hcn⟩ := h1.some
    obtain ⟨e, he, he1⟩ := List.mem_map.1 (hL4 c hc X hcn)
    have he2 : e.2 = k := by
      have := hL2 e he
      rw [he1] at this
      exact ha.unique this h1
    have h6 : (g.shiftActions X k).Sublist (actsOf sts q) := by
      rw [hL3]
      have : g.shiftActions X k = g.shiftActions e.1 e.2 := by rw [he1, he2]
      rw [this]
      obtain ⟨l1, l2, hL⟩ := List.append_of_mem he
      rw [hL, List.flatMap_append, List.flatMap_cons]
      exact (List.sublist_append_left _ _).trans (List.sublist_append_right _ _)
    have h7 : (actsOf sts q).Sublist (g.rawActions q (sts.getD q default)) := by
      unfold Grammar.rawActions
      rw [List.append_assoc]
      exact List.sublist_append_left _ _
    have := (h6.trans h7).count_le (⟨m, .shift k⟩ : Action)
    omega
  | @shiftReduce X r hX hr hnp =>
    exfalso
    obtain ⟨k, h1, h2⟩ := hsh hX
    have e1 := (hs1 k).2 h2
    have e2 := (hs2 r).2 ((reducesOn_iff hi ha hp).1 hr)
    have hne : sh ≠ [] := fun h => by rw [h] at e1; cases e1
    rcases hnp with hnp | hnp
    · exact htok hne ⟨r, e2⟩ hnp
    · exact hall r e2 (.inl hne) hnp
  | @reduceReduce r r' hr hr' hne hnp =>
    have e1 := (hs2 r).2 ((reducesOn_iff hi ha hp).1 hr)
    have e2 := (hs2 r').2 ((reducesOn_iff hi ha hp).1 hr')
    rcases hnp with hnp | hnp | ⟨p, q, h1, h2, h3, h4⟩
    · exact absurd hnp (hall r e1 (.inr ⟨r', e2, fun e => hne e.symm⟩))
    · exact absurd hnp (hall r' e2 (.inr ⟨r, e1, hne⟩))
    · exact ⟨r, r', p, q, hr, hr', hne, h1, h2, h3, h4⟩

end Pomelo
