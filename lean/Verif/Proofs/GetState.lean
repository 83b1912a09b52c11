import Verif.Proofs.Closure
/-! # The LR(0) states built by `get_state` -/

namespace Pomelo

open Spec

/-- Configurations of a state -/
def cfgs (sts : List LState) (q : StateId) : List Cfg := (sts.getD q default).configs
/-- Basis of a state -/
def basisOf (sts : List LState) (q : StateId) : List Item := (sts.getD q default).basis
/-- Shift actions of a state -/
def actsOf (sts : List LState) (q : StateId) : List Action := (sts.getD q default).actions

/-- The item with the dot moved over one symbol -/
def Item.succ (c : Item) : Item := ⟨c.rule, c.dot + 1⟩

theorem Item.succ_inj {a b : Item} (h : a.succ = b.succ) : a = b := by
  cases a; cases b
  simp only [Item.succ, Item.mk.injEq, Nat.add_right_cancel_iff] at h
  rw [h.1, h.2]

/-- Items of `q` with the dot moved over `sp` -/
def Grammar.Succs (g : Grammar) (sts : List LState) (q : StateId) (sp : SymbolId) (it : Item) : Prop :=
  ∃ c ∈ items (cfgs sts q), g.next c = some sp ∧ it = c.succ

/-- `k` is the state reached from `q` over `sp` -/
structure Grammar.Trans (g : Grammar) (sts : List LState) (q : StateId) (sp : SymbolId) (k : StateId) : Prop where
  src : q < sts.length
  dst : k < sts.length
  some : ∃ c ∈ items (cfgs sts q), g.next c = some sp
  basis : ∀ it, it ∈ basisOf sts k ↔ g.Succs sts q sp it

/-- Later lists of states: states are only added, and back links grow -/
structure Grow (sts sts' : List LState) : Prop where
  len : sts.length ≤ sts'.length
  basis : ∀ q, q < sts.length → basisOf sts' q = basisOf sts q
  items : ∀ q, q < sts.length → items (cfgs sts' q) = items (cfgs sts q)
  fw : ∀ q, q < sts.length → ∀ it n, HasFw (cfgs sts' q) it n ↔ HasFw (cfgs sts q) it n
  fp : ∀ q, q < sts.length → ∀ it l, HasFp (cfgs sts' q) it l ↔ HasFp (cfgs sts q) it l
  bp : ∀ q, q < sts.length → ∀ it l, HasBp (cfgs sts q) it l → HasBp (cfgs sts' q) it l

/-- `Grow`, and the shift actions of the existing states stay -/
structure Ext (sts sts' : List LState) : Prop extends Grow sts sts' where
  acts : ∀ q, q < sts.length → actsOf sts' q = actsOf sts q

theorem Grow.refl (sts : List LState) : Grow sts sts :=
  ⟨Nat.le_refl _, fun _ _ => rfl, fun _ _ => rfl, fun _ _ _ _ => Iff.rfl, fun _ _ _ _ => Iff.rfl, fun _ _ _ _ => id⟩

theorem Grow.trans {a b c : List LState} (h1 : Grow a b) (h2 : Grow b c) : Grow a c where
  len := Nat.le_trans h1.len h2.len
  basis := fun q hq => (h2.basis q (Nat.lt_of_lt_of_le hq h1.len)).trans (h1.basis q hq)
  items := fun q hq => (h2.items q (Nat.lt_of_lt_of_le hq h1.len)).trans (h1.items q hq)
  fw := fun q hq it n => (h2.fw q (Nat.lt_of_lt_of_le hq h1.len) it n).trans (h1.fw q hq it n)
  fp := fun q hq it n => (h2.fp q (Nat.lt_of_lt_of_le hq h1.len) it n).trans (h1.fp q hq it n)
  bp := fun q hq it l h => h2.bp q (Nat.lt_of_lt_of_le hq h1.len) it l (h1.bp q hq it l h)

theorem Ext.refl (sts : List LState) : Ext sts sts := ⟨.refl _, fun _ _ => rfl⟩

theorem Ext.trans {a b c : List LState} (h1 : Ext a b) (h2 : Ext b c) : Ext a c :=
  ⟨h1.toGrow.trans h2.toGrow, fun q hq => (h2.acts q (Nat.lt_of_lt_of_le hq h1.len)).trans (h1.acts q hq)⟩

theorem Grow.succs {g : Grammar} {a b : List LState} (h : Grow a b) {q : StateId} (hq : q < a.length) {sp : SymbolId} {it : Item} :
    g.Succs b q sp it ↔ g.Succs a q sp it := by
  unfold Grammar.Succs
  rw [h.items q hq]

theorem Grow.transB {g : Grammar} {a b : List LState} (h : Grow a b) {q k : StateId} {sp : SymbolId} (ht : g.Trans a q sp k) :
    g.Trans b q sp k where
  src := Nat.lt_of_lt_of_le ht.src h.len
  dst := Nat.lt_of_lt_of_le ht.dst h.len
  some := by rw [h.items q ht.src]; exact ht.some
  basis := by intro it; rw [h.basis k ht.dst, h.succs ht.src]; exact ht.basis it

/-- What is known of the configurations of a state -/
structure Built (g : Grammar) (sts : List LState) (q : StateId) : Prop where
  nodup : (items (cfgs sts q)).Nodup
  sorted : (basisOf sts q).Pairwise (fun a b => a.lt b = true)
  sub : ∀ it ∈ basisOf sts q, it ∈ items (cfgs sts q)
  closed : ∀ c ∈ items (cfgs sts q), ∀ r', g.Step c r' → (⟨r', 0⟩ : Item) ∈ items (cfgs sts q)
  just : ∀ it ∈ items (cfgs sts q), g.Just (basisOf sts q) it
  fws : ∀ it n, HasFw (cfgs sts q) it n ↔ (q = 0 ∧ it ∈ basisOf sts q ∧ n = 0) ∨
    ∃ c ∈ items (cfgs sts q), ∃ r', g.Step c r' ∧ it = ⟨r', 0⟩ ∧ n ∈ (g.followOf (g.after c)).1
  fplp : ∀ it l, HasFp (cfgs sts q) it l ↔
    (it ∈ items (cfgs sts q) ∧ (g.followOf (g.after it)).2 = false ∧ ∃ r', g.Step it r' ∧ l = ⟨q, ⟨r', 0⟩⟩)
  ok : ∀ c ∈ items (cfgs sts q), g.NextOk c

theorem Grow.built {g : Grammar} {a b : List LState} (h : Grow a b) {q : StateId} (hq : q < a.length) (hb : Built g a q) :
    Built g b q where
  nodup := by rw [h.items q hq]; exact hb.nodup
  sorted := by rw [h.basis q hq]; exact hb.sorted
  sub := by rw [h.basis q hq, h.items q hq]; exact hb.sub
  closed := by rw [h.items q hq]; exact hb.closed
  just := by rw [h.basis q hq, h.items q hq]; exact hb.just
  fws := by rw [h.basis q hq, h.items q hq]; intro it n; rw [h.fw q hq]; exact hb.fws it n
  fplp := by rw [h.items q hq]; intro it l; rw [h.fp q hq]; exact hb.fplp it l
  ok := by rw [h.items q hq]; exact hb.ok

/-- Invariant of the list of states; `S` are the rules of the start symbol -/
structure SInv (g : Grammar) (S : List RuleId) (sts : List LState) : Prop where
  built : ∀ q, q < sts.length → Built g sts q
  distinct : ∀ q q', q < sts.length → q' < sts.length → basisOf sts q = basisOf sts q' → q = q'
  links : ∀ q, q < sts.length → ∀ it l, HasBp (cfgs sts q) it l →
    ∃ sp, g.Trans sts l.state sp q ∧ l.item ∈ items (cfgs sts l.state) ∧ g.next l.item = some sp ∧ it = l.item.succ
  reach : ∀ q, q < sts.length → q = 0 ∨ ∃ p sp, p < q ∧ g.Trans sts p sp q
  zero : 0 < sts.length → ∀ it, it ∈ basisOf sts 0 ↔ ∃ r ∈ S, it = ⟨r, 0⟩

/-- What `get_state` is called with -/
structure CurOk (g : Grammar) (S : List RuleId) (sts : List LState) (cur : List Cfg) : Prop where
  nodup : (items cur).Nodup
  fplp : ∀ it l, ¬ HasFp cur it l
  src : (sts = [] ∧ (∀ it, it ∈ items cur ↔ ∃ r ∈ S, it = ⟨r, 0⟩) ∧ (∀ it n, HasFw cur it n ↔ it ∈ items cur ∧ n = 0) ∧
      ∀ it l, ¬ HasBp cur it l) ∨
    ∃ p sp, p < sts.length ∧ (∃ c ∈ items (cfgs sts p), g.next c = some sp) ∧ (∀ it, it ∈ items cur ↔ g.Succs sts p sp it) ∧
      (∀ it n, ¬ HasFw cur it n) ∧
      ∀ it l, HasBp cur it l ↔ ∃ c ∈ items (cfgs sts p), g.next c = some sp ∧ it = c.succ ∧ l = ⟨p, c⟩

/-- Shift actions and links of a finished state: `L` lists its transitions -/
structure Moves (g : Grammar) (sts : List LState) (q : StateId) (L : List (SymbolId × StateId)) : Prop where
  nodup : (L.map Prod.fst).Nodup
  trans : ∀ e ∈ L, g.Trans sts q e.1 e.2
  back : ∀ e ∈ L, ∀ c ∈ items (cfgs sts q), g.next c = some e.1 → HasBp (cfgs sts e.2) c.succ ⟨q, c⟩

/-- A finished state -/
def Done (g : Grammar) (sts : List LState) (q : StateId) : Prop :=
  ∃ L, Moves g sts q L ∧ actsOf sts q = L.flatMap (fun e => g.shiftActions e.1 e.2) ∧
    ∀ c ∈ items (cfgs sts q), ∀ sp, g.next c = some sp → sp ∈ L.map Prod.fst

theorem Moves.grow {g : Grammar} {a b : List LState} (h : Grow a b) {q : StateId} (hq : q < a.length) {L} (hm : Moves g a q L) :
    Moves g b q L where
  nodup := hm.nodup
  trans := fun e he => h.transB (hm.trans e he)
  back := by
    intro e he
    rw [h.items q hq]
    intro c hc hn
    exact h.bp _ (hm.trans e he).dst _ _ (hm.back e he c hc hn)

theorem Done.ext {g : Grammar} {a b : List LState} (h : Ext a b) {q : StateId} (hq : q < a.length) (hd : Done g a q) : Done g b q := by
  obtain ⟨L, h1, h2, h3⟩ := hd
  exact ⟨L, h1.grow h.toGrow hq, by rw [h.acts q hq, h2], by rw [h.items q hq]; exact h3⟩

/-- What `get_state` does -/
structure GetPost (g : Grammar) (S : List RuleId) (sts : List LState) (cur : List Cfg) (sts' : List LState) (k : StateId) : Prop where
  inv : SInv g S sts'
  ext : Ext sts sts'
  lt : k < sts'.length
  basis : ∀ it, it ∈ basisOf sts' k ↔ it ∈ items cur
  back : ∀ it l, HasBp cur it l → HasBp (cfgs sts' k) it l
  done : ∀ q, sts.length ≤ q → q < sts'.length → Done g sts' q

/-! ## Views -/

theorem cfgs_modify (sts : List LState) (k : Nat) (f : LState → LState) (q : StateId) :
    cfgs (sts.modify k f) q = if k = q ∧ q < sts.length then (f (sts.getD q default)).configs else cfgs sts q := by
  unfold cfgs
  rw [getD_modify]
  split <;> rfl

theorem basisOf_modify (sts : List LState) (k : Nat) (f : LState → LState) (hf : ∀ st, (f st).basis = st.basis) (q : StateId) :
    basisOf (sts.modify k f) q = basisOf sts q := by
  unfold basisOf
  rw [getD_modify]
  split
  · rw [hf]
  · rfl

theorem actsOf_modify (sts : List LState) (k : Nat) (f : LState → LState) (hf : ∀ st, (f st).actions = st.actions) (q : StateId) :
    actsOf (sts.modify k f) q = actsOf sts q := by
  unfold actsOf
  rw [getD_modify]
  split
  · rw [hf]
  · rfl

theorem mergeBack_spec (bp : List Cfg) : ∀ st : LState,
    (mergeBack st bp).basis = st.basis ∧ (mergeBack st bp).actions = st.actions ∧
    items (mergeBack st bp).configs = items st.configs ∧
    (∀ it n, HasFw (mergeBack st bp).configs it n ↔ HasFw st.configs it n) ∧
    (∀ it n, HasFp (mergeBack st bp).configs it n ↔ HasFp st.configs it n) ∧
    (∀ it l, HasBp (mergeBack st bp).configs it l ↔ HasBp st.configs it l ∨
      (it ∈ items st.configs ∧ HasBp bp it l)) := by
  induction bp with
  | nil =>
    intro st
    refine ⟨rfl, rfl, rfl, fun _ _ => Iff.rfl, fun _ _ => Iff.rfl, ?_⟩
    intro it l
    constructor
    · exact .inl
    · rintro (h | ⟨_, c, h, _⟩)
      · exact h
      · cases h
  | cons x bp ih =>
    intro st
    unfold mergeBack
    rw [List.foldl_cons]
    obtain ⟨h1, h2, h3, h4, h5, h6⟩ := ih { st with configs := modifyCfg st.configs x.item (fun y => { y with bplp := y.bplp ++ x.bplp }) }
    unfold mergeBack at h1 h2 h3 h4 h5 h6
    refine ⟨h1, h2, ?_, ?_, ?_, ?_⟩
    · rw [h3]; exact items_bplp _
    · intro it n; rw [h4]; exact hasFw_bplp _
    · intro it n; rw [h5]; exact hasFp_bplp _
    · intro it l
      rw [h6, items_bplp, hasBp_append, or_assoc]
      refine or_congr_right ?_
      constructor
      · rintro (⟨rfl, h7, h8⟩ | ⟨h7, c, h8, h9⟩)
        · exact ⟨h7, x, by simp, rfl, h8⟩
        · exact ⟨h7, c, by simp [h8], h9⟩
      · rintro ⟨h7, c, h8, h9, h10⟩
        rcases List.mem_cons.1 h8 with rfl | h8
        · left; exact ⟨h9.symm, by rw [h9]; exact h7, h10⟩
        · right; exact ⟨h7, c, h8, h9, h10⟩

theorem mem_sortCfgs {l : List Cfg} {c : Cfg} : c ∈ sortCfgs l ↔ c ∈ l := mem_sortBy

theorem hasFw_sort {l : List Cfg} {it : Item} {n : Nat} : HasFw (sortCfgs l) it n ↔ HasFw l it n := by
  unfold HasFw; simp only [mem_sortCfgs]
theorem hasFp_sort {l : List Cfg} {it : Item} {n : CRef} : HasFp (sortCfgs l) it n ↔ HasFp l it n := by
  unfold HasFp; simp only [mem_sortCfgs]
theorem hasBp_sort {l : List Cfg} {it : Item} {n : CRef} : HasBp (sortCfgs l) it n ↔ HasBp l it n := by
  unfold HasBp; simp only [mem_sortCfgs]
theorem items_sort_perm (l : List Cfg) : (items (sortCfgs l)).Perm (items l) := (perm_sortBy _ l).map _
theorem mem_items_sort {l : List Cfg} {it : Item} : it ∈ items (sortCfgs l) ↔ it ∈ items l := (items_sort_perm l).mem_iff

theorem Item.lt_trans {a b c : Item} (h1 : a.lt b = true) (h2 : b.lt c = true) : a.lt c = true := by
  simp only [Item.lt, Bool.or_eq_true, decide_eq_true_eq, Bool.and_eq_true, beq_iff_eq] at *
  rcases h1 with h1 | ⟨h1, h1'⟩ <;> rcases h2 with h2 | ⟨h2, h2'⟩
  · exact .inl (Nat.lt_trans h1 h2)
  · exact .inl (by rw [← h2]; exact h1)
  · exact .inl (by rw [h1]; exact h2)
  · exact .inr ⟨h1.trans h2, Nat.lt_trans h1' h2'⟩

theorem Item.lt_irrefl (a : Item) : a.lt a = false := by simp [Item.lt]

theorem Item.lt_total {a b : Item} (h : a ≠ b) : a.lt b = true ∨ b.lt a = true := by
  simp only [Item.lt, Bool.or_eq_true, decide_eq_true_eq, Bool.and_eq_true, beq_iff_eq]
  rcases Nat.lt_trichotomy a.rule b.rule with h1 | h1 | h1
  · exact .inl (.inl h1)
  · rcases Nat.lt_trichotomy a.dot b.dot with h2 | h2 | h2
    · exact .inl (.inr ⟨h1, h2⟩)
    · exact absurd (by cases a; cases b; simp_all) h
    · exact .inr (.inr ⟨h1.symm, h2⟩)
  · exact .inr (.inl h1)

theorem sorted_sortCfgs {l : List Cfg} (hn : (items l).Nodup) : (items (sortCfgs l)).Pairwise (fun a b => a.lt b = true) := by
  have hp : (sortCfgs l).Pairwise (fun a b => b.item.lt a.item = false) := by
    refine pairwise_sortBy (R := fun a b : Cfg => b.item.lt a.item = false) ?_ ?_ ?_ l
    · intro a b c h1 h2
      cases hh : c.item.lt a.item with
      | false => rfl
      | true =>
        by_cases hab : a.item = b.item
        · rw [← hab] at h2; rw [hh] at h2; cases h2
        · rcases Item.lt_total hab with h3 | h3
          · have := Item.lt_trans hh h3
            rw [h2] at this; cases this
          · rw [h1] at h3; cases h3
    · intro a b h
      cases hh : b.item.lt a.item with
      | false => rfl
      | true =>
        have := Item.lt_trans h hh
        rw [Item.lt_irrefl] at this; cases this
    · intro a b h; exact h
  have hn2 : (items (sortCfgs l)).Nodup := (items_sort_perm l).nodup_iff.2 hn
  have hp2 : (items (sortCfgs l)).Pairwise (fun a b => b.lt a = false) := List.pairwise_map.2 hp
  refine (List.Pairwise.and hp2 hn2).imp ?_
  rintro a b ⟨h1, h2⟩
  rcases Item.lt_total h2 with h | h
  · exact h
  · rw [h1] at h; cases h

/-- A sorted list is determined by its elements. -/
theorem sorted_ext : ∀ {l1 l2 : List Item}, l1.Pairwise (fun a b => a.lt b = true) → l2.Pairwise (fun a b => a.lt b = true) →
    (∀ x, x ∈ l1 ↔ x ∈ l2) → l1 = l2 := by
  intro l1
  induction l1 with
  | nil =>
    intro l2 _ _ h
    cases l2 with
    | nil => rfl
    | cons y l2 => exact absurd ((h y).2 (by simp)) (by simp)
  | cons x l1 ih =>
    intro l2 h1 h2 h
    cases l2 with
    | nil => exact absurd ((h x).1 (by simp)) (by simp)
    | cons y l2 =>
      rw [List.pairwise_cons] at h1 h2
      have hxy : x = y := by
        by_contra hne
        have hx : x ∈ l2 := by
          have := (h x).1 (by simp)
          rcases List.mem_cons.1 this with h | h
          · exact absurd h hne
          · exact h
        have hy : y ∈ l1 := by
          have := (h y).2 (by simp)
          rcases List.mem_cons.1 this with h | h
          · exact absurd h.symm hne
          · exact h
        have := Item.lt_trans (h1.1 y hy) (h2.1 x hx)
        rw [Item.lt_irrefl] at this; cases this
      subst hxy
      congr 1
      refine ih h1.2 h2.2 ?_
      intro z
      have h3 := h z
      simp only [List.mem_cons] at h3
      constructor
      · intro hz
        rcases h3.1 (.inr hz) with rfl | h4
        · have := h1.1 z hz; rw [Item.lt_irrefl] at this; cases this
        · exact h4
      · intro hz
        rcases h3.2 (.inr hz) with rfl | h4
        · have := h2.1 z hz; rw [Item.lt_irrefl] at this; cases this
        · exact h4

/-! ## Existing state -/

theorem getState_found {g : Grammar} {S : List RuleId} {sts : List LState} {cur : List Cfg} (hi : SInv g S sts) (hc : CurOk g S sts cur)
    {k : Nat} (hk : sts.findIdx? (fun s => s.basis = (sortCfgs cur).map (·.item)) = some k) :
    GetPost g S sts cur (sts.modify k (fun st => mergeBack st (sortCfgs cur))) k := by
  obtain ⟨hlt, hb, _⟩ := List.findIdx?_eq_some_iff_getElem.1 hk
  have hbk : basisOf sts k = items (sortCfgs cur) := by
    unfold basisOf
    rw [getD_of_lt hlt]
    simpa using hb
  have hms := fun st => mergeBack_spec (sortCfgs cur) st
  have hcf : ∀ q, cfgs (sts.modify k (fun st => mergeBack st (sortCfgs cur))) q =
      if k = q ∧ q < sts.length then (mergeBack (sts.getD q default) (sortCfgs cur)).configs else cfgs sts q :=
    fun q => cfgs_modify _ _ _ _
  generalize hsts' : sts.modify k (fun st => mergeBack st (sortCfgs cur)) = sts' at hcf
  have hlen : sts'.length = sts.length := by rw [← hsts']; simp
  have hbasis : ∀ q, basisOf sts' q = basisOf sts q := by
    intro q; rw [← hsts']; exact basisOf_modify _ _ _ (fun st => (hms st).1) q
  have hacts : ∀ q, actsOf sts' q = actsOf sts q := by
    intro q; rw [← hsts']; exact actsOf_modify _ _ _ (fun st => (hms st).2.1) q
  have hitems : ∀ q, items (cfgs sts' q) = items (cfgs sts q) := by
    intro q
    rw [hcf]
    split
    · rw [(hms _).2.2.1]; rfl
    · rfl
  have hbp : ∀ q it l, HasBp (cfgs sts' q) it l ↔ HasBp (cfgs sts q) it l ∨ (q = k ∧ it ∈ items (cfgs sts q) ∧ HasBp cur it l) := by
    intro q it l
    rw [hcf]
    split
    · rename_i hh
      obtain ⟨rfl, _⟩ := hh
      rw [(hms _).2.2.2.2.2, hasBp_sort]
      simp [cfgs]
    · rename_i hh
      have : ¬ (q = k) := by
        rintro rfl; exact hh ⟨rfl, hlt⟩
      simp [this]
  have hext : Ext sts sts' := by
    refine ⟨⟨Nat.le_of_eq hlen.symm, fun q _ => hbasis q, fun q _ => hitems q, ?_, ?_, ?_⟩, fun q _ => hacts q⟩
    · intro q _ it n
      rw [hcf]
      split
      · rw [(hms _).2.2.2.1]; rfl
      · rfl
    · intro q _ it n
      rw [hcf]
      split
      · rw [(hms _).2.2.2.2.1]; rfl
      · rfl
    · intro q _ it l h; rw [hbp]; exact .inl h
  refine ⟨⟨?_, ?_, ?_, ?_, ?_⟩, hext, by rw [hlen]; exact hlt, ?_, ?_, ?_⟩
  · intro q hq; exact hext.built (by rw [← hlen]; exact hq) (hi.built q (by rw [← hlen]; exact hq))
  · intro q q' h1 h2 h3
    rw [hbasis, hbasis] at h3
    exact hi.distinct q q' (by rw [← hlen]; exact h1) (by rw [← hlen]; exact h2) h3
  · intro q hq it l hl
    rw [hbp] at hl
    rcases hl with hl | ⟨rfl, _, hl⟩
    · obtain ⟨sp, h1, h2, h3⟩ := hi.links q (by rw [← hlen]; exact hq) it l hl
      exact ⟨sp, hext.transB h1, by rw [hitems]; exact h2, h3⟩
    · rcases hc.src with ⟨h0, _⟩ | ⟨p, sp, hp, hsome, hit, _, hback⟩
      · rw [h0] at hlt; simp at hlt
      · obtain ⟨c, h1, h2, h3, h4⟩ := (hback it l).1 hl
        subst h4
        have ht : g.Trans sts p sp q := ⟨hp, hlt, hsome, fun it => by rw [hbk, mem_items_sort]; exact hit it⟩
        exact ⟨sp, hext.transB ht, by rw [hitems]; exact h1, h2, h3⟩
  · intro q hq
    rcases hi.reach q (by rw [← hlen]; exact hq) with h | ⟨p, sp, h1, h2⟩
    · exact .inl h
    · exact .inr ⟨p, sp, h1, hext.transB h2⟩
  · intro h it
    rw [hbasis]; exact hi.zero (by rw [← hlen]; exact h) it
  · intro it
    rw [hbasis, hbk, mem_items_sort]
  · intro it l hl
    rw [hbp]
    refine .inr ⟨rfl, ?_, hl⟩
    obtain ⟨c, h1, h2, _⟩ := hl
    apply (hi.built k hlt).sub
    rw [hbk, mem_items_sort]
    exact mem_items.2 ⟨c, h1, h2⟩
  · intro q h1 h2
    rw [hlen] at h2
    exact absurd h2 (Nat.not_lt.2 h1)

/-! ## A new state -/

theorem getD_append_left {α : Type} [Inhabited α] {l1 l2 : List α} {i : Nat} (h : i < l1.length) :
    (l1 ++ l2).getD i default = l1.getD i default := by
  simp [List.getD_eq_getElem?_getD, List.getElem?_append_left h]

theorem getD_append_len {α : Type} [Inhabited α] {l1 : List α} {x : α} : (l1 ++ [x]).getD l1.length default = x := by
  simp [List.getD_eq_getElem?_getD]

theorem newState_inv {g : Grammar} {S : List RuleId} {sts : List LState} {cur configs : List Cfg} (hi : SInv g S sts)
    (hc : CurOk g S sts cur) (hk : sts.findIdx? (fun s => s.basis = (sortCfgs cur).map (·.item)) = none)
    (hcl : g.closure sts.length cur = .ok configs) :
    SInv g S (sts ++ [{ configs := sortCfgs configs, basis := (sortCfgs cur).map (·.item) }]) ∧
    Ext sts (sts ++ [{ configs := sortCfgs configs, basis := (sortCfgs cur).map (·.item) }]) ∧
    (∀ it l, HasBp cur it l →
      HasBp (cfgs (sts ++ [{ configs := sortCfgs configs, basis := (sortCfgs cur).map (·.item) }]) sts.length) it l) := by
  have hsp := closure_spec hc.nodup hcl
  have hold : ∀ q, q < sts.length → cfgs (sts ++ [{ configs := sortCfgs configs, basis := (sortCfgs cur).map (·.item) }]) q = cfgs sts q ∧
      basisOf (sts ++ [{ configs := sortCfgs configs, basis := (sortCfgs cur).map (·.item) }]) q = basisOf sts q ∧
      actsOf (sts ++ [{ configs := sortCfgs configs, basis := (sortCfgs cur).map (·.item) }]) q = actsOf sts q := by
    intro q hq
    unfold cfgs basisOf actsOf
    rw [getD_append_left hq]
    exact ⟨rfl, rfl, rfl⟩
  have hnewc : cfgs (sts ++ [{ configs := sortCfgs configs, basis := (sortCfgs cur).map (·.item) }]) sts.length = sortCfgs configs := by
    unfold cfgs; rw [getD_append_len]
  have hnewb : basisOf (sts ++ [{ configs := sortCfgs configs, basis := (sortCfgs cur).map (·.item) }]) sts.length = items (sortCfgs cur) := by
    unfold basisOf; rw [getD_append_len]
  have hlen : (sts ++ [({ configs := sortCfgs configs, basis := (sortCfgs cur).map (·.item) } : LState)]).length = sts.length + 1 := by simp
  generalize sts ++ [({ configs := sortCfgs configs, basis := (sortCfgs cur).map (·.item) } : LState)] = sts' at *
  have hext : Ext sts sts' := by
    refine ⟨⟨by omega, fun q hq => (hold q hq).2.1, fun q hq => by rw [(hold q hq).1], fun q hq _ _ => by rw [(hold q hq).1],
      fun q hq _ _ => by rw [(hold q hq).1], fun q hq _ _ h => by rw [(hold q hq).1]; exact h⟩, fun q hq => (hold q hq).2.2⟩
  have hcase : ∀ {q}, q < sts'.length → q < sts.length ∨ q = sts.length := by
    intro q hq; rw [hlen] at hq; omega
  -- the transition into the new state
  have htrans : ∀ {p sp}, p < sts.length → (∃ c ∈ items (cfgs sts p), g.next c = some sp) → (∀ it, it ∈ items cur ↔ g.Succs sts p sp it) →
      g.Trans sts' p sp sts.length := by
    intro p sp hp hs hit
    refine ⟨Nat.lt_of_lt_of_le hp hext.len, by rw [hlen]; exact Nat.lt_succ_self _, by rw [hext.items p hp]; exact hs, ?_⟩
    intro it
    rw [hnewb, mem_items_sort, hext.succs hp]
    exact hit it
  have hne : ∀ q, q < sts.length → basisOf sts q ≠ items (sortCfgs cur) := by
    intro q hq he
    rw [List.findIdx?_eq_none_iff] at hk
    have := hk _ (List.getElem_mem hq)
    unfold basisOf at he
    rw [getD_of_lt hq] at he
    simp only [decide_eq_false_iff_not] at this
    exact this he
  refine ⟨⟨?_, ?_, ?_, ?_, ?_⟩, hext, ?_⟩
  · intro q hq
    rcases hcase hq with h | rfl
    · exact hext.built h (hi.built q h)
    · obtain ⟨e, he, _⟩ := hsp.ext
      constructor
      · rw [hnewc]; exact (items_sort_perm _).nodup_iff.2 hsp.nodup
      · rw [hnewb]; exact sorted_sortCfgs hc.nodup
      · rw [hnewb, hnewc]
        intro it hit
        rw [mem_items_sort] at hit ⊢
        rw [he]; exact List.mem_append_left _ hit
      · rw [hnewc]
        intro c hcm r' hs
        rw [mem_items_sort] at hcm ⊢
        exact hsp.closed c hcm r' hs
      · rw [hnewb, hnewc]
        intro it hit
        rw [mem_items_sort] at hit
        have := hsp.just it hit
        induction this with
        | base h => exact .base (mem_items_sort.2 h)
        | step h1 h2 ih => exact .step (ih (by
            have : ∀ {x}, g.Just (items cur) x → x ∈ items configs := by
              intro x hx
              induction hx with
              | base h => rw [he]; exact List.mem_append_left _ h
              | step _ h2 ih => exact hsp.closed _ ih _ h2
            exact this h1)) h2
      · rw [hnewb, hnewc]
        intro it n
        rw [hasFw_sort, hsp.fws]
        simp only [mem_items_sort]
        refine or_congr_left ?_
        rcases hc.src with ⟨h0, h1, h2, _⟩ | ⟨p, sp, hp, _, _, h2, _⟩
        · rw [h2]
          simp [h0]
        · constructor
          · intro h; exact absurd h (h2 it n)
          · rintro ⟨h, _⟩; exact absurd hp (by rw [h]; exact Nat.not_lt_zero _)
      · rw [hnewc]
        intro it l
        rw [hasFp_sort, hsp.fplp]
        simp only [mem_items_sort]
        constructor
        · rintro (h | h)
          · exact absurd h (hc.fplp it l)
          · exact h
        · exact .inr
      · rw [hnewc]
        intro c hcm
        rw [mem_items_sort] at hcm
        exact hsp.ok c hcm
  · intro q q' h1 h2 h3
    rcases hcase h1 with h1 | rfl <;> rcases hcase h2 with h2 | rfl
    · rw [hext.basis q h1, hext.basis q' h2] at h3
      exact hi.distinct q q' h1 h2 h3
    · rw [hext.basis q h1, hnewb] at h3
      exact absurd h3 (hne q h1)
    · rw [hext.basis q' h2, hnewb] at h3
      exact absurd h3.symm (hne q' h2)
    · rfl
  · intro q hq it l hl
    rcases hcase hq with h | rfl
    · rw [(hold q h).1] at hl
      obtain ⟨sp, h1, h2, h3⟩ := hi.links q h it l hl
      exact ⟨sp, hext.transB h1, by rw [hext.items _ h1.src]; exact h2, h3⟩
    · rw [hnewc, hasBp_sort, hsp.bplp] at hl
      rcases hc.src with ⟨_, _, _, h0⟩ | ⟨p, sp, hp, hsome, hit, _, hback⟩
      · exact absurd hl (h0 it l)
      · obtain ⟨c, h1, h2, h3, rfl⟩ := (hback it l).1 hl
        exact ⟨sp, htrans hp hsome hit, by rw [hext.items p hp]; exact h1, h2, h3⟩
  · intro q hq
    rcases hcase hq with h | rfl
    · rcases hi.reach q h with h | ⟨p, sp, h1, h2⟩
      · exact .inl h
      · exact .inr ⟨p, sp, h1, hext.transB h2⟩
    · rcases hc.src with ⟨h0, _⟩ | ⟨p, sp, hp, hsome, hit, _, _⟩
      · left; rw [h0]; rfl
      · exact .inr ⟨p, sp, hp, htrans hp hsome hit⟩
  · intro _ it
    by_cases h : 0 < sts.length
    · rw [hext.basis 0 h]; exact hi.zero h it
    · have h0 : sts.length = 0 := by omega
      have : basisOf sts' 0 = items (sortCfgs cur) := by rw [← hnewb, h0]
      rw [this, mem_items_sort]
      rcases hc.src with ⟨_, h1, _⟩ | ⟨p, sp, hp, _⟩
      · exact h1 it
      · omega
  · intro it l hl
    rw [hnewc, hasBp_sort, hsp.bplp]
    exact hl

/-! ## `build_shifts` -/

/-- `get` behaves as `get_state` should -/
def GetOk (g : Grammar) (S : List RuleId) (get : List LState → List Cfg → Except GErr (List LState × StateId)) : Prop :=
  ∀ sts cur sts' k, SInv g S sts → CurOk g S sts cur → get sts cur = .ok (sts', k) → GetPost g S sts cur sts' k

theorem shiftBasis_ok {g : Grammar} {S : List RuleId} {sts : List LState} {id : StateId} {pending : List Cfg} {sp : SymbolId}
    (hid : id < sts.length) (hnd : (items pending).Nodup)
    (hall : ∀ c, (c ∈ items pending ∧ g.next c = some sp) ↔ (c ∈ items (cfgs sts id) ∧ g.next c = some sp))
    (hsome : ∃ c ∈ items (cfgs sts id), g.next c = some sp) :
    CurOk g S sts (g.shiftBasis id sp pending) := by
  have hmem : ∀ x, x ∈ g.shiftBasis id sp pending ↔ ∃ c ∈ items pending, g.next c = some sp ∧
      x = { item := c.succ, bplp := [⟨id, c⟩] } := by
    intro x
    unfold Grammar.shiftBasis
    rw [List.mem_map]
    constructor
    · rintro ⟨c, h1, rfl⟩
      rw [List.mem_filter] at h1
      exact ⟨c.item, mem_items.2 ⟨c, h1.1, rfl⟩, by simpa using h1.2, rfl⟩
    · rintro ⟨c, h1, h2, rfl⟩
      obtain ⟨d, h3, rfl⟩ := mem_items.1 h1
      exact ⟨d, List.mem_filter.2 ⟨h3, by simpa using h2⟩, rfl⟩
  refine ⟨?_, ?_, .inr ⟨id, sp, hid, hsome, ?_, ?_, ?_⟩⟩
  · unfold Grammar.shiftBasis items
    rw [List.map_map]
    have : ((pending.filter (fun c => g.next c.item = some sp)).map (·.item)).Nodup :=
      hnd.sublist (List.filter_sublist.map _)
    have h2 := List.Nodup.map (f := Item.succ) (fun a b => Item.succ_inj) this
    rw [List.map_map] at h2
    exact h2
  · rintro it l ⟨c, h1, _, h3⟩
    obtain ⟨d, _, _, rfl⟩ := (hmem c).1 h1
    cases h3
  · intro it
    constructor
    · intro h
      obtain ⟨c, h1, rfl⟩ := mem_items.1 h
      obtain ⟨d, h2, h3, rfl⟩ := (hmem c).1 h1
      obtain ⟨h4, _⟩ := (hall d).1 ⟨h2, h3⟩
      exact ⟨d, h4, h3, rfl⟩
    · rintro ⟨c, h1, h2, rfl⟩
      obtain ⟨h3, _⟩ := (hall c).2 ⟨h1, h2⟩
      exact mem_items.2 ⟨_, (hmem _).2 ⟨c, h3, h2, rfl⟩, rfl⟩
  · rintro it n ⟨c, h1, _, h3⟩
    obtain ⟨d, _, _, rfl⟩ := (hmem c).1 h1
    cases h3
  · intro it l
    constructor
    · rintro ⟨c, h1, rfl, h3⟩
      obtain ⟨d, h2, h4, rfl⟩ := (hmem c).1 h1
      obtain ⟨h5, _⟩ := (hall d).1 ⟨h2, h4⟩
      exact ⟨d, h5, h4, rfl, List.mem_singleton.1 h3⟩
    · rintro ⟨c, h1, h2, rfl, rfl⟩
      obtain ⟨h3, _⟩ := (hall c).2 ⟨h1, h2⟩
      exact ⟨_, (hmem _).2 ⟨c, h3, h2, rfl⟩, rfl, by simp⟩

/-- Postcondition of the loop of `build_shifts` -/
structure ShiftsPost (g : Grammar) (S : List RuleId) (id : StateId) (sts sts' : List LState) (aps : List Action) : Prop where
  inv : SInv g S sts'
  ext : Ext sts sts'
  moves : ∃ L, Moves g sts' id L ∧ aps = L.flatMap (fun e => g.shiftActions e.1 e.2) ∧
    ∀ c ∈ items (cfgs sts' id), ∀ sp, g.next c = some sp → sp ∈ L.map Prod.fst
  done : ∀ q, sts.length ≤ q → q < sts'.length → Done g sts' q

theorem shiftsLoop_spec {g : Grammar} {S : List RuleId} {get} (hget : GetOk g S get) {id : StateId} :
    ∀ {fuel : Nat} {sts : List LState} {pending : List Cfg} {aps : List Action} {L : List (SymbolId × StateId)}
      {sts' : List LState} {aps' : List Action},
    SInv g S sts → id < sts.length → pending.length ≤ fuel → (items pending).Nodup →
    (∀ c ∈ items pending, c ∈ items (cfgs sts id)) →
    (∀ c ∈ items (cfgs sts id), ∀ sp, g.next c = some sp → c ∈ items pending ∨ sp ∈ L.map Prod.fst) →
    (∀ c ∈ items pending, ∀ sp, g.next c = some sp → sp ∉ L.map Prod.fst) →
    Moves g sts id L → aps = L.flatMap (fun e => g.shiftActions e.1 e.2) →
    g.shiftsLoop get id fuel sts pending aps = .ok (sts', aps') → ShiftsPost g S id sts sts' aps' := by
  intro fuel
  induction fuel with
  | zero =>
    intro sts pending aps L sts' aps' hi hid hf hnd hsub hcov hdis hm haps he
    unfold Grammar.shiftsLoop at he
    cases he
    have : pending = [] := List.length_eq_zero_iff.1 (Nat.le_zero.1 hf)
    subst this
    refine ⟨hi, .refl _, ⟨L, hm, haps, ?_⟩, fun q h1 h2 => absurd h2 (Nat.not_lt.2 h1)⟩
    intro c hc sp hn
    rcases hcov c hc sp hn with h | h
    · cases h
    · exact h
  | succ n ih =>
    intro sts pending aps L sts' aps' hi hid hf hnd hsub hcov hdis hm haps he
    unfold Grammar.shiftsLoop at he
    cases pending with
    | nil =>
      simp only at he
      cases he
      refine ⟨hi, .refl _, ⟨L, hm, haps, ?_⟩, fun q h1 h2 => absurd h2 (Nat.not_lt.2 h1)⟩
      intro c hc sp hn
      rcases hcov c hc sp hn with h | h
      · cases h
      · exact h
    | cons c rest =>
      simp only at he
      cases hnx : g.next c.item with
      | none =>
        rw [hnx] at he
        simp only at he
        refine ih hi hid (by simpa using hf) (List.nodup_cons.1 hnd).2 (fun d hd => hsub d (List.mem_cons_of_mem _ hd)) ?_
          (fun d hd => hdis d (List.mem_cons_of_mem _ hd)) hm haps he
        intro d hd sp hn
        rcases hcov d hd sp hn with h | h
        · rcases List.mem_cons.1 h with rfl | h
          · rw [hnx] at hn; cases hn
          · exact .inl h
        · exact .inr h
      | some sp =>
        rw [hnx] at he
        simp only at he
        split at he
        · cases he
        · rename_i sts1 new hg
          have hcm : c.item ∈ items (c :: rest) := by simp
          have hspL : sp ∉ L.map Prod.fst := hdis c.item hcm sp hnx
          have hall : ∀ d, (d ∈ items (c :: rest) ∧ g.next d = some sp) ↔ (d ∈ items (cfgs sts id) ∧ g.next d = some sp) := by
            intro d
            constructor
            · rintro ⟨h1, h2⟩; exact ⟨hsub d h1, h2⟩
            · rintro ⟨h1, h2⟩
              rcases hcov d h1 sp h2 with h | h
              · exact ⟨h, h2⟩
              · exact absurd h hspL
          have hsome : ∃ c ∈ items (cfgs sts id), g.next c = some sp := ⟨c.item, hsub _ hcm, hnx⟩
          have hcur := shiftBasis_ok (S := S) hid hnd hall hsome
          have hp := hget _ _ _ _ hi hcur hg
          have hid1 : id < sts1.length := Nat.lt_of_lt_of_le hid hp.ext.len
          have hit1 : items (cfgs sts1 id) = items (cfgs sts id) := hp.ext.items id hid
          have hsucc : ∀ it, it ∈ items (g.shiftBasis id sp (c :: rest)) ↔ g.Succs sts id sp it := by
            rcases hcur.src with ⟨h0, _⟩ | _
            · rw [h0] at hid; exact absurd hid (Nat.not_lt_zero _)
            · intro it
              constructor
              · intro h
                obtain ⟨x, h1, rfl⟩ := mem_items.1 h
                unfold Grammar.shiftBasis at h1
                obtain ⟨d, h2, rfl⟩ := List.mem_map.1 h1
                rw [List.mem_filter] at h2
                refine ⟨d.item, hsub _ (mem_items.2 ⟨d, h2.1, rfl⟩), by simpa using h2.2, rfl⟩
              · rintro ⟨d, h1, h2, rfl⟩
                obtain ⟨h3, _⟩ := (hall d).2 ⟨h1, h2⟩
                obtain ⟨e, h4, rfl⟩ := mem_items.1 h3
                exact mem_items.2 ⟨_, List.mem_map.2 ⟨e, List.mem_filter.2 ⟨h4, by simpa using h2⟩, rfl⟩, rfl⟩
          have ht : g.Trans sts1 id sp new := by
            refine ⟨hid1, hp.lt, by rw [hit1]; exact hsome, ?_⟩
            intro it
            rw [hp.basis, hp.ext.succs hid]
            exact hsucc it
          have hm1 := hm.grow hp.ext.toGrow hid
          have hm2 : Moves g sts1 id (L ++ [(sp, new)]) := by
            refine ⟨?_, ?_, ?_⟩
            · rw [List.map_append, List.nodup_append]
              refine ⟨hm.nodup, by simp, ?_⟩
              rintro a ha b hb rfl
              simp only [List.map_cons, List.map_nil, List.mem_singleton] at hb
              subst hb; exact hspL ha
            · intro e he
              rcases List.mem_append.1 he with h | h
              · exact hm1.trans e h
              · rw [List.mem_singleton] at h; subst h; exact ht
            · intro e he
              rcases List.mem_append.1 he with h | h
              · exact hm1.back e h
              · rw [List.mem_singleton] at h; subst h
                intro d hd hn
                rw [hit1] at hd
                apply hp.back
                obtain ⟨h3, _⟩ := (hall d).2 ⟨hd, hn⟩
                obtain ⟨e, h4, rfl⟩ := mem_items.1 h3
                exact ⟨_, List.mem_map.2 ⟨e, List.mem_filter.2 ⟨h4, by simpa using hn⟩, rfl⟩, rfl, by simp⟩
          have hrest : ∀ d, d ∈ items (rest.filter (fun c => g.next c.item ≠ some sp)) ↔ d ∈ items rest ∧ g.next d ≠ some sp := by
            intro d
            simp only [items, List.mem_map, List.mem_filter, decide_eq_true_eq]
            constructor
            · rintro ⟨x, ⟨h1, h2⟩, rfl⟩; exact ⟨⟨x, h1, rfl⟩, h2⟩
            · rintro ⟨⟨x, h1, rfl⟩, h2⟩; exact ⟨x, ⟨h1, h2⟩, rfl⟩
          have hpost := ih (L := L ++ [(sp, new)]) hp.inv hid1
            (Nat.le_trans (List.length_filter_le _ _) (by simpa using hf))
            ((List.nodup_cons.1 hnd).2.sublist (List.filter_sublist.map _)) ?_ ?_ ?_ hm2 ?_ he
          · refine ⟨hpost.inv, hp.ext.trans hpost.ext, hpost.moves, ?_⟩
            intro q h1 h2
            by_cases h3 : q < sts1.length
            · exact (hp.done q h1 h3).ext hpost.ext h3
            · exact hpost.done q (Nat.le_of_not_lt h3) h2
          · intro d hd
            rw [hit1]
            exact hsub d (List.mem_cons_of_mem _ ((hrest d).1 hd).1)
          · intro d hd sp' hn
            rw [hit1] at hd
            rw [List.map_append, List.mem_append]
            by_cases e : sp' = sp
            · right; right; simp [e]
            · rcases hcov d hd sp' hn with h | h
              · rcases List.mem_cons.1 h with rfl | h
                · rw [hnx] at hn; exact absurd (Option.some.inj hn).symm e
                · left
                  refine (hrest d).2 ⟨h, ?_⟩
                  rw [hn]; intro h2; exact e (Option.some.inj h2)
              · right; left; exact h
          · intro d hd sp' hn
            have h1 := (hrest d).1 hd
            rw [List.map_append, List.mem_append]
            rintro (h | h)
            · exact hdis d (List.mem_cons_of_mem _ h1.1) sp' hn h
            · simp only [List.map_cons, List.map_nil, List.mem_singleton] at h
              subst h; exact h1.2 hn
          · rw [List.flatMap_append, haps]; simp

/-! ## `get_state` -/

theorem getState_ok (g : Grammar) (S : List RuleId) : ∀ fuel, GetOk g S (g.getState fuel) := by
  intro fuel
  induction fuel with
  | zero => intro sts cur sts' k _ _ h; cases h
  | succ n ih =>
    intro sts cur sts' k hi hc h
    unfold Grammar.getState at h
    simp only at h
    split at h
    · rename_i j hj
      cases h
      exact getState_found hi hc hj
    · rename_i hnone
      split at h
      · cases h
      · rename_i configs hcl
        split at h
        · cases h
        · rename_i stsX apsX hsh
          cases h
          obtain ⟨i1, e1, b1⟩ := newState_inv hi hc hnone hcl
          have hlen : (sts ++ [({ configs := sortCfgs configs, basis := (sortCfgs cur).map (·.item) } : LState)]).length = sts.length + 1 := by
            simp
          have hcf : cfgs (sts ++ [{ configs := sortCfgs configs, basis := (sortCfgs cur).map (·.item) }]) sts.length = sortCfgs configs := by
            unfold cfgs; rw [getD_append_len]
          have hba : basisOf (sts ++ [{ configs := sortCfgs configs, basis := (sortCfgs cur).map (·.item) }]) sts.length =
              items (sortCfgs cur) := by
            unfold basisOf; rw [getD_append_len]
          have hac : actsOf (sts ++ [{ configs := sortCfgs configs, basis := (sortCfgs cur).map (·.item) }]) sts.length = [] := by
            unfold actsOf; rw [getD_append_len]
          generalize sts ++ [({ configs := sortCfgs configs, basis := (sortCfgs cur).map (·.item) } : LState)] = sts1 at *
          have hid : sts.length < sts1.length := by omega
          have hsp := shiftsLoop_spec (L := []) ih i1 hid (Nat.le_refl _)
            (by rw [← hcf]; exact (i1.built _ hid).nodup) (by rw [hcf]; exact fun c h => h)
            (by rw [hcf]; exact fun c h sp _ => .inl h) (by simp) ⟨by simp, by simp, by simp⟩ (by simp) hsh
          -- filling in the actions of the new state
          have hidX : sts.length < stsX.length := Nat.lt_of_lt_of_le hid hsp.ext.len
          have hacX : actsOf stsX sts.length = [] := by rw [hsp.ext.acts _ hid, hac]
          have hcfY : ∀ q, cfgs (stsX.modify sts.length (fun st => { st with actions := st.actions ++ apsX })) q = cfgs stsX q := by
            intro q; rw [cfgs_modify]; split <;> rfl
          have hbaY : ∀ q, basisOf (stsX.modify sts.length (fun st => { st with actions := st.actions ++ apsX })) q = basisOf stsX q :=
            fun q => basisOf_modify stsX sts.length (fun st => { st with actions := st.actions ++ apsX }) (fun _ => rfl) q
          have hacY : ∀ q, actsOf (stsX.modify sts.length (fun st => { st with actions := st.actions ++ apsX })) q =
              if q = sts.length then apsX else actsOf stsX q := by
            intro q
            unfold actsOf
            rw [getD_modify]
            by_cases e : q = sts.length
            · subst e
              rw [if_pos ⟨rfl, hidX⟩, if_pos rfl]
              simp only
              unfold actsOf at hacX
              rw [hacX]; rfl
            · rw [if_neg (fun h => e h.1.symm), if_neg e]
          have hlenY : (stsX.modify sts.length (fun st => { st with actions := st.actions ++ apsX })).length = stsX.length := by simp
          generalize stsX.modify sts.length (fun st => { st with actions := st.actions ++ apsX }) = stsY at *
          have hgrow : Grow stsX stsY :=
            ⟨by omega, fun q _ => hbaY q, fun q _ => by rw [hcfY], fun q _ _ _ => by rw [hcfY], fun q _ _ _ => by rw [hcfY],
              fun q _ _ _ h => by rw [hcfY]; exact h⟩
          have hext : Ext sts stsY := by
            refine ⟨(e1.toGrow.trans hsp.ext.toGrow).trans hgrow, ?_⟩
            intro q hq
            have : ¬ q = sts.length := Nat.ne_of_lt hq
            rw [hacY, if_neg this]
            exact (e1.trans hsp.ext).acts q hq
          refine ⟨⟨?_, ?_, ?_, ?_, ?_⟩, hext, by rw [hlenY]; exact hidX, ?_, ?_, ?_⟩
          · intro q hq
            rw [hlenY] at hq
            exact hgrow.built hq (hsp.inv.built q hq)
          · intro q q' h1 h2 h3
            rw [hlenY] at h1 h2
            rw [hbaY, hbaY] at h3
            exact hsp.inv.distinct q q' h1 h2 h3
          · intro q hq it l hl
            rw [hlenY] at hq
            rw [hcfY] at hl
            obtain ⟨sp, a1, a2, a3⟩ := hsp.inv.links q hq it l hl
            exact ⟨sp, hgrow.transB a1, by rw [hcfY]; exact a2, a3⟩
          · intro q hq
            rw [hlenY] at hq
            rcases hsp.inv.reach q hq with a | ⟨p, sp, a1, a2⟩
            · exact .inl a
            · exact .inr ⟨p, sp, a1, hgrow.transB a2⟩
          · intro h0 it
            rw [hlenY] at h0
            rw [hbaY]
            exact hsp.inv.zero h0 it
          · intro it
            rw [hbaY, hsp.ext.basis _ hid, hba, mem_items_sort]
          · intro it l hl
            rw [hcfY]
            exact hsp.ext.bp _ hid _ _ (b1 it l hl)
          · intro q h1 h2
            rw [hlenY] at h2
            by_cases e : q = sts.length
            · subst e
              obtain ⟨L, m1, m2, m3⟩ := hsp.moves
              refine ⟨L, m1.grow hgrow hidX, by rw [hacY, if_pos rfl, m2], by rw [hcfY]; exact m3⟩
            · have h3 : sts1.length ≤ q := by
                rw [hlen]
                exact Nat.succ_le_of_lt (Nat.lt_of_le_of_ne h1 (Ne.symm e))
              obtain ⟨L, m1, m2, m3⟩ := hsp.done q h3 h2
              refine ⟨L, m1.grow hgrow h2, by rw [hacY, if_neg e, m2], by rw [hcfY]; exact m3⟩

end Pomelo
