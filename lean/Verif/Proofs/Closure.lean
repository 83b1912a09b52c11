import Verif.Proofs.FirstExact
import Mathlib.Data.List.Nodup
/-! # The closure of a set of configurations -/

namespace Pomelo

open Spec

/-- Keys of a list of configurations -/
abbrev items (cur : List Cfg) : List Item := cur.map (·.item)

/-- `n` is in the follow set of the configuration with key `it` -/
def HasFw (cur : List Cfg) (it : Item) (n : Nat) : Prop := ∃ c ∈ cur, c.item = it ∧ n ∈ c.fws
/-- Forward propagation links -/
def HasFp (cur : List Cfg) (it : Item) (l : CRef) : Prop := ∃ c ∈ cur, c.item = it ∧ l ∈ c.fplp
/-- Backward propagation links -/
def HasBp (cur : List Cfg) (it : Item) (l : CRef) : Prop := ∃ c ∈ cur, c.item = it ∧ l ∈ c.bplp

theorem mem_items {cur : List Cfg} {it : Item} : it ∈ items cur ↔ ∃ c ∈ cur, c.item = it := List.mem_map

/-! ## `add_config` and modifications -/

theorem items_addConfig (cur : List Cfg) (i : Item) :
    items (addConfig cur i) = if i ∈ items cur then items cur else items cur ++ [i] := by
  unfold addConfig
  by_cases h : i ∈ items cur
  · rw [if_pos h, if_pos]
    rw [List.any_eq_true]
    obtain ⟨c, h1, h2⟩ := mem_items.1 h
    exact ⟨c, h1, by simpa using h2⟩
  · rw [if_neg h, if_neg]
    · simp
    · rw [List.any_eq_true]
      rintro ⟨c, h1, h2⟩
      exact h (mem_items.2 ⟨c, h1, by simpa using h2⟩)

theorem mem_addConfig {cur : List Cfg} {i : Item} {c : Cfg} : c ∈ addConfig cur i → c ∈ cur ∨ c = { item := i } := by
  unfold addConfig
  split
  · exact .inl
  · intro h
    rcases List.mem_append.1 h with h | h
    · exact .inl h
    · exact .inr (List.mem_singleton.1 h)

theorem mem_addConfig_of_mem {cur : List Cfg} {i : Item} {c : Cfg} (h : c ∈ cur) : c ∈ addConfig cur i := by
  unfold addConfig
  split
  · exact h
  · exact List.mem_append_left _ h

theorem hasFw_addConfig {cur : List Cfg} {i it : Item} {n : Nat} : HasFw (addConfig cur i) it n ↔ HasFw cur it n := by
  constructor
  · rintro ⟨c, h1, h2, h3⟩
    rcases mem_addConfig h1 with h | rfl
    · exact ⟨c, h, h2, h3⟩
    · cases h3
  · rintro ⟨c, h1, h2⟩; exact ⟨c, mem_addConfig_of_mem h1, h2⟩

theorem hasFp_addConfig {cur : List Cfg} {i it : Item} {l : CRef} : HasFp (addConfig cur i) it l ↔ HasFp cur it l := by
  constructor
  · rintro ⟨c, h1, h2, h3⟩
    rcases mem_addConfig h1 with h | rfl
    · exact ⟨c, h, h2, h3⟩
    · cases h3
  · rintro ⟨c, h1, h2⟩; exact ⟨c, mem_addConfig_of_mem h1, h2⟩

theorem hasBp_addConfig {cur : List Cfg} {i it : Item} {l : CRef} : HasBp (addConfig cur i) it l ↔ HasBp cur it l := by
  constructor
  · rintro ⟨c, h1, h2, h3⟩
    rcases mem_addConfig h1 with h | rfl
    · exact ⟨c, h, h2, h3⟩
    · cases h3
  · rintro ⟨c, h1, h2⟩; exact ⟨c, mem_addConfig_of_mem h1, h2⟩

theorem items_modifyCfg {cur : List Cfg} {i : Item} {f : Cfg → Cfg} (hf : ∀ c, (f c).item = c.item) :
    items (modifyCfg cur i f) = items cur := by
  unfold modifyCfg items
  rw [List.map_map]
  apply List.map_congr_left
  intro c _
  simp only [Function.comp]
  split
  · exact hf c
  · rfl

theorem mem_modifyCfg {cur : List Cfg} {i : Item} {f : Cfg → Cfg} {c : Cfg} :
    c ∈ modifyCfg cur i f ↔ ∃ d ∈ cur, c = if d.item = i then f d else d := by
  unfold modifyCfg
  rw [List.mem_map]
  constructor
  · rintro ⟨d, h1, h2⟩; exact ⟨d, h1, h2.symm⟩
  · rintro ⟨d, h1, h2⟩; exact ⟨d, h1, h2.symm⟩

/-- A modification that keeps a property of configurations -/
theorem exists_modifyCfg {cur : List Cfg} {i it : Item} {f : Cfg → Cfg} (hf : ∀ c, (f c).item = c.item) {P : Cfg → Prop}
    (hP : ∀ c, P (f c) ↔ P c) : (∃ c ∈ modifyCfg cur i f, c.item = it ∧ P c) ↔ ∃ c ∈ cur, c.item = it ∧ P c := by
  constructor
  · rintro ⟨c, h1, h2, h3⟩
    obtain ⟨d, h4, rfl⟩ := mem_modifyCfg.1 h1
    refine ⟨d, h4, ?_, ?_⟩
    · split at h2
      · rw [← hf d]; exact h2
      · exact h2
    · split at h3
      · exact (hP d).1 h3
      · exact h3
  · rintro ⟨d, h1, h2, h3⟩
    refine ⟨_, mem_modifyCfg.2 ⟨d, h1, rfl⟩, ?_, ?_⟩
    · split
      · rw [hf]; exact h2
      · exact h2
    · split
      · exact (hP d).2 h3
      · exact h3

theorem hasFw_union {cur : List Cfg} {i it : Item} {add : List Nat} {n : Nat} :
    HasFw (modifyCfg cur i (fun k => { k with fws := setUnion k.fws add })) it n ↔
      HasFw cur it n ∨ (it = i ∧ i ∈ items cur ∧ n ∈ add) := by
  constructor
  · rintro ⟨c, h1, h2, h3⟩
    obtain ⟨d, h4, rfl⟩ := mem_modifyCfg.1 h1
    split at h2
    · rename_i hd
      rw [if_pos hd] at h3
      simp only at h2 h3
      rw [mem_setUnion] at h3
      rcases h3 with h3 | h3
      · exact .inl ⟨d, h4, h2, h3⟩
      · exact .inr ⟨h2.symm.trans hd, mem_items.2 ⟨d, h4, hd⟩, h3⟩
    · rename_i hd
      rw [if_neg hd] at h3
      exact .inl ⟨d, h4, h2, h3⟩
  · rintro (⟨d, h1, h2, h3⟩ | ⟨rfl, h2, h3⟩)
    · refine ⟨_, mem_modifyCfg.2 ⟨d, h1, rfl⟩, ?_, ?_⟩
      · split <;> exact h2
      · split
        · simp only; rw [mem_setUnion]; exact .inl h3
        · exact h3
    · obtain ⟨d, h4, h5⟩ := mem_items.1 h2
      refine ⟨_, mem_modifyCfg.2 ⟨d, h4, rfl⟩, ?_, ?_⟩
      · rw [if_pos h5]; exact h5
      · rw [if_pos h5]; simp only; rw [mem_setUnion]; exact .inr h3

theorem hasFp_push {cur : List Cfg} {i it : Item} {x l : CRef} :
    HasFp (modifyCfg cur i (fun k => { k with fplp := k.fplp ++ [x] })) it l ↔
      HasFp cur it l ∨ (it = i ∧ i ∈ items cur ∧ l = x) := by
  constructor
  · rintro ⟨c, h1, h2, h3⟩
    obtain ⟨d, h4, rfl⟩ := mem_modifyCfg.1 h1
    split at h2
    · rename_i hd
      rw [if_pos hd] at h3
      simp only at h2 h3
      rcases List.mem_append.1 h3 with h3 | h3
      · exact .inl ⟨d, h4, h2, h3⟩
      · exact .inr ⟨h2.symm.trans hd, mem_items.2 ⟨d, h4, hd⟩, List.mem_singleton.1 h3⟩
    · rename_i hd
      rw [if_neg hd] at h3
      exact .inl ⟨d, h4, h2, h3⟩
  · rintro (⟨d, h1, h2, h3⟩ | ⟨rfl, h2, rfl⟩)
    · refine ⟨_, mem_modifyCfg.2 ⟨d, h1, rfl⟩, ?_, ?_⟩
      · split <;> exact h2
      · split
        · exact List.mem_append_left _ h3
        · exact h3
    · obtain ⟨d, h4, h5⟩ := mem_items.1 h2
      refine ⟨_, mem_modifyCfg.2 ⟨d, h4, rfl⟩, ?_, ?_⟩
      · rw [if_pos h5]; exact h5
      · rw [if_pos h5]; simp

theorem hasBp_append {cur : List Cfg} {i it : Item} {xs : List CRef} {l : CRef} :
    HasBp (modifyCfg cur i (fun k => { k with bplp := k.bplp ++ xs })) it l ↔
      HasBp cur it l ∨ (it = i ∧ i ∈ items cur ∧ l ∈ xs) := by
  constructor
  · rintro ⟨c, h1, h2, h3⟩
    obtain ⟨d, h4, rfl⟩ := mem_modifyCfg.1 h1
    split at h2
    · rename_i hd
      rw [if_pos hd] at h3
      simp only at h2 h3
      rcases List.mem_append.1 h3 with h3 | h3
      · exact .inl ⟨d, h4, h2, h3⟩
      · exact .inr ⟨h2.symm.trans hd, mem_items.2 ⟨d, h4, hd⟩, h3⟩
    · rename_i hd
      rw [if_neg hd] at h3
      exact .inl ⟨d, h4, h2, h3⟩
  · rintro (⟨d, h1, h2, h3⟩ | ⟨rfl, h2, h3⟩)
    · refine ⟨_, mem_modifyCfg.2 ⟨d, h1, rfl⟩, ?_, ?_⟩
      · split <;> exact h2
      · split
        · exact List.mem_append_left _ h3
        · exact h3
    · obtain ⟨d, h4, h5⟩ := mem_items.1 h2
      refine ⟨_, mem_modifyCfg.2 ⟨d, h4, rfl⟩, ?_, ?_⟩
      · rw [if_pos h5]; exact h5
      · rw [if_pos h5]; exact List.mem_append_right _ h3

section
variable {cur : List Cfg} {i it : Item} {l : CRef} {n : Nat}

theorem items_fws (add : List Nat) : items (modifyCfg cur i (fun k => { k with fws := setUnion k.fws add })) = items cur :=
  items_modifyCfg (f := fun k => { k with fws := setUnion k.fws add }) (fun _ => rfl)
theorem items_fplp (x : CRef) : items (modifyCfg cur i (fun k => { k with fplp := k.fplp ++ [x] })) = items cur :=
  items_modifyCfg (f := fun k => { k with fplp := k.fplp ++ [x] }) (fun _ => rfl)
theorem items_bplp (xs : List CRef) : items (modifyCfg cur i (fun k => { k with bplp := k.bplp ++ xs })) = items cur :=
  items_modifyCfg (f := fun k => { k with bplp := k.bplp ++ xs }) (fun _ => rfl)
theorem hasFp_fws (add : List Nat) : HasFp (modifyCfg cur i (fun k => { k with fws := setUnion k.fws add })) it l ↔ HasFp cur it l :=
  exists_modifyCfg (P := fun c => l ∈ c.fplp) (f := fun k => { k with fws := setUnion k.fws add }) (fun _ => rfl) (fun _ => Iff.rfl)
theorem hasBp_fws (add : List Nat) : HasBp (modifyCfg cur i (fun k => { k with fws := setUnion k.fws add })) it l ↔ HasBp cur it l :=
  exists_modifyCfg (P := fun c => l ∈ c.bplp) (f := fun k => { k with fws := setUnion k.fws add }) (fun _ => rfl) (fun _ => Iff.rfl)
theorem hasFw_fplp (x : CRef) : HasFw (modifyCfg cur i (fun k => { k with fplp := k.fplp ++ [x] })) it n ↔ HasFw cur it n :=
  exists_modifyCfg (P := fun c => n ∈ c.fws) (f := fun k => { k with fplp := k.fplp ++ [x] }) (fun _ => rfl) (fun _ => Iff.rfl)
theorem hasBp_fplp (x : CRef) : HasBp (modifyCfg cur i (fun k => { k with fplp := k.fplp ++ [x] })) it l ↔ HasBp cur it l :=
  exists_modifyCfg (P := fun c => l ∈ c.bplp) (f := fun k => { k with fplp := k.fplp ++ [x] }) (fun _ => rfl) (fun _ => Iff.rfl)
theorem hasFw_bplp (xs : List CRef) : HasFw (modifyCfg cur i (fun k => { k with bplp := k.bplp ++ xs })) it n ↔ HasFw cur it n :=
  exists_modifyCfg (P := fun c => n ∈ c.fws) (f := fun k => { k with bplp := k.bplp ++ xs }) (fun _ => rfl) (fun _ => Iff.rfl)
theorem hasFp_bplp (xs : List CRef) : HasFp (modifyCfg cur i (fun k => { k with bplp := k.bplp ++ xs })) it l ↔ HasFp cur it l :=
  exists_modifyCfg (P := fun c => l ∈ c.fplp) (f := fun k => { k with bplp := k.bplp ++ xs }) (fun _ => rfl) (fun _ => Iff.rfl)

end

/-! ## One configuration -/

/-- What closing over the rules `R` because of `c` does -/
structure CloseSpec (sid : StateId) (c : Item) (follow : List Nat × Bool) (R : List RuleId) (cur cur' : List Cfg) : Prop where
  ext : ∃ e, items cur' = items cur ++ e ∧ ∀ x ∈ e, ∃ r ∈ R, x = ⟨r, 0⟩
  nodup : (items cur).Nodup → (items cur').Nodup
  all : ∀ r ∈ R, (⟨r, 0⟩ : Item) ∈ items cur'
  fws : ∀ it n, HasFw cur' it n ↔ HasFw cur it n ∨ ∃ r ∈ R, it = ⟨r, 0⟩ ∧ n ∈ follow.1
  fplp : c ∈ items cur → ∀ it l, HasFp cur' it l ↔ HasFp cur it l ∨ (it = c ∧ follow.2 = false ∧ ∃ r ∈ R, l = ⟨sid, ⟨r, 0⟩⟩)
  bplp : ∀ it l, HasBp cur' it l ↔ HasBp cur it l

theorem closeRule_spec (sid : StateId) (c : Item) (follow : List Nat × Bool) (cur : List Cfg) (r : RuleId) :
    CloseSpec sid c follow [r] cur (closeRule sid c follow cur r) := by
  have hit : items (closeRule sid c follow cur r) = if (⟨r, 0⟩ : Item) ∈ items cur then items cur else items cur ++ [⟨r, 0⟩] := by
    unfold closeRule
    simp only
    split
    · rw [items_fws, items_addConfig]
    · rw [items_fplp, items_fws, items_addConfig]
  have hmem : (⟨r, 0⟩ : Item) ∈ items (addConfig cur ⟨r, 0⟩) := by
    rw [items_addConfig]
    split
    · assumption
    · simp
  have hfw : ∀ it n, HasFw (modifyCfg (addConfig cur ⟨r, 0⟩) ⟨r, 0⟩ (fun k => { k with fws := setUnion k.fws follow.1 })) it n ↔
      HasFw cur it n ∨ ∃ q ∈ [r], it = ⟨q, 0⟩ ∧ n ∈ follow.1 := by
    intro it n
    rw [hasFw_union, hasFw_addConfig]
    simp [hmem]
  refine ⟨?_, ?_, ?_, ?_, ?_, ?_⟩
  · rw [hit]
    split
    · exact ⟨[], by simp, by simp⟩
    · exact ⟨[⟨r, 0⟩], rfl, by simp⟩
  · rw [hit]
    intro hn
    split
    · exact hn
    · rename_i h
      rw [List.nodup_append]
      refine ⟨hn, by simp, ?_⟩
      rintro a ha b hb rfl
      exact h (by rw [List.mem_singleton] at hb; rw [← hb]; exact ha)
  · intro q hq
    rw [List.mem_singleton] at hq
    subst hq
    rw [hit]
    split
    · assumption
    · simp
  · intro it n
    unfold closeRule
    simp only
    split
    · exact hfw it n
    · rw [← hfw it n]
      exact hasFw_fplp _
  · intro hc it l
    unfold closeRule
    simp only
    split
    · rename_i hb
      rw [hasFp_fws, hasFp_addConfig]
      simp [hb]
    · rename_i hb
      rw [hasFp_push, items_fws, items_addConfig]
      rw [hasFp_fws, hasFp_addConfig]
      have hb2 : follow.2 = false := by simpa using hb
      have hc2 : c ∈ (if (⟨r, 0⟩ : Item) ∈ items cur then items cur else items cur ++ [⟨r, 0⟩]) := by
        split
        · exact hc
        · exact List.mem_append_left _ hc
      rw [eq_true hc2, hb2]
      simp
  · intro it l
    unfold closeRule
    simp only
    have h1 : HasBp (modifyCfg (addConfig cur ⟨r, 0⟩) ⟨r, 0⟩ (fun k => { k with fws := setUnion k.fws follow.1 })) it l ↔ HasBp cur it l := by
      rw [hasBp_fws, hasBp_addConfig]
    split
    · exact h1
    · rw [← h1]
      exact hasBp_fplp _

theorem closeRules_spec (sid : StateId) (c : Item) (follow : List Nat × Bool) : ∀ (R : List RuleId) (cur : List Cfg),
    CloseSpec sid c follow R cur (R.foldl (closeRule sid c follow) cur) := by
  intro R
  induction R with
  | nil =>
    intro cur
    exact ⟨⟨[], by simp, by simp⟩, id, by simp, by simp, by simp, by simp⟩
  | cons r R ih =>
    intro cur
    rw [List.foldl_cons]
    have h1 := closeRule_spec sid c follow cur r
    have h2 := ih (closeRule sid c follow cur r)
    obtain ⟨e1, he1, hx1⟩ := h1.ext
    obtain ⟨e2, he2, hx2⟩ := h2.ext
    refine ⟨⟨e1 ++ e2, by rw [he2, he1, List.append_assoc], ?_⟩, fun h => h2.nodup (h1.nodup h), ?_, ?_, ?_, ?_⟩
    · intro x hx
      rcases List.mem_append.1 hx with h | h
      · obtain ⟨q, hq, rfl⟩ := hx1 x h
        rw [List.mem_singleton] at hq; subst hq
        exact ⟨q, by simp, rfl⟩
      · obtain ⟨q, hq, rfl⟩ := hx2 x h
        exact ⟨q, by simp [hq], rfl⟩
    · intro q hq
      rcases List.mem_cons.1 hq with rfl | hq
      · rw [he2]; exact List.mem_append_left _ (h1.all q (by simp))
      · exact h2.all q hq
    · intro it n
      rw [h2.fws, h1.fws]
      simp only [List.mem_cons, or_assoc, exists_eq_or_imp, List.not_mem_nil, false_and, exists_false, false_or]
    · intro hc it l
      have hc2 : c ∈ items (closeRule sid c follow cur r) := by rw [he1]; exact List.mem_append_left _ hc
      rw [h2.fplp hc2, h1.fplp hc]
      simp only [List.mem_cons, exists_eq_or_imp, List.not_mem_nil, or_false, exists_eq_left]
      tauto
    · intro it l
      rw [h2.bplp, h1.bplp]

/-! ## The whole closure -/

/-- Rule `r'` is added because of the item `c` -/
def Grammar.Step (g : Grammar) (c : Item) (r' : RuleId) : Prop :=
  ∃ A, g.next c = some A ∧ (g.sym A).kind = .nonTerminal ∧ r' ∈ (g.sym A).rules

/-- What follows the symbol after the dot -/
def Grammar.after (g : Grammar) (c : Item) : List SymbolId := (g.rhsSyms c.rule).drop (c.dot + 1)

/-- Items that are there because of those in `B` -/
inductive Grammar.Just (g : Grammar) (B : List Item) : Item → Prop
  | base {it} : it ∈ B → g.Just B it
  | step {c r'} : g.Just B c → g.Step c r' → g.Just B ⟨r', 0⟩

/-- The nonterminal after the dot has rules -/
def Grammar.NextOk (g : Grammar) (c : Item) : Prop :=
  ∀ A, g.next c = some A → (g.sym A).kind = .nonTerminal → (g.sym A).rules = [] → A = g.errorSymbol

/-- `res` is the closure of `cur`, as far as the items `P` are concerned -/
structure ClosedUpTo (g : Grammar) (sid : StateId) (cur : List Cfg) (P : List Item) (res : List Cfg) : Prop where
  ext : ∃ e, items res = items cur ++ e ∧ ∀ x ∈ e, x.dot = 0
  nodup : (items res).Nodup
  closed : ∀ c ∈ P, ∀ r', g.Step c r' → (⟨r', 0⟩ : Item) ∈ items res
  fws : ∀ it n, HasFw res it n ↔ HasFw cur it n ∨
    ∃ c ∈ P, ∃ r', g.Step c r' ∧ it = ⟨r', 0⟩ ∧ n ∈ (g.followOf (g.after c)).1
  fplp : ∀ it l, HasFp res it l ↔ HasFp cur it l ∨
    (it ∈ P ∧ (g.followOf (g.after it)).2 = false ∧ ∃ r', g.Step it r' ∧ l = ⟨sid, ⟨r', 0⟩⟩)
  bplp : ∀ it l, HasBp res it l ↔ HasBp cur it l
  just : ∀ it ∈ items res, g.Just (items cur) it
  ok : ∀ c ∈ P, g.NextOk c

theorem ClosedUpTo.start {g : Grammar} {sid : StateId} {cur : List Cfg} (h : (items cur).Nodup) : ClosedUpTo g sid cur [] cur :=
  ⟨⟨[], by simp, by simp⟩, h, by simp, by simp, by simp, by simp, fun _ h => .base h, by simp⟩

theorem closeItem_spec {g : Grammar} {sid : StateId} {cur c1 c2 : List Cfg} {P : List Item} {c : Item}
    (h : ClosedUpTo g sid cur P c1) (hc : c ∈ items c1) (hP : c ∉ P) (he : g.closeItem sid c1 c = .ok c2) :
    ClosedUpTo g sid cur (P ++ [c]) c2 ∧ items c1 <+: items c2 := by
  unfold Grammar.closeItem at he
  split at he
  · -- complete item
    rename_i hn
    cases he
    have hno : ∀ r', ¬ g.Step c r' := by
      rintro r' ⟨A, hA, _⟩
      unfold Grammar.next at hA
      rw [hn] at hA; cases hA
    refine ⟨⟨h.ext, h.nodup, ?_, ?_, ?_, h.bplp, h.just, ?_⟩, List.prefix_rfl⟩
    · intro d hd r' hs
      rcases List.mem_append.1 hd with hd | hd
      · exact h.closed d hd r' hs
      · rw [List.mem_singleton] at hd; subst hd; exact absurd hs (hno r')
    · intro it n
      rw [h.fws]
      simp only [List.mem_append, List.mem_singleton, or_and_right, exists_or, exists_eq_left]
      simp [hno]
    · intro it l
      rw [h.fplp]
      simp only [List.mem_append, List.mem_singleton]
      constructor
      · rintro (h1 | ⟨h1, h2⟩)
        · exact .inl h1
        · exact .inr ⟨.inl h1, h2⟩
      · rintro (h1 | ⟨h1 | rfl, h2, r', h3, _⟩)
        · exact .inl h1
        · exact .inr ⟨h1, h2, r', h3, ‹_›⟩
        · exact absurd h3 (hno r')
    · intro d hd
      rcases List.mem_append.1 hd with hd | hd
      · exact h.ok d hd
      · rw [List.mem_singleton] at hd; subst hd
        intro A hA
        unfold Grammar.next at hA
        rw [hn] at hA; cases hA
  · rename_i sp hn
    split at he
    · rename_i hk
      split at he
      · cases he
      · rename_i hrules
        cases he
        have hnext : g.next c = some sp := hn
        have hstep : ∀ r', g.Step c r' ↔ r' ∈ (g.sym sp).rules := by
          intro r'
          constructor
          · rintro ⟨A, hA, _, h2⟩
            rw [hnext] at hA; cases hA; exact h2
          · intro h2; exact ⟨sp, hnext, hk, h2⟩
        have hs := closeRules_spec sid c (g.followOf (g.after c)) (g.sym sp).rules c1
        obtain ⟨e, he, hx⟩ := hs.ext
        obtain ⟨e0, he0, hx0⟩ := h.ext
        refine ⟨⟨⟨e0 ++ e, ?_, ?_⟩, hs.nodup h.nodup, ?_, ?_, ?_, ?_, ?_, ?_⟩, ⟨e, he.symm⟩⟩
        · show items (List.foldl _ c1 _) = _
          rw [show g.followOf ((g.rhsSyms c.rule).drop (c.dot + 1)) = g.followOf (g.after c) from rfl, he, he0, List.append_assoc]
        · intro x hxx
          rcases List.mem_append.1 hxx with hh | hh
          · exact hx0 x hh
          · obtain ⟨r, _, rfl⟩ := hx x hh; rfl
        · intro d hd r' hst
          rcases List.mem_append.1 hd with hd | hd
          · have := h.closed d hd r' hst
            show _ ∈ items (List.foldl (closeRule sid c (g.followOf (g.after c))) c1 _)
            rw [he]; exact List.mem_append_left _ this
          · rw [List.mem_singleton] at hd; subst hd
            exact hs.all r' ((hstep r').1 hst)
        · intro it n
          have := hs.fws it n
          rw [h.fws] at this
          refine this.trans ?_
          simp only [List.mem_append, List.mem_singleton, or_and_right, exists_or, exists_eq_left, hstep, or_assoc]
        · intro it l
          have := hs.fplp hc it l
          rw [h.fplp] at this
          refine this.trans ?_
          simp only [List.mem_append, List.mem_singleton, or_and_right, or_assoc]
          refine or_congr_right (or_congr_right ?_)
          constructor
          · rintro ⟨rfl, h1, r, h2, h3⟩
            exact ⟨rfl, h1, r, (hstep r).2 h2, h3⟩
          · rintro ⟨rfl, h1, r, h2, h3⟩
            exact ⟨rfl, h1, r, (hstep r).1 h2, h3⟩
        · intro it l
          have := hs.bplp it l
          rw [h.bplp] at this
          exact this
        · intro it hit
          have hit2 : it ∈ items c1 ++ e := by rw [← he]; exact hit
          rcases List.mem_append.1 hit2 with hh | hh
          · exact h.just it hh
          · obtain ⟨r, hr, rfl⟩ := hx it hh
            exact .step (h.just c hc) ((hstep r).2 hr)
        · intro d hd
          rcases List.mem_append.1 hd with hd | hd
          · exact h.ok d hd
          · rw [List.mem_singleton] at hd; subst hd
            intro A hA _ hr
            rw [hnext] at hA; cases hA
            rw [hr] at hrules
            simpa using hrules
    · rename_i hk
      cases he
      have hnext : g.next c = some sp := hn
      have hno : ∀ r', ¬ g.Step c r' := by
        rintro r' ⟨A, hA, h2, _⟩
        rw [hnext] at hA; cases hA; exact hk h2
      refine ⟨⟨h.ext, h.nodup, ?_, ?_, ?_, h.bplp, h.just, ?_⟩, List.prefix_rfl⟩
      · intro d hd r' hs
        rcases List.mem_append.1 hd with hd | hd
        · exact h.closed d hd r' hs
        · rw [List.mem_singleton] at hd; subst hd; exact absurd hs (hno r')
      · intro it n
        rw [h.fws]
        simp only [List.mem_append, List.mem_singleton, or_and_right, exists_or, exists_eq_left]
        simp [hno]
      · intro it l
        rw [h.fplp]
        simp only [List.mem_append, List.mem_singleton]
        constructor
        · rintro (h1 | ⟨h1, h2⟩)
          · exact .inl h1
          · exact .inr ⟨.inl h1, h2⟩
        · rintro (h1 | ⟨h1 | rfl, h2, r', h3, _⟩)
          · exact .inl h1
          · exact .inr ⟨h1, h2, r', h3, ‹_›⟩
          · exact absurd h3 (hno r')
      · intro d hd
        rcases List.mem_append.1 hd with hd | hd
        · exact h.ok d hd
        · rw [List.mem_singleton] at hd; subst hd
          intro A hA h2
          rw [hnext] at hA; cases hA; exact absurd h2 hk

theorem closureLoop_spec {g : Grammar} {sid : StateId} {cur : List Cfg} : ∀ {fuel i : Nat} {c1 res : List Cfg},
    ClosedUpTo g sid cur ((items c1).take i) c1 → g.closureLoop sid fuel i c1 = .ok res →
    ClosedUpTo g sid cur (items res) res := by
  intro fuel
  induction fuel with
  | zero => intro i c1 res _ h; cases h
  | succ n ih =>
    intro i c1 res h he
    unfold Grammar.closureLoop at he
    split at he
    · rename_i hi
      cases he
      rw [List.getElem?_eq_none_iff] at hi
      rw [List.take_of_length_le (by simpa using hi)] at h
      exact h
    · rename_i c hi
      split at he
      · cases he
      · rename_i c2 hc2
        obtain ⟨hlt, hget⟩ := List.getElem?_eq_some_iff.1 hi
        have hmem : c.item ∈ items c1 := mem_items.2 ⟨c, List.mem_of_getElem? hi, rfl⟩
        have hit : (items c1)[i]? = some c.item := by simp [items, hi]
        have hnot : c.item ∉ (items c1).take i := by
          intro hh
          obtain ⟨j, hj, hje⟩ := List.getElem_of_mem hh
          rw [List.length_take] at hj
          rw [List.getElem_take] at hje
          have hilt : i < (items c1).length := by simpa using hlt
          have h2 : (items c1)[j] = (items c1)[i] := by
            rw [hje]
            have := List.getElem?_eq_some_iff.1 hit
            exact this.2.symm
          have := (List.Nodup.getElem_inj_iff h.nodup).1 h2
          omega
        obtain ⟨h1, hpre⟩ := closeItem_spec h hmem hnot hc2
        refine ih ?_ he
        have : (items c2).take (i + 1) = (items c1).take i ++ [c.item] := by
          obtain ⟨e, he⟩ := hpre
          rw [← he, List.take_append_of_le_length (by rw [List.length_map]; exact hlt), List.take_add_one, hit]
          rfl
        rw [this]
        exact h1

/-- The closure is right. -/
theorem closure_spec {g : Grammar} {sid : StateId} {cur res : List Cfg} (hn : (items cur).Nodup)
    (h : g.closure sid cur = .ok res) : ClosedUpTo g sid cur (items res) res := by
  refine closureLoop_spec (i := 0) ?_ h
  simpa using ClosedUpTo.start hn

/-! ## Its fuel is never used up -/

theorem closureLoop_noFuel {g : Grammar} (hi : GInv g) {sid : StateId} {cur : List Cfg} :
    ∀ {fuel i : Nat} {c1 : List Cfg}, ClosedUpTo g sid cur ((items c1).take i) c1 → i ≤ c1.length →
    cur.length + g.rules.length < fuel + i → g.closureLoop sid fuel i c1 ≠ .error .fuel := by
  have hlen : ∀ {i : Nat} {c1 : List Cfg}, ClosedUpTo g sid cur ((items c1).take i) c1 →
      c1.length ≤ cur.length + g.rules.length := by
    intro i c1 h
    obtain ⟨e, he, _⟩ := h.ext
    have hnd := h.nodup
    rw [he, List.nodup_append] at hnd
    have hstep : ∀ x, g.Just (items cur) x → x ∈ items cur ∨ (x.dot = 0 ∧ x.rule < g.rules.length) := by
      intro x hx
      cases hx with
      | base h => exact .inl h
      | step _ hs =>
        right
        obtain ⟨A, _, _, h3⟩ := hs
        refine ⟨rfl, ?_⟩
        by_cases hA : A < g.syms.length
        · exact ((hi.mem_rules hA).1 h3).1
        · exfalso
          have : (g.sym A).rules = [] := by
            unfold Grammar.sym
            rw [List.getD_eq_getElem?_getD, List.getElem?_eq_none (Nat.le_of_not_lt hA)]
            rfl
          rw [this] at h3; cases h3
    have he2 : ∀ x ∈ e, x.dot = 0 ∧ x.rule < g.rules.length := by
      intro x hx
      rcases hstep x (h.just x (by rw [he]; exact List.mem_append_right _ hx)) with h1 | h1
      · exact absurd rfl (hnd.2.2 x h1 x hx)
      · exact h1
    have h3 : (e.map (·.rule)).Nodup := by
      rw [List.nodup_map_iff_inj_on hnd.2.1]
      intro x hx y hy hxy
      have h1 := (he2 x hx).1
      have h2 := (he2 y hy).1
      cases x; cases y
      simp only at h1 h2 hxy
      subst h1 h2 hxy; rfl
    have h4 := length_le_of_nodup h3 (n := g.rules.length) (by
      intro k hk
      obtain ⟨x, hx, rfl⟩ := List.mem_map.1 hk
      exact (he2 x hx).2)
    have h5 := congrArg List.length he
    simp only [List.length_map, List.length_append] at h5 h4
    omega
  intro fuel
  induction fuel with
  | zero =>
    intro i c1 h hic hf
    have := hlen h
    omega
  | succ n ih =>
    intro i c1 h hic hf
    unfold Grammar.closureLoop
    split
    · simp
    · rename_i c hc
      split
      · rename_i e hce
        unfold Grammar.closeItem at hce
        split at hce
        · cases hce
        · split at hce
          · split at hce
            · cases hce; simp
            · cases hce
          · cases hce
      · rename_i c2 hc2
        obtain ⟨hlt, hget⟩ := List.getElem?_eq_some_iff.1 hc
        have hmem : c.item ∈ items c1 := mem_items.2 ⟨c, List.mem_of_getElem? hc, rfl⟩
        have hit : (items c1)[i]? = some c.item := by simp [items, hc]
        have hnot : c.item ∉ (items c1).take i := by
          intro hh
          obtain ⟨j, hj, hje⟩ := List.getElem_of_mem hh
          rw [List.length_take] at hj
          rw [List.getElem_take] at hje
          have h2 : (items c1)[j]'(by omega) = (items c1)[i]'(by simpa using hlt) := by
            rw [hje]
            exact (List.getElem?_eq_some_iff.1 hit).2.symm
          have := (List.Nodup.getElem_inj_iff h.nodup).1 h2
          omega
        obtain ⟨h1, hpre⟩ := closeItem_spec h hmem hnot hc2
        have ht : (items c2).take (i + 1) = (items c1).take i ++ [c.item] := by
          obtain ⟨e, he⟩ := hpre
          rw [← he, List.take_append_of_le_length (by rw [List.length_map]; exact hlt), List.take_add_one, hit]
          rfl
        refine ih (by rw [ht]; exact h1) ?_ (by omega)
        have := hpre.length_le
        simp only [List.length_map] at this
        omega

theorem closure_noFuel {g : Grammar} (hi : GInv g) {sid : StateId} {cur : List Cfg} (hn : (items cur).Nodup) :
    g.closure sid cur ≠ .error .fuel := by
  refine closureLoop_noFuel hi (cur := cur) (i := 0) ?_ (Nat.zero_le _) (by omega)
  simpa using ClosedUpTo.start hn

end Pomelo
