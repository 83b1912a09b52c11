import Verif.Proofs.Fallback
import Verif.Proofs.Auto
import Mathlib.Data.List.Sublists
/-! # The construction of the states ends -/

namespace Pomelo

open Spec

/-- All items of the grammar in order -/
def Grammar.allItems (g : Grammar) : List Item :=
  (List.range g.rules.length).flatMap (fun r => (List.range ((g.rhsSyms r).length + 1)).map (fun d => ⟨r, d⟩))

/-- An item of the grammar -/
def Grammar.HasItem (g : Grammar) (c : Item) : Prop := c.rule < g.rules.length ∧ c.dot ≤ (g.rhsSyms c.rule).length

theorem mem_allItems {g : Grammar} {c : Item} : c ∈ g.allItems ↔ g.HasItem c := by
  unfold Grammar.allItems Grammar.HasItem
  rw [List.mem_flatMap]
  constructor
  · rintro ⟨r, h1, h2⟩
    obtain ⟨d, h3, rfl⟩ := List.mem_map.1 h2
    exact ⟨List.mem_range.1 h1, Nat.le_of_lt_succ (List.mem_range.1 h3)⟩
  · rintro ⟨h1, h2⟩
    exact ⟨c.rule, List.mem_range.2 h1, List.mem_map.2 ⟨c.dot, List.mem_range.2 (Nat.lt_succ_of_le h2), rfl⟩⟩

theorem allItems_length (g : Grammar) : g.allItems.length = g.numItems := by
  unfold Grammar.allItems Grammar.numItems
  rw [List.length_flatMap]
  have : g.rules.map (fun r => r.rhs.length + 1) = (List.range g.rules.length).map (fun r => ((List.range ((g.rhsSyms r).length + 1)).map (fun d => (⟨r, d⟩ : Item))).length) := by
    apply List.ext_getElem
    · simp
    · intro i h1 h2
      simp only [List.getElem_map, List.getElem_range, List.length_map, List.length_range, Grammar.rhsSyms, Grammar.rule]
      rw [getD_of_lt (by simpa using h1)]
  rw [this]

theorem allItems_sorted (g : Grammar) : g.allItems.Pairwise (fun a b => a.lt b = true) := by
  unfold Grammar.allItems
  rw [List.pairwise_flatMap]
  constructor
  · intro r _
    rw [List.pairwise_map]
    exact List.pairwise_lt_range.imp (fun h => by simp [Item.lt, h])
  · refine List.pairwise_lt_range.imp ?_
    intro a b hab x hx y hy
    obtain ⟨_, _, rfl⟩ := List.mem_map.1 hx
    obtain ⟨_, _, rfl⟩ := List.mem_map.1 hy
    simp [Item.lt, hab]

/-- A list of different sorted lists of items is not longer than the number of sets of items. -/
theorem bases_bound {g : Grammar} {B : List (List Item)} (hn : B.Nodup) (hs : ∀ b ∈ B, b.Pairwise (fun a b => a.lt b = true) ∧ ∀ c ∈ b, g.HasItem c) :
    B.length ≤ 2 ^ g.numItems := by
  rw [← allItems_length, ← List.length_sublists]
  apply List.Subperm.length_le
  apply List.subperm_of_subset hn
  intro b hb
  obtain ⟨h1, h2⟩ := hs b hb
  rw [List.mem_sublists]
  have : b = g.allItems.filter (fun c => decide (c ∈ b)) := by
    refine sorted_ext h1 ((allItems_sorted g).sublist List.filter_sublist) ?_
    intro c
    simp only [List.mem_filter, decide_eq_true_eq, mem_allItems]
    exact ⟨fun h => ⟨h2 c h, h⟩, fun h => h.2⟩
  rw [this]
  exact List.filter_sublist

/-- The bases of the states are different sorted lists of items. -/
structure BInv (g : Grammar) (sts : List LState) : Prop where
  nodup : (sts.map (·.basis)).Nodup
  sorted : ∀ st ∈ sts, st.basis.Pairwise (fun a b => a.lt b = true)
  item : ∀ st ∈ sts, ∀ c ∈ st.basis, g.HasItem c

theorem BInv.of_bases {g : Grammar} {sts sts' : List LState} (h : BInv g sts) (he : sts'.map (·.basis) = sts.map (·.basis)) : BInv g sts' := by
  have hm : ∀ st ∈ sts', ∃ st0 ∈ sts, st0.basis = st.basis := by
    intro st hst
    have : st.basis ∈ sts.map (·.basis) := by rw [← he]; exact List.mem_map.2 ⟨st, hst, rfl⟩
    obtain ⟨st0, h1, h2⟩ := List.mem_map.1 this
    exact ⟨st0, h1, h2⟩
  refine ⟨by rw [he]; exact h.nodup, ?_, ?_⟩
  · intro st hst
    obtain ⟨st0, h1, h2⟩ := hm st hst
    rw [← h2]; exact h.sorted st0 h1
  · intro st hst
    obtain ⟨st0, h1, h2⟩ := hm st hst
    rw [← h2]; exact h.item st0 h1

theorem map_basis_modify (sts : List LState) (k : Nat) (f : LState → LState) (hf : ∀ st, (f st).basis = st.basis) :
    (sts.modify k f).map (·.basis) = sts.map (·.basis) := by
  apply List.ext_getElem?
  intro i
  rw [List.getElem?_map, List.getElem?_map, List.getElem?_modify]
  cases sts[i]? with
  | none => rfl
  | some st => by_cases e : k = i <;> simp [e, hf]

theorem mergeBack_basis (st : LState) (bp : List Cfg) : (mergeBack st bp).basis = st.basis := by
  unfold mergeBack
  induction bp generalizing st with
  | nil => rfl
  | cons b bp ih => rw [List.foldl_cons, ih]

/-- What `get_state` is called with -/
structure BOk (g : Grammar) (cur : List Cfg) : Prop where
  nodup : (items cur).Nodup
  item : ∀ c ∈ items cur, g.HasItem c

theorem BOk.shiftBasis {g : Grammar} {pending : List Cfg} (h : BOk g pending) (id : StateId) (sp : SymbolId) : BOk g (g.shiftBasis id sp pending) := by
  have hm : items (g.shiftBasis id sp pending) = (items (pending.filter (fun c => g.next c.item = some sp))).map Item.succ := by
    unfold items Grammar.shiftBasis
    rw [List.map_map, List.map_map]
    rfl
  constructor
  · rw [hm]
    exact (h.nodup.sublist (List.filter_sublist.map _)).map (fun a b => Item.succ_inj)
  · intro c hc
    rw [hm] at hc
    obtain ⟨d, h1, rfl⟩ := List.mem_map.1 hc
    obtain ⟨e, h2, rfl⟩ := List.mem_map.1 h1
    rw [List.mem_filter] at h2
    have hi := h.item e.item (List.mem_map.2 ⟨e, h2.1, rfl⟩)
    refine ⟨hi.1, ?_⟩
    have h3 : g.next e.item = some sp := by simpa using h2.2
    unfold Grammar.next at h3
    exact (List.getElem?_eq_some_iff.1 h3).1

theorem rules_lt {g : Grammar} (hi : GInv g) {A : SymbolId} {r : RuleId} (h : r ∈ (g.sym A).rules) : r < g.rules.length := by
  by_cases ha : A < g.syms.length
  · rw [hi.rulesOf A ha, List.mem_filter] at h
    exact List.mem_range.1 h.1
  · unfold Grammar.sym at h
    rw [List.getD_eq_getElem?_getD, List.getElem?_eq_none (Nat.le_of_not_lt ha)] at h
    cases h

/-- What is needed of `get_state` with enough fuel -/
def Enough (g : Grammar) (N : Nat) (get : List LState → List Cfg → Except GErr (List LState × StateId)) : Prop :=
  ∀ sts cur, BInv g sts → BOk g cur → N ≤ sts.length →
    get sts cur ≠ .error .fuel ∧ ∀ sts' k, get sts cur = .ok (sts', k) → BInv g sts' ∧ sts.length ≤ sts'.length

theorem shiftsLoop_enough {g : Grammar} {N : Nat} {get} (hget : Enough g N get) {id : StateId} :
    ∀ {fuel : Nat} {sts : List LState} {pending : List Cfg} {aps : List Action}, BInv g sts → BOk g pending → N ≤ sts.length →
      g.shiftsLoop get id fuel sts pending aps ≠ .error .fuel ∧
      ∀ sts' aps', g.shiftsLoop get id fuel sts pending aps = .ok (sts', aps') → BInv g sts' ∧ sts.length ≤ sts'.length := by
  intro fuel
  induction fuel with
  | zero =>
    intro sts pending aps hb _ _
    unfold Grammar.shiftsLoop
    refine ⟨by simp, ?_⟩
    intro sts' aps' h
    cases h
    exact ⟨hb, Nat.le_refl _⟩
  | succ n ih =>
    intro sts pending aps hb hp hN
    unfold Grammar.shiftsLoop
    cases pending with
    | nil =>
      simp only
      refine ⟨by simp, ?_⟩
      intro sts' aps' h
      cases h
      exact ⟨hb, Nat.le_refl _⟩
    | cons c rest =>
      simp only
      have hrest : BOk g rest := ⟨(List.nodup_cons.1 hp.nodup).2, fun d hd => hp.item d (List.mem_cons_of_mem _ hd)⟩
      cases hnx : g.next c.item with
      | none => exact ih hb hrest hN
      | some sp =>
        simp only
        obtain ⟨h1, h2⟩ := hget sts _ hb (hp.shiftBasis id sp) hN
        split
        · rename_i e he
          refine ⟨?_, by simp⟩
          intro h
          cases h
          exact h1 he
        · rename_i sts1 new he
          obtain ⟨h3, h4⟩ := h2 _ _ he
          have hf : BOk g (rest.filter (fun c => g.next c.item ≠ some sp)) :=
            ⟨hrest.nodup.sublist (List.filter_sublist.map _), fun d hd => hrest.item d ((List.filter_sublist.map _).subset hd)⟩
          obtain ⟨h5, h6⟩ := ih (aps := aps ++ g.shiftActions sp new) h3 hf (Nat.le_trans hN h4)
          exact ⟨h5, fun sts' aps' h => ⟨(h6 _ _ h).1, Nat.le_trans h4 (h6 _ _ h).2⟩⟩

theorem getState_enough {g : Grammar} (hi : GInv g) : ∀ fuel, Enough g (2 ^ g.numItems + 1 - fuel) (g.getState fuel) := by
  intro fuel
  induction fuel with
  | zero =>
    intro sts cur hb _ hN
    exfalso
    have := bases_bound (g := g) hb.nodup (by
      intro b hm
      obtain ⟨st, h1, rfl⟩ := List.mem_map.1 hm
      exact ⟨hb.sorted st h1, hb.item st h1⟩)
    rw [List.length_map] at this
    omega
  | succ n ih =>
    intro sts cur hb hc hN
    unfold Grammar.getState
    simp only
    split
    · rename_i k hk
      refine ⟨by simp, ?_⟩
      intro sts' k' h
      cases h
      refine ⟨hb.of_bases (map_basis_modify _ _ _ (fun st => mergeBack_basis st _)), by simp⟩
    · rename_i hnone
      split
      · rename_i e he
        refine ⟨?_, by simp⟩
        intro h
        cases h
        exact closure_noFuel hi hc.nodup he
      · rename_i configs hcl
        have hsp := closure_spec hc.nodup hcl
        have hbs : BInv g (sts ++ [({ configs := sortCfgs configs, basis := (sortCfgs cur).map (·.item) } : LState)]) := by
          refine ⟨?_, ?_, ?_⟩
          · rw [List.map_append, List.nodup_append]
            refine ⟨hb.nodup, by simp, ?_⟩
            rintro a ha b hb' rfl
            simp only [List.map_cons, List.map_nil, List.mem_singleton] at hb'
            obtain ⟨st, h1, h2⟩ := List.mem_map.1 ha
            have := List.findIdx?_eq_none_iff.1 hnone st h1
            simp [h2, hb'] at this
          · intro st hst
            rcases List.mem_append.1 hst with h | h
            · exact hb.sorted st h
            · rw [List.mem_singleton] at h
              subst h
              exact sorted_sortCfgs hc.nodup
          · intro st hst
            rcases List.mem_append.1 hst with h | h
            · exact hb.item st h
            · rw [List.mem_singleton] at h
              subst h
              intro c hcm
              exact hc.item c (mem_items_sort.1 hcm)
        have hconf : BOk g (sortCfgs configs) := by
          refine ⟨(items_sort_perm configs).nodup_iff.2 hsp.nodup, ?_⟩
          intro c hcm
          have hj := hsp.just c (mem_items_sort.1 hcm)
          cases hj with
          | base h => exact hc.item _ h
          | step h hst =>
            obtain ⟨A, _, _, hA⟩ := hst
            exact ⟨rules_lt hi hA, Nat.zero_le _⟩
        obtain ⟨h1, h2⟩ := shiftsLoop_enough (id := sts.length) (fuel := (sortCfgs configs).length) (aps := []) ih hbs hconf (by simp; omega)
        split
        · rename_i e he
          refine ⟨?_, by simp⟩
          intro h
          cases h
          exact h1 he
        · rename_i sts1 aps he
          refine ⟨by simp, ?_⟩
          intro sts' k h
          cases h
          obtain ⟨h3, h4⟩ := h2 _ _ he
          refine ⟨h3.of_bases (map_basis_modify _ _ _ (fun _ => rfl)), ?_⟩
          simp at h4 ⊢
          omega

/-! ## The follow sets -/

theorem followOf_lt {g : Grammar} (hi : GInv g) (hf : FirstExact g) (hk : ∀ x, (g.sym x).firstSet ≠ [] → (g.sym x).kind = .nonTerminal)
    {α : List SymbolId} {n : Nat} (h : n ∈ (g.followOf α).1) : n < g.syms.length := by
  obtain ⟨a, X, β, rfl, _, _⟩ := (hf.follow hk n).1 h
  by_cases ha : a < g.syms.length
  · exact (hi.perm a ha).1
  · have : g.sym a = default := by
      unfold Grammar.sym
      rw [List.getD_eq_getElem?_getD, List.getElem?_eq_none (Nat.le_of_not_lt ha)]
      rfl
    rw [this]
    exact Nat.lt_of_lt_of_le (by decide) hi.two

theorem follow_ends {g : Grammar} (hgi : GInv g) (hf : FirstExact g) (hk : ∀ x, (g.sym x).firstSet ≠ [] → (g.sym x).kind = .nonTerminal)
    {sts : List LState} {cur : List Cfg} {k : StateId}
    (hc : CurOk g (g.sym (g.start.getD 0)).rules [] cur) {fuel : Nat} (hs : g.getState fuel [] cur = .ok (sts, k)) :
    ∃ sts', findFollowSets g.syms.length (findLinks sts) = .ok sts' := by
  have hp := getState_ok g _ fuel [] cur sts k (SInv.nil _ _) hc hs
  have hi := hp.inv
  have hnd : ∀ q, (items (cfgs sts q)).Nodup := by
    intro q
    by_cases hq : q < sts.length
    · exact (hi.built q hq).nodup
    · rw [cfgs_nil hq]; simp
  have vfw : ∀ (x : CRef) m, m ∈ (getRef sts x).fws ↔ HasFw (cfgs sts x.state) x.item m :=
    fun x m => view_getRef (hnd _) (fun c => c.fws) rfl m
  have vfp : ∀ (x : CRef) m, m ∈ (getRef sts x).fplp ↔ HasFp (cfgs sts x.state) x.item m :=
    fun x m => view_getRef (hnd _) (fun c => c.fplp) rfl m
  have vbp : ∀ (x : CRef) m, m ∈ (getRef sts x).bplp ↔ HasBp (cfgs sts x.state) x.item m :=
    fun x m => view_getRef (hnd _) (fun c => c.bplp) rfl m
  have hlt : ∀ {x : CRef} {P : Cfg → Prop}, (∃ c ∈ cfgs sts x.state, c.item = x.item ∧ P c) → x.state < sts.length := by
    rintro x P ⟨c, h1, _⟩
    by_contra hn
    rw [cfgs_nil hn] at h1; cases h1
  obtain ⟨l1, l2⟩ := findLinks_spec (sts := sts) (by
    intro x l hl
    rw [vbp] at hl
    obtain ⟨sp, h1, h2, _⟩ := hi.links x.state (hlt hl) x.item l hl
    exact ⟨h1.src, h2⟩)
  have hlinks : ∀ x y, y ∈ (getRef (findLinks sts) x).fplp →
      (x.state < sts.length ∧ x.item ∈ items (cfgs sts x.state) ∧ ∃ r', g.Step x.item r' ∧ y = ⟨x.state, ⟨r', 0⟩⟩) ∨
      (∃ sp, g.next x.item = some sp ∧ g.Trans sts x.state sp y.state ∧ x.item ∈ items (cfgs sts x.state) ∧ y.item = x.item.succ) := by
    intro x y
    rw [(l2 x).2, vfp, vbp]
    rintro (h | h)
    · have hq := hlt h
      obtain ⟨a, _, b⟩ := ((hi.built _ hq).fplp _ _).1 h
      exact .inl ⟨hq, a, b⟩
    · obtain ⟨sp, h1, h2, h3, h4⟩ := hi.links _ (hlt h) _ _ h
      exact .inr ⟨sp, h3, h1, h2, h4⟩
  refine findFollowSets_ends ?_ ?_
  · intro x l hl
    apply l1.valid.2
    rcases hlinks x l hl with ⟨hq, h1, r', h2, rfl⟩ | ⟨sp, h1, h2, h3, h4⟩
    · exact ⟨hq, (hi.built _ hq).closed _ h1 r' h2⟩
    · refine ⟨h2.dst, (hi.built _ h2.dst).sub _ ?_⟩
      rw [h2.basis, h4]
      exact ⟨x.item, h3, h1, rfl⟩
  · intro x n h
    induction h with
    | base h =>
      rw [(l2 _).1, vfw] at h
      rcases ((hi.built _ (hlt h)).fws _ _).1 h with ⟨_, _, rfl⟩ | ⟨c, _, r', _, _, h4⟩
      · exact Nat.lt_of_lt_of_le (by decide) hgi.two
      · exact followOf_lt hgi hf hk h4
    | link _ _ ih => exact ih

/-! ## The fallback walks -/

/-- The chain from `a` has `k` steps. -/
inductive EndsIn {α : Type} (f : α → Option α) : α → Nat → Prop
  | stop {a : α} : f a = none → EndsIn f a 0
  | next {a b : α} {k : Nat} : f a = some b → EndsIn f b k → EndsIn f a (k + 1)

theorem endsIn_of_ends {α : Type} {f : α → Option α} {a : α} (h : Ends f a) : ∃ k, EndsIn f a k := by
  induction h with
  | stop h => exact ⟨0, .stop h⟩
  | next h _ ih => obtain ⟨k, hk⟩ := ih; exact ⟨k + 1, .next h hk⟩

theorem EndsIn.unique {α : Type} {f : α → Option α} {a : α} {k : Nat} (h : EndsIn f a k) : ∀ {j : Nat}, EndsIn f a j → j = k := by
  induction h with
  | stop h =>
    intro j hj
    cases hj with
    | stop _ => rfl
    | next h2 _ => rw [h] at h2; cases h2
  | next h _ ih =>
    intro j hj
    cases hj with
    | stop h2 => rw [h] at h2; cases h2
    | next h2 h3 =>
      rw [h] at h2
      cases h2
      rw [ih h3]

theorem EndsIn.path {f : Nat → Option Nat} {n : Nat} (hf : ∀ a b, f a = some b → b < n) {a k : Nat} (h : EndsIn f a k) : a < n →
    ∃ l : List Nat, l.length = k + 1 ∧ l.Nodup ∧ (∀ x ∈ l, x < n) ∧ ∀ x ∈ l, ∃ j, j ≤ k ∧ EndsIn f x j := by
  induction h with
  | @stop a h => exact fun ha => ⟨[a], rfl, by simp, by simpa using ha, by simpa using .stop h⟩
  | @next a b k h hb ih =>
    intro ha
    obtain ⟨l, h1, h2, h3, h4⟩ := ih (hf a b h)
    refine ⟨a :: l, by simp [h1], List.nodup_cons.2 ⟨?_, h2⟩, ?_, ?_⟩
    · intro hm
      obtain ⟨j, hj, he⟩ := h4 a hm
      have := (EndsIn.next h hb).unique he
      omega
    · simpa using ⟨ha, h3⟩
    · intro x hx
      rcases List.mem_cons.1 hx with rfl | hx
      · exact ⟨k + 1, Nat.le_refl _, .next h hb⟩
      · obtain ⟨j, hj, he⟩ := h4 x hx
        exact ⟨j, Nat.le_succ_of_le hj, he⟩

/-- A chain that ends has fewer steps than there are elements. -/
theorem EndsIn.lt {f : Nat → Option Nat} {n : Nat} (hf : ∀ a b, f a = some b → b < n) {a k : Nat} (h : EndsIn f a k) (ha : a < n) : k < n := by
  obtain ⟨l, h1, h2, h3, _⟩ := h.path hf ha
  have : l.length ≤ (List.range n).length := (List.subperm_of_subset h2 (fun x hx => List.mem_range.2 (h3 x hx))).length_le
  rw [List.length_range] at this
  omega

theorem fallbackWalk_ends {g : Grammar} {ss : List SymbolId} {s k : Nat} (h : EndsIn (fun s => (g.sym s).fallback) s k) :
    ∀ {fuel : Nat}, k < fuel → g.fallbackWalk ss fuel s ≠ .error .hang := by
  induction h with
  | stop h =>
    intro fuel hf
    obtain ⟨m, rfl⟩ := Nat.exists_eq_succ_of_ne_zero (Nat.ne_zero_of_lt hf)
    unfold Grammar.fallbackWalk
    rw [h]
    simp
  | next h _ ih =>
    intro fuel hf
    obtain ⟨m, rfl⟩ := Nat.exists_eq_succ_of_ne_zero (Nat.ne_zero_of_lt hf)
    unfold Grammar.fallbackWalk
    rw [h]
    simp only
    split
    · simp
    · exact ih (Nat.lt_of_succ_lt_succ hf)

theorem fallbackDiffers_ends {g : Grammar} {acts : List Action} {d : Detail} {s k : Nat} (h : EndsIn (fun s => (g.sym s).fallback) s k) :
    ∀ {fuel : Nat}, k < fuel → ∃ b, g.fallbackDiffers acts d fuel s = .ok b := by
  induction h with
  | stop h =>
    intro fuel hf
    obtain ⟨m, rfl⟩ := Nat.exists_eq_succ_of_ne_zero (Nat.ne_zero_of_lt hf)
    unfold Grammar.fallbackDiffers
    rw [h]
    exact ⟨_, rfl⟩
  | next h _ ih =>
    intro fuel hf
    obtain ⟨m, rfl⟩ := Nat.exists_eq_succ_of_ne_zero (Nat.ne_zero_of_lt hf)
    unfold Grammar.fallbackDiffers
    rw [h]
    simp only
    split
    · split
      · exact ih (Nat.lt_of_succ_lt_succ hf)
      · exact ⟨_, rfl⟩
    · exact ih (Nat.lt_of_succ_lt_succ hf)

end Pomelo
