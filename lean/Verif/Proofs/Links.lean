import Verif.Proofs.GetState
/-! # Propagation links and follow sets -/

namespace Pomelo

open Spec

/-- A configuration of some state -/
def Valid (sts : List LState) (r : CRef) : Prop := r.state < sts.length ∧ r.item ∈ items (cfgs sts r.state)

theorem mem_allRefs {sts : List LState} {r : CRef} : r ∈ allRefs sts ↔ Valid sts r := by
  unfold allRefs Valid
  rw [List.mem_flatMap]
  constructor
  · rintro ⟨⟨st, q⟩, h1, h2⟩
    obtain ⟨c, h3, rfl⟩ := List.mem_map.1 h2
    have h4 : sts[q]? = some st := by simpa using List.mem_zipIdx_iff_getElem?.1 h1
    obtain ⟨h5, h6⟩ := List.getElem?_eq_some_iff.1 h4
    refine ⟨h5, ?_⟩
    simp only
    unfold cfgs
    rw [getD_of_lt h5, h6]
    exact List.mem_map_of_mem h3
  · rintro ⟨h1, h2⟩
    refine ⟨(sts[r.state], r.state), ?_, ?_⟩
    · rw [List.mem_zipIdx_iff_getElem?]; simp [List.getElem?_eq_getElem h1]
    · obtain ⟨c, h3, h4⟩ := mem_items.1 h2
      unfold cfgs at h3
      rw [getD_of_lt h1] at h3
      exact List.mem_map.2 ⟨c, h3, by rw [h4]⟩

theorem cfgs_modifyRef (sts : List LState) (r : CRef) (f : Cfg → Cfg) (q : StateId) :
    cfgs (modifyRef sts r f) q = if r.state = q then modifyCfg (cfgs sts q) r.item f else cfgs sts q := by
  unfold modifyRef
  rw [cfgs_modify]
  by_cases h : r.state = q
  · by_cases h2 : q < sts.length
    · rw [if_pos ⟨h, h2⟩, if_pos h]; rfl
    · rw [if_neg (fun h3 => h2 h3.2), if_pos h]
      have : cfgs sts q = [] := by
        unfold cfgs
        rw [List.getD_eq_getElem?_getD, List.getElem?_eq_none (Nat.le_of_not_lt h2)]
        rfl
      rw [this]; rfl
  · rw [if_neg (fun h3 => h h3.1), if_neg h]

/-- The same states with the same items, basis and shift actions -/
structure SameShape (sts sts' : List LState) : Prop where
  len : sts'.length = sts.length
  basis : ∀ q, basisOf sts' q = basisOf sts q
  acts : ∀ q, actsOf sts' q = actsOf sts q
  items : ∀ q, items (cfgs sts' q) = items (cfgs sts q)

theorem SameShape.refl (sts : List LState) : SameShape sts sts := ⟨rfl, fun _ => rfl, fun _ => rfl, fun _ => rfl⟩
theorem SameShape.trans {a b c : List LState} (h1 : SameShape a b) (h2 : SameShape b c) : SameShape a c :=
  ⟨h2.len.trans h1.len, fun q => (h2.basis q).trans (h1.basis q), fun q => (h2.acts q).trans (h1.acts q),
    fun q => (h2.items q).trans (h1.items q)⟩

theorem SameShape.valid {a b : List LState} (h : SameShape a b) {r : CRef} : Valid b r ↔ Valid a r := by
  unfold Valid; rw [h.len, h.items]

theorem SameShape.modifyRef (sts : List LState) (r : CRef) (f : Cfg → Cfg) (hf : ∀ c, (f c).item = c.item) :
    SameShape sts (modifyRef sts r f) := by
  refine ⟨by unfold Pomelo.modifyRef; simp, ?_, ?_, ?_⟩
  · intro q; exact basisOf_modify sts r.state (fun st => { st with configs := modifyCfg st.configs r.item f }) (fun _ => rfl) q
  · intro q; exact actsOf_modify sts r.state (fun st => { st with configs := modifyCfg st.configs r.item f }) (fun _ => rfl) q
  · intro q
    rw [cfgs_modifyRef]
    split
    · exact items_modifyCfg hf
    · rfl

theorem allRefs_eq : ∀ {a b : List LState}, SameShape a b → allRefs b = allRefs a := by
  intro a b h
  unfold allRefs
  have hl : ∀ l : List LState, l.zipIdx.flatMap (fun (st, q) => st.configs.map (fun c => (⟨q, c.item⟩ : CRef))) =
      (List.range l.length).flatMap (fun q => (items (cfgs l q)).map (fun it => (⟨q, it⟩ : CRef))) := by
    intro l
    rw [List.flatMap_def, List.flatMap_def]
    congr 1
    refine List.ext_getElem (by simp) ?_
    intro i h1 h2
    simp only [List.length_map, List.length_zipIdx] at h1
    simp only [List.getElem_map, List.getElem_zipIdx, List.getElem_range, Nat.zero_add, items, List.map_map, cfgs]
    rw [getD_of_lt h1]
    rfl
  rw [hl a, hl b, h.len]
  congr 1
  funext q
  rw [h.items]

theorem find_modifyCfg (f : Cfg → Cfg) (hf : ∀ c, (f c).item = c.item) (i it : Item) : ∀ cur : List Cfg,
    (modifyCfg cur i f).find? (fun c => c.item = it) =
      (cur.find? (fun c => c.item = it)).map (fun c => if it = i then f c else c) := by
  intro cur
  induction cur with
  | nil => rfl
  | cons c cur ih =>
    unfold modifyCfg at ih ⊢
    rw [List.map_cons, List.find?_cons, List.find?_cons]
    by_cases h : c.item = it
    · by_cases h2 : c.item = i
      · rw [if_pos h2]
        simp [hf, h, ← h2]
      · rw [if_neg h2]
        have h3 : ¬ it = i := by rw [← h]; exact h2
        simp [h, h3]
    · have : ¬ ((if c.item = i then f c else c).item = it) := by
        split
        · rw [hf]; exact h
        · exact h
      simp only [this, h, decide_false]
      exact ih

theorem getRef_modifyRef {sts : List LState} {r : CRef} (f : Cfg → Cfg) (hf : ∀ c, (f c).item = c.item) (hr : Valid sts r) (x : CRef) :
    getRef (modifyRef sts r f) x = if x = r then f (getRef sts r) else getRef sts x := by
  have h1 : ∀ (s : List LState) x, getRef s x = ((cfgs s x.state).find? (fun c => c.item = x.item)).getD default := fun _ _ => rfl
  rw [h1, cfgs_modifyRef]
  by_cases hs : r.state = x.state
  · rw [if_pos hs, find_modifyCfg f hf]
    by_cases hi : x.item = r.item
    · have hx : x = r := by cases x; cases r; simp_all
      subst hx
      rw [if_pos rfl, h1]
      obtain ⟨c, h2, h3⟩ := mem_items.1 hr.2
      have : ∃ d, (cfgs sts x.state).find? (fun c => c.item = x.item) = some d := by
        cases hf : (cfgs sts x.state).find? (fun c => c.item = x.item) with
        | some d => exact ⟨d, rfl⟩
        | none =>
          rw [List.find?_eq_none] at hf
          exact absurd (by simpa using h3) (hf c h2)
      obtain ⟨d, hd⟩ := this
      rw [hd]; simp
    · have hx : ¬ x = r := fun h => hi (by rw [h])
      rw [if_neg hx, h1]
      simp only [if_neg hi, Option.map_id']
  · have hx : ¬ x = r := fun h => hs (by rw [h])
    rw [if_neg hs, if_neg hx, h1]

/-- In terms of the views -/
theorem getRef_mem {sts : List LState} {r : CRef} (hn : (items (cfgs sts r.state)).Nodup) {c : Cfg} (h1 : c ∈ cfgs sts r.state)
    (h2 : c.item = r.item) : getRef sts r = c := by
  have : (cfgs sts r.state).find? (fun c => c.item = r.item) = some c := by
    rw [List.find?_eq_some_iff_append]
    refine ⟨by simpa using h2, ?_⟩
    obtain ⟨l1, l2, h3⟩ := List.append_of_mem h1
    refine ⟨l1, l2, h3, ?_⟩
    intro d hd
    rw [h3] at hn
    simp only [items, List.map_append, List.map_cons, List.nodup_append, List.mem_map] at hn
    have := hn.2.2 d.item ⟨d, hd, rfl⟩ c.item (by simp)
    simpa [← h2] using this
  show ((cfgs sts r.state).find? (fun c => c.item = r.item)).getD default = c
  rw [this]; rfl

theorem getRef_invalid {sts : List LState} {r : CRef} (h : ¬ r.item ∈ items (cfgs sts r.state)) : getRef sts r = default := by
  have : (cfgs sts r.state).find? (fun c => c.item = r.item) = none := by
    rw [List.find?_eq_none]
    intro c hc h2
    exact h (mem_items.2 ⟨c, hc, by simpa using h2⟩)
  show ((cfgs sts r.state).find? (fun c => c.item = r.item)).getD default = default
  rw [this]; rfl

theorem view_getRef {α : Type} {sts : List LState} {r : CRef} (hn : (items (cfgs sts r.state)).Nodup) (p : Cfg → List α) (hp : p default = [])
    (x : α) : x ∈ p (getRef sts r) ↔ ∃ c ∈ cfgs sts r.state, c.item = r.item ∧ x ∈ p c := by
  by_cases h : r.item ∈ items (cfgs sts r.state)
  · obtain ⟨c, h1, h2⟩ := mem_items.1 h
    rw [getRef_mem hn h1 h2]
    constructor
    · intro h3; exact ⟨c, h1, h2, h3⟩
    · rintro ⟨d, h3, h4, h5⟩
      rw [← getRef_mem hn h1 h2, getRef_mem hn h3 h4]; exact h5
  · rw [getRef_invalid h, hp]
    constructor
    · intro h3; cases h3
    · rintro ⟨d, h3, h4, h5⟩; exact absurd (mem_items.2 ⟨d, h3, h4⟩) h

theorem cfgs_nil {sts : List LState} {q : StateId} (h : ¬ q < sts.length) : cfgs sts q = [] := by
  unfold cfgs
  rw [List.getD_eq_getElem?_getD, List.getElem?_eq_none (Nat.le_of_not_lt h)]
  rfl

/-! ## `find_links` -/

theorem pushLinks {r : CRef} : ∀ (ls : List CRef) (sts : List LState), (∀ l ∈ ls, Valid sts l) →
    SameShape sts (ls.foldl (fun sts plp => modifyRef sts plp (fun c => { c with fplp := c.fplp ++ [r] })) sts) ∧
    ∀ x, (getRef (ls.foldl (fun sts plp => modifyRef sts plp (fun c => { c with fplp := c.fplp ++ [r] })) sts) x).fws = (getRef sts x).fws ∧
      (getRef (ls.foldl (fun sts plp => modifyRef sts plp (fun c => { c with fplp := c.fplp ++ [r] })) sts) x).bplp = (getRef sts x).bplp ∧
      ∀ y, y ∈ (getRef (ls.foldl (fun sts plp => modifyRef sts plp (fun c => { c with fplp := c.fplp ++ [r] })) sts) x).fplp ↔
        y ∈ (getRef sts x).fplp ∨ (x ∈ ls ∧ y = r) := by
  intro ls
  induction ls with
  | nil => intro sts _; exact ⟨.refl _, fun x => ⟨rfl, rfl, fun y => by simp⟩⟩
  | cons l ls ih =>
    intro sts hv
    rw [List.foldl_cons]
    have hl := hv l (by simp)
    have hss := SameShape.modifyRef sts l (fun c => { c with fplp := c.fplp ++ [r] }) (fun _ => rfl)
    obtain ⟨h1, h2⟩ := ih _ (fun x hx => hss.valid.2 (hv x (by simp [hx])))
    refine ⟨hss.trans h1, ?_⟩
    intro x
    obtain ⟨h3, h4, h5⟩ := h2 x
    rw [h3, h4]
    have hg := getRef_modifyRef (fun c => { c with fplp := c.fplp ++ [r] }) (fun _ => rfl) hl x
    refine ⟨?_, ?_, ?_⟩
    · rw [hg]; split
      · rename_i e; rw [e]
      · rfl
    · rw [hg]; split
      · rename_i e; rw [e]
      · rfl
    · intro y
      rw [h5, hg]
      by_cases e : x = l
      · subst e
        rw [if_pos rfl]
        simp only [List.mem_append, List.mem_cons, true_or, true_and]
        tauto
      · rw [if_neg e]
        simp only [List.mem_cons, e, false_or]

theorem linksFold : ∀ (rs : List CRef) (sts : List LState), (∀ x, ∀ l ∈ (getRef sts x).bplp, Valid sts l) →
    SameShape sts (rs.foldl (fun sts r =>
      (getRef sts r).bplp.foldl (fun sts plp => modifyRef sts plp (fun c => { c with fplp := c.fplp ++ [r] })) sts) sts) ∧
    ∀ x, (getRef (rs.foldl (fun sts r =>
      (getRef sts r).bplp.foldl (fun sts plp => modifyRef sts plp (fun c => { c with fplp := c.fplp ++ [r] })) sts) sts) x).fws = (getRef sts x).fws ∧
      ∀ y, y ∈ (getRef (rs.foldl (fun sts r =>
      (getRef sts r).bplp.foldl (fun sts plp => modifyRef sts plp (fun c => { c with fplp := c.fplp ++ [r] })) sts) sts) x).fplp ↔
        y ∈ (getRef sts x).fplp ∨ (y ∈ rs ∧ x ∈ (getRef sts y).bplp) := by
  intro rs
  induction rs with
  | nil => intro sts _; exact ⟨.refl _, fun x => ⟨rfl, fun y => by simp⟩⟩
  | cons r rs ih =>
    intro sts hv
    rw [List.foldl_cons]
    obtain ⟨a1, a2⟩ := pushLinks (r := r) (getRef sts r).bplp sts (hv r)
    obtain ⟨h1, h2⟩ := ih _ (by
      intro x l hl
      rw [(a2 x).2.1] at hl
      exact a1.valid.2 (hv x l hl))
    refine ⟨a1.trans h1, ?_⟩
    intro x
    obtain ⟨h3, h4⟩ := h2 x
    refine ⟨by rw [h3, (a2 x).1], ?_⟩
    intro y
    rw [h4, (a2 x).2.2, (a2 y).2.1]
    simp only [List.mem_cons]
    constructor
    · rintro ((h | ⟨h, rfl⟩) | ⟨h, h'⟩)
      · exact .inl h
      · exact .inr ⟨.inl rfl, h⟩
      · exact .inr ⟨.inr h, h'⟩
    · rintro (h | ⟨rfl | h, h'⟩)
      · exact .inl (.inl h)
      · exact .inl (.inr ⟨h', rfl⟩)
      · exact .inr ⟨h, h'⟩

/-- `find_links` turns the backward links around and adds them to the forward links. -/
theorem findLinks_spec {sts : List LState} (hv : ∀ x, ∀ l ∈ (getRef sts x).bplp, Valid sts l) :
    SameShape sts (findLinks sts) ∧ ∀ x, (getRef (findLinks sts) x).fws = (getRef sts x).fws ∧
      ∀ y, y ∈ (getRef (findLinks sts) x).fplp ↔ y ∈ (getRef sts x).fplp ∨ x ∈ (getRef sts y).bplp := by
  obtain ⟨h1, h2⟩ := linksFold (allRefs sts) sts hv
  refine ⟨h1, fun x => ⟨(h2 x).1, fun y => ?_⟩⟩
  unfold findLinks
  rw [(h2 x).2]
  refine or_congr_right ⟨fun h => h.2, fun h => ⟨?_, h⟩⟩
  rw [mem_allRefs]
  by_cases hy : y.item ∈ items (cfgs sts y.state)
  · refine ⟨?_, hy⟩
    by_contra hn
    rw [cfgs_nil hn] at hy
    cases hy
  · rw [getRef_invalid hy] at h; cases h

/-! ## `find_follow_sets` -/

/-- Least sets closed under the forward links -/
inductive Flows (sts : List LState) : CRef → Nat → Prop
  | base {r n} : n ∈ (getRef sts r).fws → Flows sts r n
  | link {r l n} : Flows sts r n → l ∈ (getRef sts r).fplp → Flows sts l n

theorem propagate_spec {F : List Nat} {acc : List LState × Bool} {l : CRef} (hl : Valid acc.1 l) :
    SameShape acc.1 (propagate F acc l).1 ∧
    (∀ x, (getRef (propagate F acc l).1 x).fplp = (getRef acc.1 x).fplp) ∧
    (∀ x n, n ∈ (getRef (propagate F acc l).1 x).fws ↔ n ∈ (getRef acc.1 x).fws ∨ (x = l ∧ n ∈ F)) ∧
    (∀ x, (getRef (propagate F acc l).1 x).complete = true → (getRef acc.1 x).complete = true ∧
      (getRef (propagate F acc l).1 x).fws = (getRef acc.1 x).fws) ∧
    ((propagate F acc l).2 = false → propagate F acc l = acc) ∧
    ((propagate F acc l).2 = true → acc.2 = true ∨ ∃ n, n ∈ F ∧ n ∉ (getRef acc.1 l).fws) := by
  unfold propagate
  simp only
  split
  · rename_i hlt
    have hss := SameShape.modifyRef acc.1 l (fun c => { c with fws := setUnion (getRef acc.1 l).fws F, complete := false }) (fun _ => rfl)
    have hg := fun x => getRef_modifyRef (fun c => { c with fws := setUnion (getRef acc.1 l).fws F, complete := false }) (fun _ => rfl) hl x
    refine ⟨hss, ?_, ?_, ?_, by simp, ?_⟩
    · intro x; simp only; rw [hg]; split
      · rename_i e; rw [e]
      · rfl
    · intro x n; simp only; rw [hg]; split
      · rename_i e; subst e; simp [mem_setUnion]
      · rename_i e; simp [e]
    · intro x; simp only; rw [hg]; split
      · intro h; simp at h
      · intro h; exact ⟨h, rfl⟩
    · intro hh
      clear hh
      right
      by_contra hcon
      push Not at hcon
      have : setUnion (getRef acc.1 l).fws F = (getRef acc.1 l).fws := by
        clear hlt hss hg
        generalize (getRef acc.1 l).fws = s at hcon
        unfold setUnion
        induction F with
        | nil => rfl
        | cons a F ih =>
          rw [List.foldl_cons]
          have : setInsert s a = s := by unfold setInsert; rw [if_pos (by simpa using hcon a (by simp))]
          rw [this]
          exact ih (fun n hn => hcon n (by simp [hn]))
      rw [this] at hlt
      exact Nat.lt_irrefl _ hlt
  · rename_i hnlt
    obtain ⟨_, hsub⟩ := setUnion_eq_of_length hnlt
    refine ⟨.refl _, fun _ => rfl, ?_, fun _ h => ⟨h, rfl⟩, fun _ => rfl, fun h => .inl h⟩
    intro x n
    constructor
    · exact .inl
    · rintro (h | ⟨rfl, h⟩)
      · exact h
      · exact hsub n h

theorem propagate_fold {F : List Nat} : ∀ {ls : List CRef} {acc : List LState × Bool}, (∀ l ∈ ls, Valid acc.1 l) →
    SameShape acc.1 (ls.foldl (propagate F) acc).1 ∧
    (∀ x, (getRef (ls.foldl (propagate F) acc).1 x).fplp = (getRef acc.1 x).fplp) ∧
    (∀ x n, n ∈ (getRef (ls.foldl (propagate F) acc).1 x).fws ↔ n ∈ (getRef acc.1 x).fws ∨ (x ∈ ls ∧ n ∈ F)) ∧
    (∀ x, (getRef (ls.foldl (propagate F) acc).1 x).complete = true → (getRef acc.1 x).complete = true ∧
      (getRef (ls.foldl (propagate F) acc).1 x).fws = (getRef acc.1 x).fws) ∧
    ((ls.foldl (propagate F) acc).2 = false → ls.foldl (propagate F) acc = acc) ∧
    ((ls.foldl (propagate F) acc).2 = true → acc.2 = true ∨ ∃ l ∈ ls, ∃ n, n ∈ F ∧ n ∉ (getRef acc.1 l).fws) := by
  intro ls
  induction ls with
  | nil => intro acc _; exact ⟨.refl _, fun _ => rfl, fun x n => by simp, fun _ h => ⟨h, rfl⟩, fun _ => rfl, fun h => .inl h⟩
  | cons l ls ih =>
    intro acc hv
    rw [List.foldl_cons]
    obtain ⟨a1, a2, a3, a4, a5, a6⟩ := propagate_spec (F := F) (hv l (by simp))
    obtain ⟨b1, b2, b3, b4, b5, b6⟩ := ih (acc := propagate F acc l) (fun x hx => a1.valid.2 (hv x (by simp [hx])))
    refine ⟨a1.trans b1, fun x => (b2 x).trans (a2 x), ?_, ?_, ?_, ?_⟩
    · intro x n
      rw [b3, a3, List.mem_cons]
      clear a1 a2 a3 a4 a5 a6 b1 b2 b3 b4 b5 b6 ih hv
      tauto
    · intro x h
      obtain ⟨c1, c2⟩ := b4 x h
      obtain ⟨d1, d2⟩ := a4 x c1
      exact ⟨d1, c2.trans d2⟩
    · intro h
      have h1 := b5 h
      rw [h1] at h
      rw [h1]; exact a5 h
    · intro h
      rcases b6 h with h | ⟨x, hx, n, h1, h2⟩
      · rcases a6 h with h | ⟨n, h1, h2⟩
        · exact .inl h
        · exact .inr ⟨l, by simp, n, h1, h2⟩
      · refine .inr ⟨x, by simp [hx], n, h1, ?_⟩
        intro h3
        exact h2 ((a3 x n).2 (.inl h3))

/-- Configurations marked complete have passed on all they have. -/
def PassedOn (sts : List LState) : Prop :=
  ∀ x, (getRef sts x).complete = true → ∀ l ∈ (getRef sts x).fplp, ∀ n ∈ (getRef sts x).fws, n ∈ (getRef sts l).fws

/-- What one step of the loop does -/
structure StepSpec (acc acc' : List LState × Bool) : Prop where
  shape : SameShape acc.1 acc'.1
  fplp : ∀ x, (getRef acc'.1 x).fplp = (getRef acc.1 x).fplp
  mono : ∀ x n, n ∈ (getRef acc.1 x).fws → n ∈ (getRef acc'.1 x).fws
  sound : ∀ x n, n ∈ (getRef acc'.1 x).fws → Flows acc.1 x n
  quiet : acc'.2 = false → acc.2 = false ∧ (∀ x, (getRef acc'.1 x).fws = (getRef acc.1 x).fws) ∧
    ∀ x, (getRef acc.1 x).complete = true → (getRef acc'.1 x).complete = true
  progress : acc'.2 = true → acc.2 = true ∨ ∃ x n, Valid acc.1 x ∧ n ∉ (getRef acc.1 x).fws ∧ n ∈ (getRef acc'.1 x).fws

theorem Flows.of_step {a b : List LState} (hf : ∀ x, (getRef b x).fplp = (getRef a x).fplp)
    (hs : ∀ x n, n ∈ (getRef b x).fws → Flows a x n) {x : CRef} {n : Nat} (h : Flows b x n) : Flows a x n := by
  induction h with
  | base h => exact hs _ _ h
  | link _ h2 ih => exact .link ih (by rw [← hf]; exact h2)

theorem StepSpec.refl (acc : List LState × Bool) : StepSpec acc acc :=
  ⟨.refl _, fun _ => rfl, fun _ _ h => h, fun _ _ h => .base h, fun h => ⟨h, fun _ => rfl, fun _ h => h⟩, fun h => .inl h⟩

theorem StepSpec.trans {a b c : List LState × Bool} (h1 : StepSpec a b) (h2 : StepSpec b c) : StepSpec a c where
  shape := h1.shape.trans h2.shape
  fplp := fun x => (h2.fplp x).trans (h1.fplp x)
  mono := fun x n h => h2.mono x n (h1.mono x n h)
  sound := fun x n h => Flows.of_step h1.fplp h1.sound (h2.sound x n h)
  quiet := by
    intro h
    obtain ⟨h3, h4, h5⟩ := h2.quiet h
    obtain ⟨h6, h7, h8⟩ := h1.quiet h3
    exact ⟨h6, fun x => (h4 x).trans (h7 x), fun x hx => h5 x (h8 x hx)⟩
  progress := by
    intro h
    rcases h2.progress h with h | ⟨x, n, h3, h4, h5⟩
    · rcases h1.progress h with h | ⟨x, n, h3, h4, h5⟩
      · exact .inl h
      · exact .inr ⟨x, n, h3, h4, h2.mono x n h5⟩
    · exact .inr ⟨x, n, h1.shape.valid.1 h3, fun h6 => h4 (h1.mono x n h6), h5⟩

theorem followStep_spec {acc : List LState × Bool} {r : CRef} (hr : Valid acc.1 r)
    (hv : ∀ x, ∀ l ∈ (getRef acc.1 x).fplp, Valid acc.1 l) (hp : PassedOn acc.1) :
    StepSpec acc (followStep acc r) ∧ PassedOn (followStep acc r).1 ∧
    ((followStep acc r).2 = false → (getRef (followStep acc r).1 r).complete = true) := by
  unfold followStep
  simp only
  by_cases hc : (getRef acc.1 r).complete = true
  · rw [if_pos hc]
    exact ⟨.refl _, hp, fun _ => hc⟩
  · rw [if_neg hc]
    obtain ⟨a1, a2, a3, a4, a5, a6⟩ := propagate_fold (F := (getRef acc.1 r).fws) (acc := acc) (ls := (getRef acc.1 r).fplp) (hv r)
    generalize (getRef acc.1 r).fplp.foldl (propagate (getRef acc.1 r).fws) acc = acc1 at *
    have hr1 : Valid acc1.1 r := a1.valid.2 hr
    have hss := SameShape.modifyRef acc1.1 r (fun c => { c with complete := true }) (fun _ => rfl)
    have hg := fun x => getRef_modifyRef (fun c => { c with complete := true }) (fun _ => rfl) hr1 x
    have hfws : ∀ x, (getRef (modifyRef acc1.1 r (fun c => { c with complete := true })) x).fws = (getRef acc1.1 x).fws := by
      intro x; rw [hg]; split
      · rename_i e; rw [e]
      · rfl
    have hfplp : ∀ x, (getRef (modifyRef acc1.1 r (fun c => { c with complete := true })) x).fplp = (getRef acc1.1 x).fplp := by
      intro x; rw [hg]; split
      · rename_i e; rw [e]
      · rfl
    have hcomp : ∀ x, (getRef (modifyRef acc1.1 r (fun c => { c with complete := true })) x).complete = true ↔
        x = r ∨ (getRef acc1.1 x).complete = true := by
      intro x; rw [hg]; split
      · rename_i e; simp [e]
      · rename_i e; simp [e]
    generalize modifyRef acc1.1 r (fun c => { c with complete := true }) = sts2 at *
    refine ⟨⟨a1.trans hss, fun x => (hfplp x).trans (a2 x), ?_, ?_, ?_, ?_⟩, ?_, fun _ => (hcomp r).2 (.inl rfl)⟩
    · intro x n h; simp only; rw [hfws]; exact (a3 x n).2 (.inl h)
    · intro x n h
      simp only at h
      rw [hfws, a3] at h
      rcases h with h | ⟨h1, h2⟩
      · exact .base h
      · exact .link (.base h2) h1
    · intro h
      have h1 := a5 h
      subst h1
      exact ⟨h, hfws, fun x hx => (hcomp x).2 (.inr hx)⟩
    · intro h
      rcases a6 h with h | ⟨l, hl, n, h1, h2⟩
      · exact .inl h
      · refine .inr ⟨l, n, hv r l hl, h2, ?_⟩
        rw [hfws, a3]; exact .inr ⟨hl, h1⟩
    · intro x hx l hl n hn
      rw [hfplp, a2] at hl
      rw [hfws] at hn ⊢
      rcases (hcomp x).1 hx with rfl | hx
      · rw [a3] at hn ⊢
        rcases hn with hn | ⟨_, hn⟩
        · exact .inr ⟨hl, hn⟩
        · exact .inr ⟨hl, hn⟩
      · obtain ⟨h1, h2⟩ := a4 x hx
        rw [h2] at hn
        exact (a3 l n).2 (.inl (hp x h1 l hl n hn))

theorem followFold_spec : ∀ {rs : List CRef} {acc : List LState × Bool}, (∀ r ∈ rs, Valid acc.1 r) →
    (∀ x, ∀ l ∈ (getRef acc.1 x).fplp, Valid acc.1 l) → PassedOn acc.1 →
    StepSpec acc (rs.foldl followStep acc) ∧ PassedOn (rs.foldl followStep acc).1 ∧
    ((rs.foldl followStep acc).2 = false → ∀ r ∈ rs, (getRef (rs.foldl followStep acc).1 r).complete = true) := by
  intro rs
  induction rs with
  | nil => intro acc _ _ hp; exact ⟨.refl _, hp, by simp⟩
  | cons r rs ih =>
    intro acc hr hv hp
    rw [List.foldl_cons]
    obtain ⟨a1, a2, a3⟩ := followStep_spec (hr r (by simp)) hv hp
    obtain ⟨b1, b2, b3⟩ := ih (acc := followStep acc r) (fun x hx => a1.shape.valid.2 (hr x (by simp [hx])))
      (by intro x l hl; rw [a1.fplp] at hl; exact a1.shape.valid.2 (hv x l hl)) a2
    refine ⟨a1.trans b1, b2, ?_⟩
    intro h x hx
    rcases List.mem_cons.1 hx with rfl | hx
    · exact (b1.quiet h).2.2 _ (a3 (b1.quiet h).1)
    · exact b3 h x hx

/-- Result of the computation of the follow sets: exactly what flows along the links. -/
structure FollowSpec (sts sts' : List LState) : Prop where
  shape : SameShape sts sts'
  fws : ∀ x n, n ∈ (getRef sts' x).fws ↔ Flows sts x n

theorem followLoop_spec : ∀ {fuel : Nat} {sts sts' : List LState},
    (∀ x, ∀ l ∈ (getRef sts x).fplp, Valid sts l) → PassedOn sts → followLoop fuel sts = .ok sts' → FollowSpec sts sts' := by
  intro fuel
  induction fuel with
  | zero => intro sts sts' _ _ h; cases h
  | succ n ih =>
    intro sts sts' hv hp h
    unfold followLoop at h
    obtain ⟨a1, a2, a3⟩ := followFold_spec (rs := allRefs sts) (acc := (sts, false)) (fun r hr => mem_allRefs.1 hr) hv hp
    rcases hf : (allRefs sts).foldl followStep (sts, false) with ⟨sts1, progress⟩
    rw [hf] at h a1 a2 a3
    simp only at h a1 a2 a3
    have hs : ∀ x n, Flows sts1 x n ↔ Flows sts x n := by
      intro x n
      constructor
      · exact Flows.of_step a1.fplp a1.sound
      · intro h
        induction h with
        | base h => exact .base (a1.mono _ _ h)
        | link _ h2 ih => exact .link ih (by rw [a1.fplp]; exact h2)
    cases progress with
    | true =>
      simp only [if_pos] at h
      have := ih (by intro x l hl; rw [a1.fplp] at hl; exact a1.shape.valid.2 (hv x l hl)) a2 h
      exact ⟨a1.shape.trans this.shape, fun x n => (this.fws x n).trans (hs x n)⟩
    | false =>
      simp only [Bool.false_eq_true, if_false] at h
      cases h
      refine ⟨a1.shape, ?_⟩
      intro x n
      rw [← hs]
      constructor
      · exact .base
      · intro h
        induction h with
        | base h => exact h
        | link _ h2 ih =>
          refine a2 _ ?_ _ h2 _ ih
          refine a3 rfl _ (mem_allRefs.2 ?_)
          rw [a1.fplp] at h2
          rename_i r _ _ _
          by_cases hy : r.item ∈ items (cfgs sts r.state)
          · refine ⟨?_, hy⟩
            by_contra hn
            rw [cfgs_nil hn] at hy
            cases hy
          · simp only at h2
            rw [getRef_invalid hy] at h2; cases h2

/-! ### The loop ends -/

theorem countP_lt {α : Type} {p q : α → Bool} : ∀ {l : List α}, (∀ x ∈ l, p x = true → q x = true) →
    (∃ x ∈ l, p x = false ∧ q x = true) → l.countP p < l.countP q := by
  intro l
  induction l with
  | nil => rintro _ ⟨x, h, _⟩; cases h
  | cons a l ih =>
    rintro h ⟨x, hx, h1, h2⟩
    rw [List.countP_cons, List.countP_cons]
    have hle : l.countP p ≤ l.countP q := List.countP_mono_left (fun x hx => h x (by simp [hx]))
    rcases List.mem_cons.1 hx with rfl | hx
    · simp only [h1, h2, if_true, Bool.false_eq_true, if_false]; omega
    · have := ih (fun x hx => h x (by simp [hx])) ⟨x, hx, h1, h2⟩
      have := h a (by simp)
      split <;> split <;> (simp_all; try omega)

/-- Number of pairs of configuration and token that are in the follow sets -/
def inFollow (nsyms : Nat) (sts : List LState) : Nat :=
  ((allRefs sts).flatMap (fun r => (List.range nsyms).map (fun n => (r, n)))).countP (fun x => (getRef sts x.1).fws.contains x.2)

theorem length_pairs (nsyms : Nat) (l : List CRef) :
    (l.flatMap (fun r => (List.range nsyms).map (fun n => (r, n)))).length = l.length * nsyms := by
  induction l with
  | nil => simp
  | cons a l ih => rw [List.flatMap_cons, List.length_append, ih, List.length_cons, Nat.succ_mul]; simp [Nat.add_comm]

theorem followLoop_ends {nsyms : Nat} : ∀ {fuel : Nat} {sts : List LState},
    (∀ x, ∀ l ∈ (getRef sts x).fplp, Valid sts l) → PassedOn sts → (∀ x n, Flows sts x n → n < nsyms) →
    (allRefs sts).length * nsyms < fuel + inFollow nsyms sts → ∃ sts', followLoop fuel sts = .ok sts' := by
  intro fuel
  induction fuel with
  | zero =>
    intro sts _ _ _ h
    exfalso
    have h2 : inFollow nsyms sts ≤ (allRefs sts).length * nsyms := by
      rw [← length_pairs]; exact List.countP_le_length
    omega
  | succ n ih =>
    intro sts hv hp hb h
    unfold followLoop
    obtain ⟨a1, a2, a3⟩ := followFold_spec (rs := allRefs sts) (acc := (sts, false)) (fun r hr => mem_allRefs.1 hr) hv hp
    rcases hf : (allRefs sts).foldl followStep (sts, false) with ⟨sts1, progress⟩
    rw [hf] at a1 a2 a3
    simp only at a1 a2 a3 ⊢
    cases progress with
    | false => exact ⟨sts1, by simp⟩
    | true =>
      simp only [if_pos]
      refine ih (by intro x l hl; rw [a1.fplp] at hl; exact a1.shape.valid.2 (hv x l hl)) a2
        (fun x n hf => hb x n (Flows.of_step a1.fplp a1.sound hf)) ?_
      have h1 := allRefs_eq a1.shape
      simp only at h1
      have : inFollow nsyms sts < inFollow nsyms sts1 := by
        unfold inFollow
        rw [h1]
        apply countP_lt
        · rintro ⟨x, n⟩ _ hx
          simp only [List.contains_iff_mem] at hx ⊢
          exact a1.mono x n hx
        · rcases a1.progress rfl with h | ⟨x, n, h3, h4, h5⟩
          · cases h
          · refine ⟨(x, n), List.mem_flatMap.2 ⟨x, mem_allRefs.2 h3, List.mem_map.2 ⟨n, List.mem_range.2 ?_, rfl⟩⟩, ?_, ?_⟩
            · exact hb x n (a1.sound x n h5)
            · simp only at h4 ⊢
              rw [Bool.eq_false_iff]
              intro h; exact h4 (List.contains_iff_mem.1 h)
            · simp only [List.contains_iff_mem]; exact h5
      rw [h1]
      omega

/-- Resetting the marks -/
def unmark (sts : List LState) : List LState :=
  sts.map (fun st => { st with configs := st.configs.map (fun c => { c with complete := false }) })

theorem cfgs_unmark (sts : List LState) (q : StateId) : cfgs (unmark sts) q = (cfgs sts q).map (fun c => { c with complete := false }) := by
  unfold cfgs unmark
  simp only [List.getD_eq_getElem?_getD, List.getElem?_map]
  cases sts[q]? <;> rfl

theorem getRef_unmark (sts : List LState) (x : CRef) : (getRef (unmark sts) x).fws = (getRef sts x).fws ∧
    (getRef (unmark sts) x).fplp = (getRef sts x).fplp ∧ (getRef (unmark sts) x).complete = false := by
  have h1 : ∀ (s : List LState) x, getRef s x = ((cfgs s x.state).find? (fun c => c.item = x.item)).getD default := fun _ _ => rfl
  rw [h1, h1, cfgs_unmark, List.find?_map]
  have : ((fun c : Cfg => decide (c.item = x.item)) ∘ fun c : Cfg => { c with complete := false }) = fun c => decide (c.item = x.item) := rfl
  rw [this]
  cases (cfgs sts x.state).find? (fun c => c.item = x.item) with
  | none => exact ⟨rfl, rfl, rfl⟩
  | some c => exact ⟨rfl, rfl, rfl⟩

theorem unmark_shape (sts : List LState) : SameShape sts (unmark sts) := by
  refine ⟨by simp [unmark], ?_, ?_, ?_⟩
  · intro q; unfold basisOf unmark
    simp only [List.getD_eq_getElem?_getD, List.getElem?_map]
    cases sts[q]? <;> rfl
  · intro q; unfold actsOf unmark
    simp only [List.getD_eq_getElem?_getD, List.getElem?_map]
    cases sts[q]? <;> rfl
  · intro q; rw [cfgs_unmark, items, List.map_map]; rfl

theorem flows_unmark {sts : List LState} {x : CRef} {n : Nat} : Flows (unmark sts) x n ↔ Flows sts x n := by
  constructor
  · intro h
    induction h with
    | base h => exact .base (by rw [← (getRef_unmark sts _).1]; exact h)
    | link _ h ih => exact .link ih (by rw [← (getRef_unmark sts _).2.1]; exact h)
  · intro h
    induction h with
    | base h => exact .base (by rw [(getRef_unmark sts _).1]; exact h)
    | link _ h ih => exact .link ih (by rw [(getRef_unmark sts _).2.1]; exact h)

theorem findFollowSets_spec {nsyms : Nat} {sts sts' : List LState} (hv : ∀ x, ∀ l ∈ (getRef sts x).fplp, Valid sts l)
    (h : findFollowSets nsyms sts = .ok sts') : FollowSpec sts sts' := by
  have hsh := unmark_shape sts
  have h1 := followLoop_spec (sts := unmark sts) (by
    intro x l hl; rw [(getRef_unmark sts x).2.1] at hl; exact hsh.valid.2 (hv x l hl)) (by
    intro x hx; rw [(getRef_unmark sts x).2.2] at hx; cases hx) h
  exact ⟨hsh.trans h1.shape, fun x n => by rw [h1.fws, flows_unmark]⟩

theorem findFollowSets_ends {nsyms : Nat} {sts : List LState} (hv : ∀ x, ∀ l ∈ (getRef sts x).fplp, Valid sts l)
    (hb : ∀ x n, Flows sts x n → n < nsyms) : ∃ sts', findFollowSets nsyms sts = .ok sts' := by
  have hsh := unmark_shape sts
  refine followLoop_ends (nsyms := nsyms) (sts := unmark sts) (by
    intro x l hl; rw [(getRef_unmark sts x).2.1] at hl; exact hsh.valid.2 (hv x l hl)) (by
    intro x hx; rw [(getRef_unmark sts x).2.2] at hx; cases hx) (fun x n h => hb x n (flows_unmark.1 h)) ?_
  rw [allRefs_eq hsh]
  omega

end Pomelo
