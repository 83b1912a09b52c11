import Verif.Proofs.Conflicts
import Verif.Spec.Causes
/-!
# Reductions that conflict resolution removes

A reduction of a state that is not in the actions of the state after `find_actions` was removed by
another action on the same token.
-/

namespace Pomelo
open Spec
variable {g : Grammar} {sts : List LState}

/-- `z`, earlier in the list, removes the reduction by `r`. -/
def Grammar.Over (g : Grammar) (z y : Action) (r : RuleId) : Prop :=
  z.la = y.la ∧
  ((∃ k, z.detail = .shift k ∧ ((g.sym z.la).precedence = none ∨ (g.rule r).precedence = none ∨
      ∃ p p', (g.sym z.la).precedence = some p ∧ (g.rule r).precedence = some p' ∧ precedenceCmp p p' = .gt)) ∨
   (∃ r', z.detail = .reduce r' ∧ ((g.rule r').precedence = none ∨ (g.rule r).precedence = none ∨
      ∃ p p', (g.rule r').precedence = some p ∧ (g.rule r).precedence = some p' ∧ precedenceCmp p p' ≠ .lt)))

/-- `z`, later in the list, removes the reduction by `r`. -/
def Grammar.Under (g : Grammar) (y : Action) (r : RuleId) (z : Action) : Prop :=
  y.la = z.la ∧ ∃ r', z.detail = .reduce r' ∧
    ∃ p p', (g.rule r).precedence = some p ∧ (g.rule r').precedence = some p' ∧ precedenceCmp p p' = .lt

theorem resolveConflict_lost {x y : Action} (hla : x.la = y.la) {r : RuleId} :
    (y.detail = .reduce r → (g.resolveConflict x y).2.1 = y ∨ g.Over x y r) ∧
    (x.detail = .reduce r → (g.resolveConflict x y).1 = x ∨ g.Under x r y) := by
  unfold Grammar.Over Grammar.Under Grammar.resolveConflict
  constructor
  · intro hy
    cases hx : x.detail <;> simp only [hy, hla, true_and]
    · split
      · rename_i p p' hp hp'
        rw [← hla] at hp
        cases hc : precedenceCmp p p' <;> simp_all
      · rename_i h
        cases hp : (g.sym y.la).precedence <;> cases hp' : (g.rule r).precedence <;> simp_all
    all_goals try simp
    rename_i r'
    cases hp : (g.rule r').precedence <;> cases hp' : (g.rule r).precedence <;> simp
    rename_i p p'
    cases hc : precedenceCmp p p' <;> simp
  · intro hx
    cases hy : y.detail <;> simp only [hx, hla, true_and]
    all_goals try simp
    rename_i r'
    cases hp : (g.rule r).precedence <;> cases hp' : (g.rule r').precedence <;> simp
    rename_i p p'
    cases hc : precedenceCmp p p' <;> simp

theorem Kept.reduce {x y : Action} {r : RuleId} (h : Kept x y) (hy : y.detail = .reduce r) : y = x := by
  rcases h with h | ⟨_, h⟩
  · exact h
  · exact absurd hy (h.2 r)

theorem Kept.shift {x y : Action} {k : StateId} (h : Kept x y) (hy : y.detail = .shift k) : y = x := by
  rcases h with h | ⟨_, h⟩
  · exact h
  · exact absurd hy (h.1 k)

theorem Grammar.Over.kept {z0 z y : Action} {r : RuleId} (h : g.Over z y r) (hk : Kept z0 z) : g.Over z0 y r := by
  have : z = z0 := by
    rcases h.2 with ⟨k, hz, _⟩ | ⟨r', hz, _⟩
    · exact hk.shift hz
    · exact hk.reduce hz
  rw [← this]; exact h

theorem resolveFrom_lost {r : RuleId} : ∀ (ys : List Action) (x : Action),
    (∀ y ∈ ys, y.detail = .reduce r → y ∈ (g.resolveFrom x ys).2.1 ∨ g.Over x y r) ∧
    (x.detail = .reduce r → (g.resolveFrom x ys).1 = x ∨ ∃ y ∈ ys, g.Under x r y) := by
  intro ys
  induction ys with
  | nil => intro x; exact ⟨fun y hy => absurd hy (by simp), fun _ => .inl rfl⟩
  | cons y0 ys ih =>
    intro x
    unfold Grammar.resolveFrom
    split
    · rename_i hla
      have hk := resolveConflict_kept (g := g) x y0
      obtain ⟨h1, h2⟩ := ih (g.resolveConflict x y0).1
      simp only
      constructor
      · intro y hy hd
        rcases List.mem_cons.1 hy with rfl | hy
        · rcases (resolveConflict_lost (g := g) hla).1 hd with h | h
          · left; rw [h]; simp
          · exact .inr h
        · rcases h1 y hy hd with h | h
          · exact .inl (List.mem_cons_of_mem _ h)
          · exact .inr (h.kept hk.1)
      · intro hd
        rcases (resolveConflict_lost (g := g) hla).2 hd with h | h
        · rw [h] at h2 ⊢
          rcases h2 hd with h3 | ⟨y, hy, h3⟩
          · exact .inl h3
          · exact .inr ⟨y, List.mem_cons_of_mem _ hy, h3⟩
        · exact .inr ⟨y0, by simp, h⟩
    · exact ⟨fun y hy _ => .inl hy, fun _ => .inl rfl⟩

theorem kept_mem {l0 l : List Action} (h : List.Forall₂ Kept l0 l) {y : Action} {r : RuleId} (hy : y ∈ l) (hd : y.detail = .reduce r) : y ∈ l0 := by
  induction h with
  | nil => cases hy
  | cons hk _ ih =>
    rcases List.mem_cons.1 hy with rfl | hy
    · rw [hk.reduce hd]; simp
    · exact List.mem_cons_of_mem _ (ih hy)

theorem resolveL_lost {r : RuleId} : ∀ (n : Nat) {l l0 : List Action} {y : Action}, l.length = n → List.Forall₂ Kept l0 l → y ∈ l → y.detail = .reduce r →
    y ∈ (g.resolveL l).1 ∨ (∃ z, [z, y].Sublist l0 ∧ g.Over z y r) ∨ ∃ z, [y, z].Sublist l0 ∧ g.Under y r z := by
  intro n
  induction n with
  | zero => intro l l0 y h _ hy; rw [List.length_eq_zero_iff] at h; subst h; cases hy
  | succ n ih =>
    intro l l0 y h hk hy hd
    cases hk with
    | nil => cases h
    | @cons x0 x xs0 xs hx hxs =>
      rw [resolveL_cons]
      obtain ⟨h1, h2⟩ := resolveFrom_lost (g := g) (r := r) xs x
      obtain ⟨h3, -⟩ := resolveFrom_kept (g := g) xs x
      rcases List.mem_cons.1 hy with rfl | hy
      · rcases h2 hd with h4 | ⟨z, hz, h4⟩
        · left; simp only [h4]; simp
        · obtain ⟨r', hz', _⟩ := h4.2
          have hz := kept_mem hxs hz hz'
          right; right
          rw [hx.reduce hd] at h4 ⊢
          exact ⟨z, (List.singleton_sublist.2 hz).cons_cons _, h4⟩
      · rcases h1 y hy hd with h4 | h4
        · rcases ih (l0 := xs0) (by rw [resolveFrom_len]; simpa using h) (forall₂_kept_trans hxs h3) h4 hd with h5 | ⟨z, h5, h6⟩ | ⟨z, h5, h6⟩
          · exact .inl (List.mem_cons_of_mem _ h5)
          · exact .inr (.inl ⟨z, h5.cons _, h6⟩)
          · exact .inr (.inr ⟨z, h5.cons _, h6⟩)
        · exact .inr (.inl ⟨x0, (List.singleton_sublist.2 (kept_mem hxs hy hd)).cons_cons _, h4.kept hx⟩)

theorem resolveFrom_kept' : ∀ (ys : List Action) (x : Action), Kept x (g.resolveFrom x ys).1 := by
  intro ys
  induction ys with
  | nil => intro x; exact .refl x
  | cons y ys ih =>
    intro x
    unfold Grammar.resolveFrom
    split
    · exact (resolveConflict_kept x y).1.trans (ih _)
    · exact .refl x

theorem resolveL_kept : ∀ (n : Nat) {l : List Action}, l.length = n → List.Forall₂ Kept l (g.resolveL l).1 := by
  intro n
  induction n with
  | zero => intro l h; rw [List.length_eq_zero_iff] at h; subst h; exact .nil
  | succ n ih =>
    intro l h
    cases l with
    | nil => cases h
    | cons x xs =>
      rw [resolveL_cons]
      exact .cons (resolveFrom_kept' xs x)
        (forall₂_kept_trans (resolveFrom_kept xs x).1 (ih (by rw [resolveFrom_len]; simpa using h)))

/-- One reduction occurs once only in the list. -/
theorem reduce_once (hi : GInv g) (ha : Auto g sts) {q : StateId} (hq : q < sts.length) {y : Action} {r : RuleId} (hd : y.detail = .reduce r) :
    ¬[y, y].Sublist (sortBy g.actionLt (g.rawActions q (sts.getD q default))) := by
  intro h
  have h1 : 2 ≤ (g.rawActions q (sts.getD q default)).count y := by
    rw [← (perm_sortBy g.actionLt _).count_eq]
    exact Nat.le_trans (by simp) (h.count_le y)
  unfold Grammar.rawActions at h1
  rw [List.count_append, List.count_append] at h1
  have h2 : (sts.getD q default).actions.count y = 0 := by
    rw [List.count_eq_zero]
    intro hx
    obtain ⟨X, k, _, h⟩ := (ha.mem_acts hq y).1 hx
    rw [(mem_shiftActions.1 h).1] at hd; cases hd
  have h3 : (g.reduceActions (sts.getD q default)).count y ≤ 1 := List.nodup_iff_count_le_one.1 (nodup_reduceActions hi ha hq) y
  have h4 : (if q = 0 then [(⟨g.start.getD 0, .accept⟩ : Action)] else []).count y = 0 := by
    rw [List.count_eq_zero]
    intro hx
    split at hx
    · rw [List.mem_singleton.1 hx] at hd; cases hd
    · cases hx
  omega

/-- The rule of a reduction, for sorting -/
def Detail.ruleKey : Detail → Nat
  | .reduce r => r
  | _ => 0

/-- May come before, after sorting, with the rules of reductions -/
def Grammar.Before' (g : Grammar) (a b : Action) : Prop :=
  (g.sym a.la).index < (g.sym b.la).index ∨ ((g.sym a.la).index = (g.sym b.la).index ∧
    (a.detail.rank < b.detail.rank ∨ (a.detail.rank = b.detail.rank ∧ a.detail.ruleKey ≤ b.detail.ruleKey)))

theorem sorted_actions' (l : List Action) : (sortBy g.actionLt l).Pairwise g.Before' := by
  apply pairwise_sortBy
  · unfold Grammar.Before'; intro a b c h1 h2; omega
  · intro a b h
    unfold Grammar.actionLt at h
    simp only [Bool.or_eq_true, decide_eq_true_eq, Bool.and_eq_true, beq_iff_eq] at h
    rcases h with h | ⟨h1, h2⟩
    · exact .inl h
    · refine .inr ⟨h1, ?_⟩
      revert h2
      cases a.detail <;> cases b.detail <;> simp [Detail.lt, Detail.rank, Detail.ruleKey]
      exact Nat.le_of_lt
  · intro a b h
    unfold Grammar.actionLt at h
    simp only [Bool.or_eq_false_iff, decide_eq_false_iff_not, Bool.and_eq_false_iff, beq_eq_false_iff_ne] at h
    obtain ⟨h1, h2⟩ := h
    rcases h2 with h2 | h2
    · exact .inl (by omega)
    · by_cases h3 : (g.sym b.la).index = (g.sym a.la).index
      · refine .inr ⟨h3, ?_⟩
        revert h2
        cases a.detail <;> cases b.detail <;> simp [Detail.lt, Detail.rank, Detail.ruleKey]
      · exact .inl (by omega)

/-- Of two reductions on one token, the earlier rule comes first. -/
theorem reduce_order (hi : GInv g) (ha : Auto g sts) {q : StateId} (hq : q < sts.length) {y z : Action} {r r' : RuleId} (hla : y.la = z.la)
    (hy : y.detail = .reduce r) (hz : z.detail = .reduce r')
    (h : [y, z].Sublist (sortBy g.actionLt (g.rawActions q (sts.getD q default)))) : r < r' := by
  have hb := (sorted_actions' (g := g) _).sublist h
  simp only [List.pairwise_cons, List.mem_singleton, forall_eq] at hb
  have hb := hb.1
  unfold Grammar.Before' at hb
  simp only [hla, hy, hz, Detail.rank, Detail.ruleKey, Nat.lt_irrefl, false_or, true_and] at hb
  refine Nat.lt_of_le_of_ne hb ?_
  rintro rfl
  have : z = y := by cases z; cases y; simp_all
  rw [this] at h
  exact reduce_once hi ha hq hy h

/-- A reduction that does not survive gives way to something else. -/
theorem lost_yields (hi : GInv g) (ha : Auto g sts) {γ : List SymbolId} {q : StateId} (hp : g.Path sts γ q) {a : SymbolId} {r : RuleId}
    (hr : ReducesOn g γ a r) (hn : (⟨a, .reduce r⟩ : Action) ∉ (g.resolveState (g.rawActions q (sts.getD q default))).1) : Yields g γ a r := by
  have hq := Path.lt ha hp
  have hr' := (reducesOn_iff hi ha hp).1 hr
  have hm : (⟨a, .reduce r⟩ : Action) ∈ sortBy g.actionLt (g.rawActions q (sts.getD q default)) := by
    rw [mem_sortBy, mem_rawActions hi ha hq]
    exact .inr (.inl ⟨r, hr', rfl⟩)
  have hot : ∀ {z : Action} {r' : RuleId}, z ∈ sortBy g.actionLt (g.rawActions q (sts.getD q default)) → z.la = a → z.detail = .reduce r' → ReducesOn g γ a r' := by
    intro z r' hz hl hd
    rw [mem_sortBy, mem_rawActions hi ha hq] at hz
    rcases hz with ⟨k, _, h⟩ | ⟨r2, h, h'⟩ | ⟨_, h⟩
    · rw [hd] at h; cases h
    · rw [hd] at h'; cases h'
      rw [hl] at h
      exact (reducesOn_iff hi ha hp).2 h
    · rw [h] at hd; cases hd
  rcases resolveL_lost (g := g) (r := r) _ rfl (forall₂_kept_refl _) hm rfl with h | ⟨z, hs, hla, h⟩ | ⟨z, hs, hla, r', hd, p, p', hp1, hp2, hc⟩
  · exact absurd h hn
  · simp only at hla
    have hz := hs.subset (show z ∈ [z, _] by simp)
    rcases h with ⟨k, hd, h⟩ | ⟨r', hd, h⟩
    · rw [mem_sortBy, mem_rawActions hi ha hq] at hz
      rcases hz with ⟨k', ⟨X, hX, hX2⟩, hk⟩ | ⟨r2, _, h'⟩ | ⟨_, h'⟩
      · have hkX : (g.sym X).kind ≠ .nonTerminal := by
          intro hk
          rcases (mem_shiftActions.1 hX2).2 with ⟨h4, _⟩ | ⟨_, h4⟩
          · rw [hk] at h4; cases h4
          · simp only at h4
            have := hr.2.1
            rw [← hla, h4, hk] at this
            cases this
        rw [hla] at h hX2
        refine .shift ((shiftsOn_iff hi ha hp).2 ⟨⟨k', hX⟩, (reads_iff hkX).1 hX2⟩) ?_
        rcases h with h | h | ⟨p, p', h1, h2, h3⟩
        · exact .inl h
        · exact .inr (.inl h)
        · refine .inr (.inr ⟨p, p', h1, h2, ?_⟩)
          unfold precedenceCmp at h3
          unfold Tighter
          split at h3
          · cases h3
          · split at h3
            · left; assumption
            · revert h3
              cases p.assoc <;> simp <;> omega
      · rw [hd] at h'; cases h'
      · rw [h'] at hd; cases hd
    · have hlt : r' < r := reduce_order hi ha hq hla hd rfl hs
      refine .rule (hot hz hla hd) (Nat.ne_of_lt hlt) ?_
      rcases h with h | h | ⟨p, p', h1, h2, h3⟩
      · exact .inl ⟨hlt, .inl h⟩
      · exact .inl ⟨hlt, .inr h⟩
      · refine .inr ⟨p', p, h2, h1, ?_⟩
        unfold precedenceCmp at h3
        split at h3
        · exact absurd rfl h3
        · split at h3
          · left; assumption
          · refine .inr ⟨by omega, .inl ⟨hlt, ?_⟩⟩
            intro ha; rw [ha] at h3; exact h3 rfl
  · have hlt : r < r' := reduce_order hi ha hq hla rfl hd hs
    refine .rule (hot (hs.subset (by simp)) hla.symm hd) (Nat.ne_of_gt hlt) (.inr ⟨p, p', hp1, hp2, ?_⟩)
    unfold precedenceCmp at hc
    split at hc
    · left; assumption
    · split at hc
      · cases hc
      · refine .inr ⟨by omega, .inr ⟨hlt, ?_⟩⟩
        revert hc
        cases p.assoc <;> simp

/-- The error "cannot reduce" has its reason. -/
theorem findActions_never (hi : GInv g) (ha : Auto g sts) (h : g.findActions sts = .error .cannotReduce) :
    ∃ r, r < g.rules.length ∧ ∀ γ a, ReducesOn g γ a r → Yields g γ a r := by
  unfold Grammar.findActions at h
  simp only at h
  split at h
  · cases h
  split at h
  · cases h
  · rename_i hall
    simp only [List.all_eq_true, List.mem_range, Classical.not_forall] at hall
    obtain ⟨r, hr, hall⟩ := hall
    refine ⟨r, hr, fun γ a hra => ?_⟩
    have hv : ∃ it, Viable g γ it := by
      obtain ⟨_, _, γ', h1, h2⟩ := hra
      exact ⟨_, (h1 _).2 h2.viable⟩
    obtain ⟨it, hv⟩ := hv
    obtain ⟨q, hp⟩ := viable_path hi ha hv
    have hq := Path.lt ha hp
    refine lost_yields hi ha hp hra ?_
    intro hm
    apply hall
    rw [List.any_eq_true]
    refine ⟨_, ?_, List.any_eq_true.2 ⟨_, hm, by simp⟩⟩
    rw [List.map_map, List.mem_map]
    refine ⟨(sts.getD q default, q), ?_, rfl⟩
    rw [List.mem_zipIdx_iff_getElem?]
    simp [List.getD_eq_getElem?_getD, List.getElem?_eq_getElem hq]

/-- Where the macro goes on, every rule has its turn. -/
theorem findActions_turn (hi : GInv g) (ha : Auto g sts) {acts : List (List Action)} {n : Nat} (h : g.findActions sts = .ok (acts, n))
    {r : RuleId} (hr : r < g.rules.length) : ∃ γ a, ReducesOn g γ a r := by
  obtain ⟨_, h2, _, h4⟩ := findActions_get h
  obtain ⟨q, hq, a, hm, hd⟩ := h4 r hr
  rw [h2 q hq] at hm
  obtain ⟨γ, hp⟩ := ha.exists_path q hq
  have hm : a ∈ sortBy g.actionLt (g.rawActions q (sts.getD q default)) :=
    kept_mem (resolveL_kept _ rfl) hm hd
  rw [mem_sortBy, mem_rawActions hi ha hq] at hm
  rcases hm with ⟨k, _, h⟩ | ⟨r2, h, h'⟩ | ⟨_, h⟩
  · rw [hd] at h; cases h
  · rw [hd] at h'; cases h'
    exact ⟨γ, _, (reducesOn_iff hi ha hp).2 h⟩
  · rw [h] at hd; cases hd

end Pomelo
