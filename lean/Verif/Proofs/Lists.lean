import Verif.Model.Basic
import Mathlib.Data.List.Perm.Subperm
/-! # Lemmas about the list functions of the model: sets, insertion sort -/

namespace Pomelo

/-! ## Sets -/

theorem mem_setInsert {s : List Nat} {x y : Nat} : y ∈ setInsert s x ↔ y = x ∨ y ∈ s := by
  unfold setInsert
  split
  · rename_i h
    rw [List.contains_iff_mem] at h
    constructor
    · exact .inr
    · rintro (rfl | h') <;> assumption
  · exact List.mem_cons

theorem mem_setUnion {s t : List Nat} {y : Nat} : y ∈ setUnion s t ↔ y ∈ s ∨ y ∈ t := by
  unfold setUnion
  induction t generalizing s with
  | nil => simp
  | cons x t ih =>
    simp only [List.foldl_cons, ih, mem_setInsert, List.mem_cons]
    constructor
    · rintro ((h | h) | h)
      · exact .inr (.inl h)
      · exact .inl h
      · exact .inr (.inr h)
    · rintro (h | h | h)
      · exact .inl (.inr h)
      · exact .inl (.inl h)
      · exact .inr h

theorem nodup_setInsert {s : List Nat} {x : Nat} (h : s.Nodup) : (setInsert s x).Nodup := by
  unfold setInsert
  split
  · exact h
  · rename_i hx
    rw [List.contains_iff_mem] at hx
    exact List.nodup_cons.2 ⟨hx, h⟩

theorem nodup_setUnion {s t : List Nat} (h : s.Nodup) : (setUnion s t).Nodup := by
  unfold setUnion
  induction t generalizing s with
  | nil => exact h
  | cons x t ih => exact ih (nodup_setInsert h)

theorem length_setInsert (s : List Nat) (x : Nat) : s.length ≤ (setInsert s x).length := by
  unfold setInsert; split <;> simp

theorem length_setUnion (s t : List Nat) : s.length ≤ (setUnion s t).length := by
  unfold setUnion
  induction t generalizing s with
  | nil => exact Nat.le_refl _
  | cons x t ih => exact Nat.le_trans (length_setInsert s x) (ih _)

/-- If the union does not grow, nothing was new. -/
theorem setUnion_eq_of_length {s t : List Nat} (h : ¬ s.length < (setUnion s t).length) :
    setUnion s t = s ∧ ∀ x ∈ t, x ∈ s := by
  unfold setUnion at h ⊢
  induction t generalizing s with
  | nil => simp
  | cons x t ih =>
    simp only [List.foldl_cons] at h ⊢
    have h1 := length_setUnion (setInsert s x) t
    unfold setUnion at h1
    have hx : x ∈ s := by
      apply Classical.byContradiction
      intro hx
      have : (setInsert s x).length = s.length + 1 := by
        unfold setInsert
        rw [if_neg (by rwa [List.contains_iff_mem])]; rfl
      omega
    have hs : setInsert s x = s := by
      unfold setInsert; rw [if_pos (by rwa [List.contains_iff_mem])]
    rw [hs] at h ⊢
    obtain ⟨h2, h3⟩ := ih h
    refine ⟨h2, ?_⟩
    intro y hy
    rcases List.mem_cons.1 hy with rfl | hy
    · exact hx
    · exact h3 y hy

/-! ## Pointwise relations -/

theorem forall₂_imp_mem {α β : Type} {R S : α → β → Prop} {l1 : List α} {l2 : List β} (h : List.Forall₂ R l1 l2)
    (f : ∀ a ∈ l1, ∀ b ∈ l2, R a b → S a b) : List.Forall₂ S l1 l2 := by
  induction h with
  | nil => exact .nil
  | cons hr _ ih =>
    refine .cons (f _ (by simp) _ (by simp) hr) (ih ?_)
    intro a ha b hb
    exact f a (by simp [ha]) b (by simp [hb])

theorem forall₂_exists_right {α β : Type} {R : α → β → Prop} {l1 : List α} {l2 : List β} (h : List.Forall₂ R l1 l2)
    {a : α} (ha : a ∈ l1) : ∃ b ∈ l2, R a b := by
  induction h with
  | nil => cases ha
  | cons hr _ ih =>
    rcases List.mem_cons.1 ha with rfl | ha
    · exact ⟨_, by simp, hr⟩
    · obtain ⟨b, hb, hh⟩ := ih ha
      exact ⟨b, by simp [hb], hh⟩

/-! ## Pigeonhole -/

/-- A list without repetitions of numbers below `n` has length at most `n`. -/
theorem length_le_of_nodup {l : List Nat} {n : Nat} (h : l.Nodup) (hb : ∀ x ∈ l, x < n) : l.length ≤ n := by
  have : l ⊆ List.range n := fun x hx => List.mem_range.2 (hb x hx)
  simpa using (h.subperm this).length_le

/-! ## Insertion sort -/

variable {α : Type}

theorem perm_insertRev (lt : α → α → Bool) (x : α) (l : List α) : (insertRev lt x l).Perm (x :: l) := by
  induction l with
  | nil => exact List.Perm.refl _
  | cons y ys ih =>
    unfold insertRev
    split
    · exact (List.Perm.cons y ih).trans (List.Perm.swap x y ys)
    · exact List.Perm.refl _

theorem perm_foldl_insertRev (lt : α → α → Bool) (l acc : List α) :
    (l.foldl (fun acc x => insertRev lt x acc) acc).Perm (l ++ acc) := by
  induction l generalizing acc with
  | nil => exact List.Perm.refl _
  | cons x l ih =>
    simp only [List.foldl_cons, List.cons_append]
    exact (ih _).trans ((List.Perm.append_left l (perm_insertRev lt x acc)).trans List.perm_middle)

/-- Sorting permutes. -/
theorem perm_sortBy (lt : α → α → Bool) (l : List α) : (sortBy lt l).Perm l := by
  unfold sortBy
  refine (List.reverse_perm _).trans ?_
  simpa using perm_foldl_insertRev lt l []

theorem mem_sortBy {lt : α → α → Bool} {l : List α} {x : α} : x ∈ sortBy lt l ↔ x ∈ l :=
  (perm_sortBy lt l).mem_iff

theorem length_sortBy (lt : α → α → Bool) (l : List α) : (sortBy lt l).length = l.length :=
  (perm_sortBy lt l).length_eq

/-- A relation `R` ("may come before") that is transitive and decided by the comparison is
established by sorting. -/
theorem pairwise_insertRev {R : α → α → Prop} {lt : α → α → Bool}
    (htrans : ∀ a b c, R a b → R b c → R a c)
    (h1 : ∀ a b, lt a b = true → R a b) (h2 : ∀ a b, lt a b = false → R b a)
    (x : α) : ∀ l : List α, l.Pairwise (fun a b => R b a) → (insertRev lt x l).Pairwise (fun a b => R b a) := by
  intro l
  induction l with
  | nil => intro _; simp [insertRev]
  | cons y ys ih =>
    intro hp
    rw [List.pairwise_cons] at hp
    unfold insertRev
    split
    · rename_i hlt
      rw [List.pairwise_cons]
      refine ⟨?_, ih hp.2⟩
      intro z hz
      rcases List.mem_cons.1 ((perm_insertRev lt x ys).mem_iff.1 hz) with rfl | hz
      · exact h1 _ _ hlt
      · exact hp.1 z hz
    · rename_i hlt
      have hyx : R y x := h2 _ _ (by simpa using hlt)
      rw [List.pairwise_cons]
      refine ⟨?_, List.pairwise_cons.2 hp⟩
      intro z hz
      rcases List.mem_cons.1 hz with rfl | hz
      · exact hyx
      · exact htrans _ _ _ (hp.1 z hz) hyx

theorem pairwise_sortBy {R : α → α → Prop} {lt : α → α → Bool}
    (htrans : ∀ a b c, R a b → R b c → R a c)
    (h1 : ∀ a b, lt a b = true → R a b) (h2 : ∀ a b, lt a b = false → R b a)
    (l : List α) : (sortBy lt l).Pairwise R := by
  unfold sortBy
  rw [List.pairwise_reverse]
  suffices H : ∀ (l acc : List α), acc.Pairwise (fun a b => R b a) →
      (l.foldl (fun acc x => insertRev lt x acc) acc).Pairwise (fun a b => R b a) from H l [] List.Pairwise.nil
  intro l
  induction l with
  | nil => intro acc h; exact h
  | cons x l ih => intro acc h; exact ih _ (pairwise_insertRev htrans h1 h2 x acc h)

/-- A sorted list is left alone: nothing is strictly less than something before it. -/
theorem sortBy_of_sorted {lt : α → α → Bool} {l : List α} (h : l.Pairwise (fun a b => lt b a = false)) :
    sortBy lt l = l := by
  unfold sortBy
  suffices H : ∀ (l acc : List α), (acc.reverse ++ l).Pairwise (fun a b => lt b a = false) →
      (l.foldl (fun acc x => insertRev lt x acc) acc).reverse = acc.reverse ++ l from H l [] (by simpa using h)
  intro l
  induction l with
  | nil => intro acc _; simp
  | cons x l ih =>
    intro acc h
    have hins : insertRev lt x acc = x :: acc := by
      cases acc with
      | nil => rfl
      | cons y ys =>
        unfold insertRev
        rw [if_neg]
        have := (List.pairwise_append.1 h).2.2 y (by simp) x (by simp)
        simp [this]
    simp only [List.foldl_cons]
    rw [hins, ih (x :: acc) (by simpa using h)]
    simp

/-- Sorting by a numeric key -/
theorem sorted_by_key {lt : α → α → Bool} (key : α → Nat)
    (h1 : ∀ a b, lt a b = true → key a ≤ key b) (h2 : ∀ a b, lt a b = false → key b ≤ key a)
    (l : List α) : (sortBy lt l).Pairwise (fun a b => key a ≤ key b) :=
  pairwise_sortBy (R := fun a b => key a ≤ key b) (fun _ _ _ => Nat.le_trans) h1 h2 l

end Pomelo
