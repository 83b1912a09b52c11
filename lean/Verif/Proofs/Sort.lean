import Verif.Model.Sort
import Verif.Spec.Sort
import Verif.Proofs.Lists
/-! # A stable sort has only one result -/

namespace Pomelo

open Spec

variable {α : Type}

/-- The outcome `Less` is a strict weak order. -/
structure StrictWeak (cmp : α → α → Ordering) : Prop where
  asymm : ∀ a b, cmp a b = .lt → cmp b a ≠ .lt
  trans : ∀ a b c, cmp a b = .lt → cmp b c = .lt → cmp a c = .lt
  cotrans : ∀ a b c, cmp a c = .lt → cmp a b = .lt ∨ cmp b c = .lt

variable {cmp : α → α → Ordering}

theorem StrictWeak.tied_lt (h : StrictWeak cmp) {a b c : α} (h1 : tied cmp a b = true) (h2 : cmp b c = .lt) : tied cmp a c = false := by
  simp only [tied, Bool.and_eq_true, bne_iff_ne] at h1
  rcases h.cotrans _ a _ h2 with h3 | h3
  · exact absurd h3 h1.2
  · simp [tied, h3]

theorem StrictWeak.tied_refl (h : StrictWeak cmp) (a : α) : tied cmp a a = true := by
  have : cmp a a ≠ .lt := fun h1 => h.asymm a a h1 h1
  simp [tied, this]

theorem insertRev_filter (h : StrictWeak cmp) (x z : α) : ∀ acc : List α, (insertRev (fun a b => cmp a b == .lt) x acc).filter (tied cmp z) = (x :: acc).filter (tied cmp z)
  | [] => rfl
  | y :: ys => by
    unfold insertRev
    split
    · rename_i h1
      have h1 : cmp x y = .lt := by simpa using h1
      rw [List.filter_cons, insertRev_filter h x z ys]
      by_cases hx : tied cmp z x = true
      · have := h.tied_lt hx h1
        simp [List.filter_cons, hx, this]
      · simp [List.filter_cons, hx]
    · rfl

theorem sortBy_filter (h : StrictWeak cmp) (z : α) (l : List α) : (sortBy (fun a b => cmp a b == .lt) l).filter (tied cmp z) = l.filter (tied cmp z) := by
  unfold sortBy
  rw [List.filter_reverse]
  suffices H : ∀ (l acc : List α), ((l.foldl (fun acc x => insertRev (fun a b => cmp a b == .lt) x acc) acc).filter (tied cmp z)).reverse =
      (acc.filter (tied cmp z)).reverse ++ l.filter (tied cmp z) from by simpa using H l []
  intro l
  induction l with
  | nil => intro acc; simp
  | cons x l ih =>
    intro acc
    rw [List.foldl_cons, ih, insertRev_filter h, List.filter_cons, List.filter_cons]
    split <;> simp

theorem sortBy_stable (h : StrictWeak cmp) (l : List α) : StableSort cmp l (sortBy (fun a b => cmp a b == .lt) l) where
  perm := perm_sortBy _ l
  sorted := by
    refine pairwise_sortBy ?_ ?_ ?_ l
    · intro a b c h1 h2 h3
      rcases h.cotrans _ b _ h3 with h4 | h4
      · exact h2 h4
      · exact h1 h4
    · intro a b h1 h2; exact h.asymm _ _ (by simpa using h1) h2
    · intro a b h1 h2; simp [h2] at h1
  stable := fun x => sortBy_filter h x l

theorem stable_unique (h : StrictWeak cmp) : ∀ {o1 o2 : List α}, o1.Perm o2 → o1.Pairwise (fun a b => cmp b a ≠ .lt) → o2.Pairwise (fun a b => cmp b a ≠ .lt) →
    (∀ x, o1.filter (tied cmp x) = o2.filter (tied cmp x)) → o1 = o2
  | [], o2, hp, _, _, _ => by simpa using hp.symm
  | a :: o1, [], hp, _, _, _ => by simp at hp
  | a :: o1, b :: o2, hp, h1, h2, hf => by
    have hab : tied cmp a b = true := by
      have hb : b ∈ a :: o1 := hp.mem_iff.2 (by simp)
      have ha : a ∈ b :: o2 := hp.mem_iff.1 (by simp)
      rw [List.pairwise_cons] at h1 h2
      rcases List.mem_cons.1 hb with rfl | hb
      · exact h.tied_refl _
      · rcases List.mem_cons.1 ha with rfl | ha
        · exact h.tied_refl _
        · simp only [tied, Bool.and_eq_true, bne_iff_ne]
          exact ⟨h2.1 a ha, h1.1 b hb⟩
    have h3 := hf a
    rw [List.filter_cons_of_pos (h.tied_refl a), List.filter_cons_of_pos hab] at h3
    obtain ⟨rfl, _⟩ := List.cons.inj h3
    rw [stable_unique h hp.cons_inv h1.of_cons h2.of_cons]
    intro x
    have h4 := hf x
    rw [List.filter_cons, List.filter_cons] at h4
    split at h4
    · exact (List.cons.inj h4).2
    · exact h4

theorem stableSort_iff (h : StrictWeak cmp) {l out : List α} : StableSort cmp l out ↔ out = sortBy (fun a b => cmp a b == .lt) l := by
  constructor
  · intro h1
    have h2 := sortBy_stable h l
    exact stable_unique h (h1.perm.trans h2.perm.symm) h1.sorted h2.sorted (fun x => (h1.stable x).trans (h2.stable x).symm)
  · rintro rfl; exact sortBy_stable h l

end Pomelo
