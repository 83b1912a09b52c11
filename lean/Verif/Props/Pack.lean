import Verif.Proofs.Place
/-! # C13: rows in the packed table -/

namespace Pomelo

open Spec

/-- C13 as stated: however rows are placed one after the other, with the offset of each one finds exactly its
own entries. -/
def C13_statement : Prop :=
  ∀ (rows : List (List LaAct)), (∀ row ∈ rows, ProperRow row) → ∃ t os, insertAll [] rows = some (t, os) ∧
    ∀ x ∈ rows.zip os, ∀ la, sees t x.2 la = wants x.1 la

/-- C13 fails: the row for symbol 0 and then a row for symbol 1 alone.  The second row is placed after the
first, at the offset of the first. -/
theorem C13_false : ¬ C13_statement := by
  intro h
  obtain ⟨t, os, h1, h2⟩ := h [[⟨0, 5⟩], [⟨1, 7⟩]] (by decide)
  rw [show insertAll [] [[⟨0, 5⟩], [⟨1, 7⟩]] = some ([some ⟨0, 5⟩, some ⟨1, 7⟩], [0, 0]) from by decide] at h1
  cases h1
  exact absurd (h2 ([⟨0, 5⟩], 0) (by decide) 1) (by decide)

/-- C13: any number of rows.  Missing: rows with one entry `a` placed when the last `a.la` cells of the table are
all labelled 0 (`tight`). -/
theorem C13_partial {rows : List (List LaAct)} (hp : ∀ row ∈ rows, ProperRow row) (ht : noneTight [] rows = true) :
    ∃ t os, insertAll [] rows = some (t, os) ∧ ∀ x ∈ rows.zip os, ∀ la, sees t x.2 la = wants x.1 la := by
  obtain ⟨t, os, h⟩ := insertAll_total (t := []) hp
  refine ⟨t, os, h, fun x hx la => ?_⟩
  rw [vis_eq_sees]
  exact insertAll_exact (done := []) hp ht h (by simp) x (by simpa using hx) la

/-- C13: the entries placed are never lost, tight or not: each row finds all of its own entries. -/
theorem C13_found {rows : List (List LaAct)} (hp : ∀ row ∈ rows, ProperRow row) :
    ∃ t os, insertAll [] rows = some (t, os) ∧ ∀ x ∈ rows.zip os, ∀ a ∈ x.1, sees t x.2 a.la = some a.act := by
  obtain ⟨t, os, h⟩ := insertAll_total (t := []) hp
  refine ⟨t, os, h, fun x hx a ha => ?_⟩
  rw [vis_eq_sees]
  exact insertAll_found (done := []) hp h (by simp) x (by simpa using hx) a ha

/-- The exception is a real one: a tight row that goes to the end of the table sees an action for symbol 0. -/
theorem C13_tight {t t' : ActTab} {a : LaAct} {o : Int} (ht : tight t [a] = true) (h : t.insert [a] = some (t', o)) (ho : o + a.la = t.length) :
    sees t' o 0 ≠ wants [a] 0 := by
  have h1 := tight_bad ht h ho
  have h2 : 1 ≤ a.la := by
    unfold tight at ht
    simp only [Bool.and_eq_true, decide_eq_true_eq] at ht
    exact ht.1.1
  rw [vis_eq_sees]
  intro he
  rw [he] at h1
  have : wants [a] 0 = none := by
    unfold wants
    rw [List.find?_eq_none.2 (by simp; omega)]; rfl
  rw [this] at h1; cases h1

/-- The hypotheses of `C13_partial` hold for rows that use holes, that coincide, and that go to the end. -/
example : (∀ row ∈ [[⟨0, 5⟩, ⟨3, 6⟩], [⟨1, 7⟩, ⟨2, 8⟩], [⟨0, 5⟩, ⟨3, 6⟩], [⟨2, 9⟩], [(⟨0, 1⟩ : LaAct), ⟨1, 1⟩, ⟨2, 2⟩]], ProperRow row) ∧
    noneTight [] [[⟨0, 5⟩, ⟨3, 6⟩], [⟨1, 7⟩, ⟨2, 8⟩], [⟨0, 5⟩, ⟨3, 6⟩], [⟨2, 9⟩], [(⟨0, 1⟩ : LaAct), ⟨1, 1⟩, ⟨2, 2⟩]] = true ∧
    (insertAll [] [[⟨0, 5⟩, ⟨3, 6⟩], [⟨1, 7⟩, ⟨2, 8⟩], [⟨0, 5⟩, ⟨3, 6⟩], [⟨2, 9⟩], [(⟨0, 1⟩ : LaAct), ⟨1, 1⟩, ⟨2, 2⟩]]).isSome := by
  decide

/-- The hypotheses of `C13_tight` -/
example : tight [some ⟨0, 5⟩] [⟨1, 7⟩] = true ∧ ActTab.insert [some ⟨0, 5⟩] [⟨1, 7⟩] = some ([some ⟨0, 5⟩, some ⟨1, 7⟩], 0) := by decide

end Pomelo
