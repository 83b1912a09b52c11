import Verif.Proofs.RunErrors
/-! # Calls as a sequence of reductions and a last action -/

namespace Pomelo

variable {V X E : Type} {t : Tables} {sem : Sem V X E}

/-- The result of the loop does not depend on where in the reductions we look. -/
theorem loop_of_reduces {major : Nat} {m : Minor V} {p q : Parser V X}
    (h : Reduces t sem major m p q) : ∀ {fuel : Nat} {r : Res V X E Unit}, loop t sem major m fuel p = some r →
    ∃ fuel', loop t sem major m fuel' q = some r := by
  induction h with
  | refl p => intro fuel r h; exact ⟨fuel, h⟩
  | head hs hst _ ih =>
    intro fuel r h
    cases fuel with
    | zero => simp [loop] at h
    | succ n =>
      unfold loop at h
      simp only [hs, hst] at h
      exact ih h

/-- If the reductions lead to a parser whose next iteration ends, that is the result. -/
theorem loop_done {major : Nat} {m : Minor V} {p q : Parser V X} {r r' : Res V X E Unit} {fuel : Nat}
    (h : Reduces t sem major m p q) (hq : q.status = .normal) (hst : step t sem q major m = .done r')
    (hl : loop t sem major m fuel p = some r) : r = r' := by
  obtain ⟨fuel', h'⟩ := loop_of_reduces h hl
  cases fuel' with
  | zero => simp [loop] at h'
  | succ n =>
    unfold loop at h'
    simp only [hq, hst, Option.some.injEq] at h'
    exact h'.symm

/-- More fuel does not change a result. -/
theorem loop_mono {major : Nat} {m : Minor V} : ∀ {fuel k : Nat} {p : Parser V X} {r : Res V X E Unit},
    loop t sem major m fuel p = some r → fuel ≤ k → loop t sem major m k p = some r := by
  intro fuel
  induction fuel with
  | zero => intro k p r h; simp [loop] at h
  | succ n ih =>
    intro k p r h hk
    cases k with
    | zero => omega
    | succ k =>
      unfold loop at h ⊢
      cases hs : p.status with
      | normal =>
        simp only [hs] at h ⊢
        cases hst : step t sem p major m with
        | done r' => simpa only [hst] using h
        | again p' => simp only [hst] at h ⊢; exact ih h (by omega)
      | failed => simpa only [hs] using h
      | accepted v => simpa only [hs] using h

theorem parseToken_mono {major : Nat} {m : Minor V} {fuel k : Nat} {p : Parser V X} {r : Res V X E Unit}
    (h : parseToken t sem fuel p major m = some r) (hk : fuel ≤ k) :
    parseToken t sem k p major m = some r := by
  unfold parseToken at h ⊢
  cases hs : p.status with
  | normal =>
    simp only [hs, Option.map_eq_some_iff] at h ⊢
    obtain ⟨r', h1, h2⟩ := h
    exact ⟨r', loop_mono h1 hk, h2⟩
  | failed => simpa only [hs] using h
  | accepted v => simpa only [hs] using h

/-- Reductions log only reductions. -/
theorem Reduces.events {major : Nat} {m : Minor V} {p q : Parser V X} (h : Reduces t sem major m p q) :
    ∃ evs, q.trace = evs ++ p.trace ∧ ∀ e ∈ evs, ∃ r vs, e = .reduce r vs := by
  induction h with
  | refl p => exact ⟨[], by simp⟩
  | head hs hst _ ih =>
    obtain ⟨evs, h1, h2⟩ := ih
    obtain ⟨top, rest, act, _, _, _, _, hr⟩ := step_again hst
    obtain ⟨_, vs, h3⟩ := reduce_events (t := t) (sem := sem) (by rw [hr]; rfl)
    rcases h3 with h3 | ⟨_, _, _, _, h4, _⟩
    · refine ⟨evs ++ [.reduce (act - t.nState) vs], by rw [h1, h3]; simp, ?_⟩
      intro e he
      rcases List.mem_append.1 he with he | he
      · exact h2 e he
      · exact ⟨_, vs, List.mem_singleton.1 he⟩
    · rw [hr] at h4; cases h4

theorem Reduces.count {major : Nat} {m : Minor V} {p q : Parser V X} (h : Reduces t sem major m p q) :
    q.errorCount = p.errorCount := by
  induction h with
  | refl p => rfl
  | head hs hst _ ih =>
    obtain ⟨top, rest, act, _, _, _, _, hr⟩ := step_again hst
    obtain ⟨h3, _⟩ := reduce_events (t := t) (sem := sem) (by rw [hr]; rfl)
    rw [ih, h3]

/-- The iteration in a state whose action is the error action. -/
theorem step_error {major : Nat} {m : Minor V} {q : Parser V X} {top : Entry V} {rest : List (Entry V)}
    (hs : q.stack = top :: rest) (ha : t.findShift top.state major = .ok (t.nState + t.nRule)) :
    step t sem q major m = .done (onError t sem q top major m) := by
  simp only [step, hs, ha]
  rw [if_neg (by omega), if_neg (by omega), if_pos trivial]

end Pomelo
