import Verif.Proofs.RunInv
/-! # Stack size, failure latch, muting of errors: proofs for arbitrary tables -/

namespace Pomelo

variable {V X E : Type} {t : Tables} {sem : Sem V X E}

/-! ## Facts about all calls from facts about the elementary operations -/

theorem parse_eq (t : Tables) (sem : Sem V X E) (fuel : Nat) (p : Parser V X) (tok : Tok V) :
    parse t sem fuel p tok =
      parseToken t sem fuel p tok.major (t.tokenValue sem tok).2 := rfl

/-- The panic-free part of a call: what it did, ending with the last iteration. -/
theorem loop_run {major : Nat} {m : Minor V} : ∀ {fuel : Nat} {p : Parser V X} {r : Res V X E Unit},
    loop t sem major m fuel p = some r →
    ∃ q, Reduces t sem major m p q ∧
      ((q.status = .normal ∧ step t sem q major m = .done r) ∨
       (q.status ≠ .normal ∧ r = .ok q ())) := by
  intro fuel
  induction fuel with
  | zero => intro p r h; simp [loop] at h
  | succ n ih =>
    intro p r h
    unfold loop at h
    cases hs : p.status with
    | normal =>
      simp only [hs] at h
      cases hst : step t sem p major m with
      | done r' =>
        simp only [hst, Option.some.injEq] at h; subst h
        exact ⟨p, .refl p, .inl ⟨hs, hst⟩⟩
      | again p' =>
        simp only [hst] at h
        obtain ⟨q, hq, h'⟩ := ih h
        exact ⟨q, .head hs hst hq, h'⟩
    | failed => simp only [hs, Option.some.injEq] at h; subst h; exact ⟨p, .refl p, .inr ⟨by simp [hs], rfl⟩⟩
    | accepted v => simp only [hs, Option.some.injEq] at h; subst h; exact ⟨p, .refl p, .inr ⟨by simp [hs], rfl⟩⟩

/-- A relation that holds for the elementary steps holds along `Reduces`. -/
theorem Reduces.induct {major : Nat} {m : Minor V} {R : Parser V X → Parser V X → Prop}
    (hrefl : ∀ p, R p p) (htrans : ∀ p q r, R p q → R q r → R p r)
    (hstep : ∀ p q, p.status = .normal → step t sem p major m = .again q → R p q)
    {p q : Parser V X} (h : Reduces t sem major m p q) : R p q := by
  induction h with
  | refl p => exact hrefl p
  | head hs h _ ih => exact htrans _ _ _ (hstep _ _ hs h) ih

/-- `Reduces` keeps an invariant kept by `step`. -/
theorem Reduces.inv {major : Nat} {m : Minor V} {I : Parser V X → Prop}
    (hstep : ∀ p q, I p → p.status = .normal → step t sem p major m = .again q → I q)
    {p q : Parser V X} (h : Reduces t sem major m p q) (hp : I p) : I q := by
  induction h with
  | refl p => exact hp
  | head hs h _ ih => exact ih (hstep _ _ hp hs h)

/-- An iteration that continues is a reduction. -/
theorem step_again {major : Nat} {m : Minor V} {p q : Parser V X}
    (h : step t sem p major m = .again q) :
    ∃ top rest act, p.stack = top :: rest ∧ t.findShift top.state major = .ok act ∧
      t.nState ≤ act ∧ act < t.nState + t.nRule ∧ reduce t sem p (act - t.nState) = .ok q () := by
  rcases step_cases t sem p major m with ⟨w, h'⟩ | ⟨top, rest, act, h1, h2, h'⟩
  · rw [h] at h'; cases h'
  · rcases h' with ⟨_, _, h'⟩ | ⟨h3, h4, h'⟩ | ⟨_, h'⟩
    · rcases h' with ⟨_, _, _, h'⟩ | ⟨_, _, h'⟩ <;> (rw [h] at h'; cases h')
    · rcases h' with ⟨_, _, _, h'⟩ | ⟨p1, h5, h'⟩
      · rw [h] at h'; cases h'
      · rw [h] at h'; cases h'; exact ⟨top, rest, act, h1, h2, h3, h4, h5⟩
    · rw [h] at h'; cases h'

/-! ## Stack size -/

/-- The stack fits. -/
def Fits (t : Tables) (p : Parser V X) : Prop := t.stackLimit ≠ 0 → p.stack.length ≤ t.stackLimit

theorem shift_fits {p p' : Parser V X} {s major : Nat} {m : Minor V} (hp : Fits t p)
    (h : (shift t sem p s major m).parser? = some p') : Fits t p' := by
  rcases shift_cases t sem p s major m with ⟨_, _, h'⟩ | ⟨hl, h'⟩
  · rw [h'] at h; cases h; exact hp
  · rw [h'] at h; cases h; intro h0; simp only [List.length_cons]; omega

theorem fits_of_le {p p' : Parser V X} (hp : Fits t p) (h : p'.stack.length ≤ p.stack.length) :
    Fits t p' := fun h0 => Nat.le_trans h (hp h0)

theorem reduce_fits {p p' : Parser V X} {r : Nat} (hp : Fits t p)
    (h : (reduce t sem p r).parser? = some p') : Fits t p' := by
  rcases reduce_cases t sem p r with ⟨w, h'⟩ | ⟨rc, vs, _, _, _, h'⟩
  · rw [h'] at h; cases h
  · rcases h' with ⟨e, x, _, h'⟩ | ⟨v, x, lhs, top, rest, act, _, _, hd, _, h'⟩
    · rw [h'] at h; cases h; exact fits_of_le hp (by simp)
    · rcases h' with ⟨_, h'⟩ | ⟨_, _, h'⟩
      · rw [h'] at h; exact shift_fits (fits_of_le hp (by simp)) h
      · rw [h'] at h
        rcases accept_cases t sem _ ⟨rc.lhsDt, v⟩ with h'' | ⟨v', h''⟩ <;> (rw [h''] at h; cases h)
        exact fits_of_le hp (by simp)

theorem syntaxError_stack {p p' : Parser V X} {major : Nat} {m : Minor V} {ex : List Nat}
    (h : (syntaxError t sem p major m ex).parser? = some p') :
    p'.stack = p.stack ∧ p'.errorCount = p.errorCount ∧ p'.status = p.status ∧
      p'.trace = .syntaxError (t.tokenBuild sem major m) ex :: p.trace := by
  rcases syntaxError_cases t sem p major m ex with ⟨e, x, _, h'⟩ | ⟨e, x, _, h'⟩ <;>
    (rw [h'] at h; cases h; simp)

theorem recover_fits {p p' : Parser V X} {stk : List (Entry V)} {major : Nat} {m : Minor V} {ex : List Nat}
    (hstk : t.stackLimit ≠ 0 → stk.length ≤ t.stackLimit)
    (h : (recover t sem major m ex stk p).parser? = some p') : Fits t p' := by
  rcases recover_cases t sem major m ex stk p with ⟨w, h'⟩ | ⟨popped, rest, hr, _, h'⟩
  · rw [h'] at h; cases h
  · have hlen : rest.length ≤ stk.length := by simp [hr]
    rcases h' with ⟨_, h'⟩ | ⟨top, rest', hrest, h'⟩
    · rw [h'] at h; cases h; intro _; simp
    · rcases h' with ⟨_, h'⟩ | ⟨_, act, _, _, h'⟩
      · rw [h'] at h; cases h; exact fun h0 => Nat.le_trans hlen (hstk h0)
      · rcases h' with ⟨p1, e, hs, h'⟩ | ⟨p1, e, hs, h'⟩
        · rw [h'] at h; cases h
          have := syntaxError_stack (sem := sem) (p' := p') (by rw [hs]; rfl)
          intro h0; rw [this.1]; exact Nat.le_trans hlen (hstk h0)
        · rw [h'] at h
          have := syntaxError_stack (sem := sem) (p' := p1) (by rw [hs]; rfl)
          refine shift_fits ?_ h
          intro h0; rw [this.1]; exact Nat.le_trans hlen (hstk h0)

theorem onError_fits {p p' : Parser V X} {top : Entry V} {major : Nat} {m : Minor V} (hp : Fits t p)
    (h : (onError t sem p top major m).parser? = some p') : Fits t p' := by
  rcases onError_cases t sem p top major m with ⟨w, h', _⟩ | ⟨_, h'⟩ | ⟨ex, _, _, h'⟩
  · rw [h'] at h; cases h
  · rw [h'] at h; cases h; intro _; simp [parseFailed]
  · rcases h' with ⟨_, h'⟩ | ⟨_, _, h'⟩ | ⟨_, _, h'⟩
    · rcases h' with ⟨p1, e, hr, h'⟩ | ⟨p1, hr, _, h'⟩ | ⟨p1, hr, _, h'⟩
      · rw [h'] at h; cases h; exact recover_fits hp (by rw [hr]; rfl)
      · rw [h'] at h; cases h; intro _; simp [parseFailed]
      · rw [h'] at h; cases h
        have : Fits t p1 := recover_fits (sem := sem) hp (by rw [hr]; rfl)
        exact this
    · rcases h' with ⟨p1, e, hr, h'⟩ | ⟨p1, e, hr, h'⟩ <;> (rw [h'] at h; cases h)
      · have := syntaxError_stack (sem := sem) (p' := p') (by rw [hr]; rfl)
        exact fits_of_le hp (by simp [this.1])
      · have := syntaxError_stack (sem := sem) (p' := p1) (by rw [hr]; rfl)
        exact fits_of_le hp (by simp [this.1])
    · rw [h'] at h; cases h; exact hp

theorem step_fits {p : Parser V X} {major : Nat} {m : Minor V} (hp : Fits t p) :
    (∀ p', step t sem p major m = .again p' → Fits t p') ∧
    (∀ r p', step t sem p major m = .done r → r.parser? = some p' → Fits t p') := by
  rcases step_cases t sem p major m with ⟨w, h⟩ | ⟨top, rest, act, _, _, h⟩
  · rw [h]; refine ⟨by simp, ?_⟩
    intro r p' hr hp; cases hr; simp [Res.parser?] at hp
  · rcases h with ⟨_, _, h⟩ | ⟨_, _, h⟩ | ⟨_, h⟩
    · rcases h with ⟨p1, e, h1, h⟩ | ⟨p1, h1, h⟩
      · rw [h]; refine ⟨by simp, ?_⟩
        intro r p' hr hp'; cases hr
        exact shift_fits hp (by rw [h1]; exact hp')
      · rw [h]; refine ⟨by simp, ?_⟩
        intro r p' hr hp'; cases hr
        simp only [Res.parser?, Option.some.injEq] at hp'; subst hp'
        have : Fits t p1 := shift_fits (sem := sem) hp (by rw [h1]; rfl)
        exact this
    · rcases h with ⟨p1, e, h1, h⟩ | ⟨p1, h1, h⟩
      · rw [h]; refine ⟨by simp, ?_⟩
        intro r p' hr hp'; cases hr
        exact reduce_fits hp (by rw [h1]; exact hp')
      · rw [h]; refine ⟨?_, by simp⟩
        intro p' hr; cases hr
        exact reduce_fits hp (by rw [h1]; rfl)
    · rw [h]; refine ⟨by simp, ?_⟩
      intro r p' hr hp'; cases hr
      exact onError_fits hp hp'

theorem parseToken_fits {p p' : Parser V X} {major : Nat} {m : Minor V} {fuel : Nat}
    {r : Res V X E Unit} (hp : Fits t p) (h : parseToken t sem fuel p major m = some r)
    (h2 : r.parser? = some p') : Fits t p' := by
  rcases parseToken_inv h with ⟨rfl, _⟩ | ⟨_, r', hl, hr⟩
  · simp [Res.parser?] at h2
  · have key : ∀ p', r'.parser? = some p' → Fits t p' :=
      loop_inv (t := t) (sem := sem) (major := major) (m := m) (fun q => Fits t q)
        (fun r => ∀ p', r.parser? = some p' → Fits t p')
        (fun q q' hq _ hs => (step_fits hq).1 _ hs)
        (fun q r hq _ hs p' hp' => (step_fits hq).2 _ _ hs hp')
        (fun q hq _ p' hp' => by cases hp'; exact hq) fuel p r' hp hl
    rcases hr with ⟨p1, e, rfl, rfl⟩ | ⟨_, rfl⟩
    · cases h2; exact key p1 rfl
    · exact key p' h2

theorem reach_fits {p : Parser V X} (h : Reach t sem p) : Fits t p := by
  induction h with
  | new x => intro h0; simp [Parser.new]; omega
  | parse _ _ h1 h2 ih => exact parseToken_fits ih h1 h2
  | extra x _ ih => exact ih

end Pomelo
