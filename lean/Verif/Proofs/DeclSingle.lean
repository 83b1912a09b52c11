import Verif.Proofs.DeclGlob
/-! # Directives that may be used once -/

namespace Pomelo

open Spec

/-- A directive that would be refused now -/
def Blocked (a : Glob) (o : Ident → Attrs) (d : Decl) : Prop := ¬ (a.pre d ∧ Attrs.pre o d)

theorem Attrs.step_dataType_isSome {n : Nat} {i : Ident} {a : Attrs} {d : Decl} (h : a.dataType.isSome = true) :
    (a.step n i d).dataType.isSome = true := by
  cases d
  case type at_ j ty => cases ty with
    | none => simp only [Attrs.step]; split <;> exact h
    | some t => simp only [Attrs.step]; split <;> simp [h]
  all_goals first | exact h | (simp only [Attrs.step]; split <;> exact h)

theorem Attrs.step_precedence_isSome {n : Nat} {i : Ident} {a : Attrs} {d : Decl} (h : a.precedence.isSome = true) :
    (a.step n i d).precedence.isSome = true := by
  cases d
  case type at_ j ty => cases ty with
    | none => simp only [Attrs.step]; split <;> exact h
    | some t => simp only [Attrs.step]; split <;> exact h
  case assoc s ids => simp only [Attrs.step]; split <;> simp [h]
  all_goals first | exact h | (simp only [Attrs.step]; split <;> exact h)

theorem Attrs.step_fallback_isSome {n : Nat} {i : Ident} {a : Attrs} {d : Decl} (h : a.fallback.isSome = true) :
    (a.step n i d).fallback.isSome = true := by
  cases d
  case type at_ j ty => cases ty with
    | none => simp only [Attrs.step]; split <;> exact h
    | some t => simp only [Attrs.step]; split <;> exact h
  case fallback s ids => simp only [Attrs.step]; split <;> simp [h]
  all_goals first | exact h | (simp only [Attrs.step]; split <;> exact h)

theorem Blocked.step {a : Glob} {o : Ident → Attrs} {d d' : Decl} (h : Blocked a o d') (hp : a.pre d) :
    Blocked (a.step d) (fun i => (o i).step a.prec i d) d' := by
  unfold Blocked at *
  intro hh
  apply h
  cases d'
  case type at_ j ty =>
    refine ⟨trivial, ?_⟩
    have h1 : ((o j).step a.prec j d).dataType = none := hh.2
    show (o j).dataType = none
    cases hx : (o j).dataType with
    | none => rfl
    | some t =>
      have := Attrs.step_dataType_isSome (n := a.prec) (i := j) (a := o j) (d := d) (by rw [hx]; rfl)
      rw [h1] at this; cases this
  case assoc s ids =>
    refine ⟨trivial, hh.2.1, ?_⟩
    intro j hj
    have h1 : ((o j).step a.prec j d).precedence = none := hh.2.2 j hj
    cases hx : (o j).precedence with
    | none => rfl
    | some t =>
      have := Attrs.step_precedence_isSome (n := a.prec) (i := j) (a := o j) (d := d) (by rw [hx]; rfl)
      rw [h1] at this; cases this
  case fallback s ids =>
    refine ⟨trivial, hh.2.1, ?_⟩
    intro j hj
    have h1 : ((o j).step a.prec j d).fallback = none := hh.2.2 j hj
    cases hx : (o j).fallback with
    | none => rfl
    | some t =>
      have := Attrs.step_fallback_isSome (n := a.prec) (i := j) (a := o j) (d := d) (by rw [hx]; rfl)
      rw [h1] at this; cases this
  all_goals
    refine ⟨?_, trivial⟩
    have h1 := hh.1
    clear h hh
    cases d
    all_goals first
      | exact h1
      | exact hp

theorem clash_blocked {a : Glob} {o : Ident → Attrs} {d d' : Decl} (hp : a.pre d) (hu : untyped d = false) (hc : Clash d d') :
    Blocked (a.step d) (fun i => (o i).step a.prec i d) d' := by
  unfold Blocked
  intro hh
  cases d <;> cases d' <;> simp only [Clash] at hc
  case type.type a1 i t1 a2 j t2 =>
    subst hc
    cases t1 with
    | none => cases hu
    | some t =>
      have h1 : ((o i).step a.prec i (.type a1 i (some t))).dataType = none := hh.2
      simp [Attrs.step] at h1
  case assoc.assoc s1 ids s2 js =>
    obtain ⟨i, hi, hj⟩ := hc
    have h1 := hh.2.2 i hj
    simp [Attrs.step, hi] at h1
  case fallback.fallback s1 ids s2 js =>
    obtain ⟨i, hi, hj⟩ := hc
    have h1 := hh.2.2 i hj
    simp [Attrs.step, hi] at h1
  case stackSize.stackSize l1 t1 l2 t2 =>
    cases t1 with
    | none => cases hu
    | some t => exact absurd hh.1 (by simp [Glob.pre, Glob.step])
  all_goals exact absurd hh.1 (by simp [Glob.pre, Glob.step])

theorem preAll_not_blocked {d : Decl} : ∀ {ds : List Decl} {a : Glob} {o : Ident → Attrs}, preAll a o ds →
    Blocked a o d → d ∉ ds := by
  intro ds
  induction ds with
  | nil => intro a o _ _; simp
  | cons d1 ds ih =>
    intro a o h hb hm
    obtain ⟨h1, h2, h3⟩ := h
    rcases List.mem_cons.1 hm with rfl | hm
    · exact hb ⟨h1, h2⟩
    · exact ih h3 (hb.step h1) hm

theorem preAll_pairwise : ∀ {ds : List Decl} {a : Glob} {o : Ident → Attrs}, preAll a o ds →
    ds.Pairwise (fun d d' => untyped d = false → ¬ Clash d d') ∧
    ∀ d ∈ ds, ∀ ids, ((∃ s, d = .assoc s ids) ∨ ∃ f, d = .fallback f ids) → ids.Nodup := by
  intro ds
  induction ds with
  | nil => intro a o _; exact ⟨.nil, by simp⟩
  | cons d ds ih =>
    intro a o h
    obtain ⟨h1, h2, h3⟩ := h
    obtain ⟨b1, b2⟩ := ih h3
    refine ⟨List.pairwise_cons.2 ⟨?_, b1⟩, ?_⟩
    · intro d' hd' hu hc
      exact preAll_not_blocked h3 (clash_blocked h1 hu hc) hd'
    · intro d' hd' ids hids
      rcases List.mem_cons.1 hd' with rfl | hd'
      · rcases hids with ⟨s, rfl⟩ | ⟨f, rfl⟩
        · exact h2.1
        · exact h2.1
      · exact b2 d' hd' ids hids

end Pomelo
