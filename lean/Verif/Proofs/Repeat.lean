import Verif.Spec.Repeat
import Verif.Proofs.Choice
import Verif.Proofs.EmbedDecl
import Verif.Proofs.Variant
/-! # Two rules with the same symbols -/

namespace Pomelo

open Spec

variable {ord : List (SymbolId × SymbolId) → List (SymbolId × SymbolId)} {ds : List Decl} {g : Grammar}

/-- Where the items of a rule are valid, so are those of another rule of the same symbol, as far as they agree. -/
theorem repeat_viable {i j n : Nat} (hj : j < g.rules.length) (hl : (g.rule i).lhs = (g.rule j).lhs)
    (hn : ∀ k, k < n → (g.rhsSyms i)[k]? = (g.rhsSyms j)[k]?) {γ : List SymbolId} {it : Item} (h : Viable g γ it) :
    it.rule = i → it.dot ≤ n → Viable g γ ⟨j, it.dot⟩ := by
  induction h with
  | start h => intro e _; simp only at e; subst e; exact .start ⟨hj, hl.symm.trans h.2⟩
  | close h1 h2 h3 _ => intro e _; simp only at e; subst e; exact .close h1 h2 ⟨hj, hl.symm.trans h3.2⟩
  | shift h1 h2 ih =>
    intro e hd
    simp only at e hd
    subst e
    have h3 := ih rfl (by omega)
    refine .shift h3 ?_
    unfold atDot at h2 ⊢
    rw [← h2]
    exact (hn _ hd).symm

/-- The same for look-aheads, of rules that agree -/
theorem repeat_ahead {i j : Nat} (hj : j < g.rules.length) (hl : (g.rule i).lhs = (g.rule j).lhs) (hr : g.rhsSyms i = g.rhsSyms j)
    {γ : List SymbolId} {it : Item} {n : Nat} (h : Ahead g γ it n) : it.rule = i → Ahead g γ ⟨j, it.dot⟩ n := by
  induction h with
  | start h => intro e; simp only at e; subst e; exact .start ⟨hj, hl.symm.trans h.2⟩
  | first h1 h2 h3 h4 => intro e; simp only at e; subst e; exact .first h1 h2 ⟨hj, hl.symm.trans h3.2⟩ h4
  | pass h1 h2 h3 h4 _ => intro e; simp only at e; subst e; exact .pass h1 h2 ⟨hj, hl.symm.trans h3.2⟩ h4
  | shift h1 h2 ih =>
    intro e
    simp only at e
    subst e
    refine .shift (ih rfl) ?_
    unfold atDot at h2 ⊢
    rw [← h2, ← hr]

theorem repeat_reduces {i j : Nat} (hj : j < g.rules.length) (hl : (g.rule i).lhs = (g.rule j).lhs) (hr : g.rhsSyms i = g.rhsSyms j)
    {γ : List SymbolId} {a : SymbolId} (h : ReducesOn g γ a i) : ReducesOn g γ a j := by
  obtain ⟨h1, h2, γ', h3, h4⟩ := h
  refine ⟨h1, h2, γ', h3, ?_⟩
  have := repeat_ahead hj hl hr h4 rfl
  rw [hr] at this
  exact this

/-- The dot has been at every place before. -/
theorem viable_before {γ : List SymbolId} {it : Item} (h : Viable g γ it) : ∀ d, d ≤ it.dot → ∃ δ, Viable g δ ⟨it.rule, d⟩ := by
  induction h with
  | start h => intro d hd; simp only at hd; rw [Nat.le_zero.1 hd]; exact ⟨_, .start h⟩
  | close h1 h2 h3 _ => intro d hd; simp only at hd; rw [Nat.le_zero.1 hd]; exact ⟨_, .close h1 h2 h3⟩
  | shift h1 h2 ih =>
    intro d hd
    rcases Nat.lt_or_eq_of_le hd with hd | rfl
    · exact ih d (Nat.le_of_lt_succ hd)
    · exact ⟨_, .shift h1 h2⟩

/-- In a run no token is read in two ways. -/
theorem Spec.Run.one_shift (ho : OrdOk ord) (R : Run ord ds) {γ : List SymbolId} {a X Y : SymbolId} (hX : ShiftsOn R.g γ a X) (hY : ShiftsOn R.g γ a Y) :
    X = Y := by
  obtain ⟨hi, ha, hs⟩ := R.aspec ho
  obtain ⟨b⟩ := bridge ho R.decls R.auto
  obtain ⟨it, hit, _⟩ := id hX
  obtain ⟨q, hp⟩ := viable_path hi ha hit
  have hq := Path.lt ha hp
  have hsh : ∀ {X}, ShiftsOn R.g γ a X → ∃ k, R.g.Trans R.sts q X k ∧ R.g.CanShift R.sts q a k := by
    intro X hX
    obtain ⟨⟨k, h1⟩, h2⟩ := (shiftsOn_iff hi ha hp).1 hX
    exact ⟨k, h1, X, h1, (reads_iff (Reads.kind h2)).2 h2⟩
  obtain ⟨k, h1, h2⟩ := hsh hX
  obtain ⟨k', h3, h4⟩ := hsh hY
  obtain ⟨sh, rd, hs1, _, hout⟩ := hs.out q hq a (.inr (Grammar.CanShift.ne_start hi ha b.noStart h2))
  have hlen := hout.short
  have e1 := (hs1 k).2 h2
  have e2 := (hs1 k').2 h4
  match sh, hlen with
  | [x], _ =>
    rw [List.mem_singleton] at e1 e2
    rw [e1] at h1; rw [e2] at h3
    exact Grammar.Trans.symbol h1 h3
  | [], _ => cases e1

/-- In a run no two rules have the same symbols. -/
theorem Spec.Run.distinct (ho : OrdOk ord) (R : Run ord ds) {i j : RuleId} (hi : i < R.g.rules.length) (hj : j < R.g.rules.length)
    (hl : (R.g.rule i).lhs = (R.g.rule j).lhs) (hr : R.g.rhsSyms i = R.g.rhsSyms j) : i = j := by
  have key : ∀ {i j : RuleId}, i < R.g.rules.length → j < R.g.rules.length → (R.g.rule i).lhs = (R.g.rule j).lhs → R.g.rhsSyms i = R.g.rhsSyms j →
      ∃ γ a, ReducesOn R.g γ a j ∧ ¬ Yields R.g γ a i := by
    intro i j hi hj hl hr
    obtain ⟨γ, q, a, h1, h2, h3⟩ := C20_reduced ho R hi
    exact ⟨γ, a, repeat_reduces hj hl hr h2, (R.left_iff ho h1 h2).1 h3⟩
  have main : ∀ {i j : RuleId}, i < R.g.rules.length → j < R.g.rules.length → (R.g.rule i).lhs = (R.g.rule j).lhs → R.g.rhsSyms i = R.g.rhsSyms j →
      ¬ i < j := by
    intro i j hi hj hl hr hlt
    obtain ⟨γ, a, h1, h2⟩ := key hi hj hl hr
    obtain ⟨γ', a', h3, h4⟩ := key hj hi hl.symm hr.symm
    have hne : i ≠ j := Nat.ne_of_lt hlt
    have n1 := fun h => h2 (.rule h1 hne.symm h)
    have n2 := fun h => h4 (.rule h3 hne h)
    cases e1 : (R.g.rule i).precedence with
    | none => exact n2 (.inl ⟨hlt, .inl e1⟩)
    | some p =>
      cases e2 : (R.g.rule j).precedence with
      | none => exact n2 (.inl ⟨hlt, .inr e2⟩)
      | some p' =>
        have m1 := fun h => n1 (.inr ⟨p, p', e1, e2, h⟩)
        have m2 := fun h => n2 (.inr ⟨p', p, e2, e1, h⟩)
        by_cases x : p.level = p'.level
        · by_cases y : p.assoc = .left
          · exact m1 (.inr ⟨x, .inr ⟨hlt, y⟩⟩)
          · exact m2 (.inr ⟨x.symm, .inl ⟨hlt, y⟩⟩)
        · rcases Nat.lt_or_gt_of_ne x with x | x
          · exact m1 (.inl x)
          · exact m2 (.inl x)
  rcases Nat.lt_trichotomy i j with h | h | h
  · exact absurd h (main hi hj hl hr)
  · exact h
  · exact absurd h (main hj hi hl.symm hr.symm)

/-- The first place where two lists differ -/
theorem first_difference {α : Type} : ∀ {l l' : List α}, l.length = l'.length → l ≠ l' →
    ∃ (n : Nat) (x y : α), (∀ k, k < n → l[k]? = l'[k]?) ∧ l[n]? = some x ∧ l'[n]? = some y ∧ x ≠ y
  | [], [], _, h => absurd rfl h
  | [], _ :: _, h, _ => by simp at h
  | _ :: _, [], h, _ => by simp at h
  | a :: l, b :: l', h, hne => by
    by_cases e : a = b
    · subst e
      obtain ⟨n, x, y, h1, h2, h3, h4⟩ := first_difference (l := l) (l' := l') (by simpa using h) (fun e => hne (by rw [e]))
      refine ⟨n + 1, x, y, ?_, h2, h3, h4⟩
      intro k hk
      cases k with
      | zero => rfl
      | succ k => exact h1 k (by omega)
    · exact ⟨0, a, b, fun k hk => absurd hk (Nat.not_lt_zero k), rfl, rfl, e⟩

theorem forall₂_get? {α β : Type} {P : α → β → Prop} {l : List α} {m : List β} (h : List.Forall₂ P l m) : ∀ {n : Nat} {y : β}, m[n]? = some y → ∃ x, l[n]? = some x ∧ P x y := by
  induction h with
  | nil => intro n y h; simp at h
  | cons h _ ih =>
    intro n y hy
    cases n with
    | zero => cases hy; exact ⟨_, rfl, h⟩
    | succ n => exact ih hy

/-- Two symbols for the same element: the same, or two compounds of the same tokens -/
theorem elemSym_two {gD : Grammar} (hd : DInv gD) {e e' : RhsElem} (he : e.plain = e'.plain) {X Y : SymbolId} (hX : X < gD.syms.length) (hY : Y < gD.syms.length)
    (hne : (gD.sym X).name = .anon → (gD.sym X).subs ≠ []) (h : ElemSym gD e X) (h' : ElemSym gD e' Y) : X = Y ∨ ∃ a, a ∈ (gD.sym X).subs ∧ a ∈ (gD.sym Y).subs := by
  have e1 : e.toks = e'.toks := by have := congrArg RhsElem.toks he; exact this
  have e2 : e.optional = e'.optional := by have := congrArg RhsElem.optional he; exact this
  rcases h with ⟨tok, h1, h2, h3⟩ | ⟨tok, s, h1, h2, h3, h4, h5⟩ | ⟨h1, h2, h3⟩ <;>
    rcases h' with ⟨tok', k1, k2, k3⟩ | ⟨tok', s', k1, k2, k3, k4, k5⟩ | ⟨k1, k2, k3⟩
  · rw [h1, k1] at e1
    cases e1
    exact .inl (hd.ident_inj hX hY h3 k3)
  · rw [h2, k2] at e2; cases e2
  · exact absurd (e1.symm.trans h1) (k1 tok)
  · rw [h2, k2] at e2; cases e2
  · rw [h1, k1] at e1
    cases e1
    have e3 := hd.ident_inj h3 k3 h5 k5
    subst e3
    left
    have hn := hd.optKeys
    obtain ⟨m, hm⟩ := List.mem_iff_getElem?.1 h4
    obtain ⟨m', hm'⟩ := List.mem_iff_getElem?.1 k4
    have hlt : m < (gD.optionals.map Prod.fst).length := by rw [List.length_map]; exact (List.getElem?_eq_some_iff.1 hm).1
    have e4 : m = m' := (List.getElem?_inj hlt hn).1 (by rw [List.getElem?_map, List.getElem?_map, hm, hm']; rfl)
    subst e4
    rw [hm] at hm'
    cases hm'
    rfl
  · exact absurd (e1.symm.trans h1) (k1 tok)
  · exact absurd (e1.trans k1) (h1 tok')
  · exact absurd (e1.trans k1) (h1 tok')
  · right
    rw [← e1] at k3
    have hne := hne h2
    generalize (gD.sym X).subs = l at h3 hne
    generalize (gD.sym Y).subs = l' at k3
    generalize e.toks = ts at h3 k3
    cases h3 with
    | nil => exact absurd rfl hne
    | cons h _ =>
      cases k3 with
      | cons k _ =>
        have := hd.ident_inj h.1 k.1 h.2 k.2
        subst this
        exact ⟨_, List.mem_cons_self, List.mem_cons_self⟩

theorem keep_subs {ord} {ds : List Decl} {g : Grammar} (b : Bridge0 ord ds g) {x a : SymbolId} (hx : x < b.gD.syms.length) (h : a ∈ (b.gD.sym x).subs) : Reads g x a := by
  have hk := b.keep x hx
  unfold Symbol.keep at hk
  simp only [Prod.mk.injEq] at hk
  have h2 := b.dinv.subsKind x hx (List.ne_nil_of_mem h)
  unfold Reads
  rw [hk.2.1, h2]
  simp only
  rw [hk.2.2.1]
  exact h

theorem repeat_refused (ho : OrdOk ord) {t : Tables} (hc : compile ord ds = .ok t) : ¬ Repeats ds := by
  rintro ⟨i, j, u, v, hne, hu, hv', hl, hr⟩
  obtain ⟨c⟩ := compile_cspec hc
  let R : Run ord ds := ⟨c.g0, c.g, c.sts, c.acts, c.acts', c.decls, c.auto, c.actions, c.compress⟩
  obtain ⟨b⟩ := bridge ho R.decls R.auto
  obtain ⟨a1, a2, a3, a4, a5, _⟩ := b.written ho hu
  obtain ⟨c1, c2, c3, c4, c5, _⟩ := b.written ho hv'
  have elhs : (R.g.rule i).lhs = (R.g.rule j).lhs := b.dinv.ident_inj a2 c2 a3 (by rw [c3, hl])
  by_cases e : R.g.rhsSyms i = R.g.rhsSyms j
  · exact hne (R.distinct ho a1 c1 elhs e)
  have hlen : (R.g.rhsSyms i).length = (R.g.rhsSyms j).length := by
    rw [← a4.length_eq, ← c4.length_eq]
    simpa using congrArg List.length hr
  obtain ⟨n, X, Y, d1, d2, d3, d4⟩ := first_difference hlen e
  obtain ⟨x, x1, x2⟩ := forall₂_get? a4 d2
  obtain ⟨y, y1, y2⟩ := forall₂_get? c4 d3
  have exy : x.plain = y.plain := by
    have := congrArg (fun l => l[n]?) hr
    simpa [List.getElem?_map, x1, y1] using this
  have hX := a5 X (List.mem_of_getElem? d2)
  have hY := c5 Y (List.mem_of_getElem? d3)
  have hmem : (b.gD.sym X).name = .anon → (b.gD.sym X).subs ≠ [] := by
    intro hn
    have hk := b.dinv.kinds X hX
    have hkeep := b.keep X hX
    unfold Symbol.keep at hkeep
    simp only [Prod.mk.injEq] at hkeep
    rw [← hkeep.2.2.1]
    have hk' : (c.g.sym X).kind = .multiTerminal := by
      have e : (c.g.sym X).kind = (b.gD.sym X).kind := hkeep.2.1
      rw [e]
      rw [hn] at hk
      generalize (b.gD.sym X).kind = kd at hk
      cases kd <;> first | rfl | (cases hk; done)
    have hw : c.g.wildcard ≠ some X := by
      intro hw
      have hw : b.gD.wildcard = some X := by rw [← b.wildcard]; exact hw
      have := (b.dinv.wild X hw).2
      rw [hn] at this
      cases this
    exact c.gen.noEmpty (R.aspec ho).1 (Nat.lt_of_lt_of_le hX (Nat.le_trans (Nat.le_succ _) (Nat.le_of_eq b.len.symm))) hk' hw
  rcases elemSym_two b.dinv exy hX hY hmem x2 y2 with e | ⟨a, m1, m2⟩
  · exact d4 e
  obtain ⟨γ, q, s, _, ⟨_, _, γ', _, h3⟩, _⟩ := C20_reduced ho R a1
  obtain ⟨δ, h4⟩ := viable_before h3.viable n (Nat.le_of_lt (List.getElem?_eq_some_iff.1 d2).1)
  have h5 := repeat_viable c1 elhs d1 h4 rfl (Nat.le_refl n)
  exact d4 (R.one_shift ho ⟨_, h4, d2, keep_subs b.toBridge0 hX m1⟩ ⟨_, h5, d3, keep_subs b.toBridge0 hY m2⟩)

end Pomelo
