import Verif.Proofs.Embed
/-!
# Conflicts in grammars with other numbers of symbols
-/

namespace Pomelo
open Spec

variable {g g' : Grammar} {sts sts' : List LState}

/-- The two details say the same, for states that correspond by `M`. -/
inductive RelD (M : StateId → StateId → Prop) (n : Nat) : Detail → Detail → Prop
  | shift {k k'} : M k k' → RelD M n (.shift k) (.shift k')
  | accept : RelD M n .accept .accept
  | reduce {r : Nat} : r < n → RelD M n (.reduce r) (.reduce r)
  | error : RelD M n .error .error
  | ssConflict {k k'} : M k k' → RelD M n (.ssConflict k) (.ssConflict k')
  | srConflict {r : Nat} : r < n → RelD M n (.srConflict r) (.srConflict r)
  | rrConflict {r : Nat} : r < n → RelD M n (.rrConflict r) (.rrConflict r)
  | shResolved {k k'} : M k k' → RelD M n (.shResolved k) (.shResolved k')
  | rdResolved {r : Nat} : r < n → RelD M n (.rdResolved r) (.rdResolved r)
  | notUsed : RelD M n .notUsed .notUsed

namespace Embed
variable (e : Embed g g')

/-- The two actions say the same. -/
def RelA (M : StateId → StateId → Prop) (a b : Action) : Prop := e.rel a.la b.la ∧ RelD M g.rules.length a.detail b.detail

variable {M : StateId → StateId → Prop}

theorem resolveConflict {x x' y y' : Action} (hx : e.RelA M x x') (hy : e.RelA M y y') :
    e.RelA M (g.resolveConflict x y).1 (g'.resolveConflict x' y').1 ∧ e.RelA M (g.resolveConflict x y).2.1 (g'.resolveConflict x' y').2.1 ∧
    (g.resolveConflict x y).2.2 = (g'.resolveConflict x' y').2.2 := by
  obtain ⟨la, d⟩ := x
  obtain ⟨la', d'⟩ := x'
  obtain ⟨lb, f⟩ := y
  obtain ⟨lb', f'⟩ := y'
  obtain ⟨hx1, hx2⟩ := hx
  obtain ⟨hy1, hy2⟩ := hy
  simp only at hx1 hx2 hy1 hy2
  have same : ∀ {p q : Detail}, RelD M g.rules.length p q → e.RelA M ⟨la, p⟩ ⟨la', q⟩ := fun h => ⟨hx1, h⟩
  have same2 : ∀ {p q : Detail}, RelD M g.rules.length p q → e.RelA M ⟨lb, p⟩ ⟨lb', q⟩ := fun h => ⟨hy1, h⟩
  cases hx2 with
  | shift h =>
    cases hy2 with
    | shift h2 => exact ⟨same (.shift h), same2 (.ssConflict h2), rfl⟩
    | reduce h2 =>
      unfold Grammar.resolveConflict
      simp only
      rw [e.prec hx1, e.rprec _ h2]
      split
      · split
        · exact ⟨same (.shResolved h), same2 (.reduce h2), rfl⟩
        · exact ⟨same .error, same2 (.reduce h2), rfl⟩
        · exact ⟨same (.shift h), same2 (.rdResolved h2), rfl⟩
      · exact ⟨same (.shift h), same2 (.srConflict h2), rfl⟩
    | accept => exact ⟨same (.shift h), same2 .accept, rfl⟩
    | error => exact ⟨same (.shift h), same2 .error, rfl⟩
    | ssConflict h2 => exact ⟨same (.shift h), same2 (.ssConflict h2), rfl⟩
    | srConflict h2 => exact ⟨same (.shift h), same2 (.srConflict h2), rfl⟩
    | rrConflict h2 => exact ⟨same (.shift h), same2 (.rrConflict h2), rfl⟩
    | shResolved h2 => exact ⟨same (.shift h), same2 (.shResolved h2), rfl⟩
    | rdResolved h2 => exact ⟨same (.shift h), same2 (.rdResolved h2), rfl⟩
    | notUsed => exact ⟨same (.shift h), same2 .notUsed, rfl⟩
  | reduce h =>
    cases hy2 with
    | shift h2 => exact ⟨same (.reduce h), same2 (.shift h2), rfl⟩
    | reduce h2 =>
      unfold Grammar.resolveConflict
      simp only
      rw [e.rprec _ h, e.rprec _ h2]
      split
      · split
        · exact ⟨same (.rdResolved h), same2 (.reduce h2), rfl⟩
        · exact ⟨same (.reduce h), same2 (.rrConflict h2), rfl⟩
        · exact ⟨same (.reduce h), same2 (.rdResolved h2), rfl⟩
      · exact ⟨same (.reduce h), same2 (.rrConflict h2), rfl⟩
    | accept => exact ⟨same (.reduce h), same2 .accept, rfl⟩
    | error => exact ⟨same (.reduce h), same2 .error, rfl⟩
    | ssConflict h2 => exact ⟨same (.reduce h), same2 (.ssConflict h2), rfl⟩
    | srConflict h2 => exact ⟨same (.reduce h), same2 (.srConflict h2), rfl⟩
    | rrConflict h2 => exact ⟨same (.reduce h), same2 (.rrConflict h2), rfl⟩
    | shResolved h2 => exact ⟨same (.reduce h), same2 (.shResolved h2), rfl⟩
    | rdResolved h2 => exact ⟨same (.reduce h), same2 (.rdResolved h2), rfl⟩
    | notUsed => exact ⟨same (.reduce h), same2 .notUsed, rfl⟩
  | accept => exact ⟨same .accept, same2 hy2, rfl⟩
  | error => exact ⟨same .error, same2 hy2, rfl⟩
  | ssConflict h => exact ⟨same (.ssConflict h), same2 hy2, rfl⟩
  | srConflict h => exact ⟨same (.srConflict h), same2 hy2, rfl⟩
  | rrConflict h => exact ⟨same (.rrConflict h), same2 hy2, rfl⟩
  | shResolved h => exact ⟨same (.shResolved h), same2 hy2, rfl⟩
  | rdResolved h => exact ⟨same (.rdResolved h), same2 hy2, rfl⟩
  | notUsed => exact ⟨same .notUsed, same2 hy2, rfl⟩

theorem resolveFrom {ys ys' : List Action} (hys : List.Forall₂ (e.RelA M) ys ys') : ∀ {x x' : Action}, e.RelA M x x' →
    e.RelA M (g.resolveFrom x ys).1 (g'.resolveFrom x' ys').1 ∧ List.Forall₂ (e.RelA M) (g.resolveFrom x ys).2.1 (g'.resolveFrom x' ys').2.1 ∧
    (g.resolveFrom x ys).2.2 = (g'.resolveFrom x' ys').2.2 := by
  induction hys with
  | nil => intro x x' h; exact ⟨h, .nil, rfl⟩
  | @cons y y' ys ys' hy hys ih =>
    intro x x' hx
    unfold Grammar.resolveFrom
    have hla : x.la = y.la ↔ x'.la = y'.la := by
      constructor
      · intro h
        have h1 := hx.1
        rw [h] at h1
        exact e.fn h1 hy.1
      · intro h
        have h1 := hx.1
        rw [h] at h1
        exact e.inj h1 hy.1
    by_cases h : x.la = y.la
    · rw [if_pos h, if_pos (hla.1 h)]
      obtain ⟨c1, c2, c3⟩ := e.resolveConflict hx hy
      obtain ⟨d1, d2, d3⟩ := ih c1
      exact ⟨d1, .cons c2 d2, by simp only; rw [c3, d3]⟩
    · rw [if_neg h, if_neg (fun k => h (hla.2 k))]
      exact ⟨hx, .cons hy hys, rfl⟩

theorem resolveAll : ∀ {n : Nat} {l l' : List Action}, List.Forall₂ (e.RelA M) l l' →
    List.Forall₂ (e.RelA M) (g.resolveAll n l).1 (g'.resolveAll n l').1 ∧ (g.resolveAll n l).2 = (g'.resolveAll n l').2 := by
  intro n
  induction n with
  | zero => intro l l' h; exact ⟨h, rfl⟩
  | succ n ih =>
    intro l l' h
    cases h with
    | nil => exact ⟨.nil, rfl⟩
    | cons h1 h2 =>
      unfold Grammar.resolveAll
      obtain ⟨c1, c2, c3⟩ := e.resolveFrom h2 h1
      obtain ⟨d1, d2⟩ := ih c2
      exact ⟨.cons c1 d1, by simp only; rw [c3, d2]⟩

theorem resolveL {l l' : List Action} (h : List.Forall₂ (e.RelA M) l l') :
    List.Forall₂ (e.RelA M) (g.resolveL l).1 (g'.resolveL l').1 ∧ (g.resolveL l).2 = (g'.resolveL l').2 := by
  unfold Grammar.resolveL
  rw [← h.length_eq]
  exact e.resolveAll h

end Embed

theorem sublist_pair {α : Type} {l : List α} {R : α → α → Prop} (h : ∀ a b, [a, b].Sublist l → R a b) : l.Pairwise R :=
  List.pairwise_iff_forall_sublist.2 (fun {a b} hs => h a b hs)

/-- The actions of a state on a symbol that is not the start symbol, sorted, in an automaton in which no token is shifted to two states -/
theorem group_norm (hi : GInv g) (ha : Auto g sts) {γ : List SymbolId} {q : StateId} (hp : g.Path sts γ q)
    (hsub : ∀ X k, g.Trans sts q X k → (g.sym X).subs.Nodup) (hone : ∀ s k k', g.CanShift sts q s k → g.CanShift sts q s k' → k = k')
    {s : SymbolId} (hs : q ≠ 0 ∨ s ≠ g.start.getD 0) :
    ∃ (sh : List StateId) (rd : List Nat), onSym s (sortBy g.actionLt (g.rawActions q (sts.getD q default))) =
      sh.map (fun k => (⟨s, .shift k⟩ : Action)) ++ rd.map (fun r => ⟨s, .reduce r⟩) ∧ sh.length ≤ 1 ∧ rd.Pairwise (· < ·) ∧
      (∀ k, k ∈ sh ↔ g.CanShift sts q s k) ∧ ∀ r, r ∈ rd ↔ g.CanReduce sts q s r := by
  have hq := Path.lt ha hp
  obtain ⟨sh, rd, e1, e2, e3⟩ := group_shape (g := g) (raw := g.rawActions q (sts.getD q default)) (s := s) (by
    intro a hm he
    rw [mem_rawActions hi ha hq] at hm
    rcases hm with ⟨k, _, h⟩ | ⟨r, _, h⟩ | ⟨h0, h⟩
    · exact .inl ⟨k, h⟩
    · exact .inr ⟨r, h⟩
    · rcases hs with hs | hs
      · exact absurd h0 hs
      · rw [h] at he; exact absurd he.symm hs)
  have f2 : ∀ k, k ∈ sh ↔ g.CanShift sts q s k := by
    intro k
    rw [e2, mem_rawActions hi ha hq]
    constructor
    · rintro (⟨k', h, e⟩ | ⟨r, h, e⟩ | ⟨_, e⟩)
      · cases e; exact h
      · cases e
      · cases e
    · intro h; exact .inl ⟨k, h, rfl⟩
  have f3 : ∀ r, r ∈ rd ↔ g.CanReduce sts q s r := by
    intro k
    rw [e3, mem_rawActions hi ha hq]
    constructor
    · rintro (⟨k', h, e⟩ | ⟨r, h, e⟩ | ⟨_, e⟩)
      · cases e
      · cases e; exact h
      · cases e
    · intro h; exact .inr (.inl ⟨k, h, rfl⟩)
  have hsubl : (sh.map (fun k => (⟨s, .shift k⟩ : Action)) ++ rd.map (fun r => (⟨s, .reduce r⟩ : Action))).Sublist
      (sortBy g.actionLt (g.rawActions q (sts.getD q default))) := by
    rw [← e1]; exact List.filter_sublist
  refine ⟨sh, rd, e1, ?_, ?_, f2, f3⟩
  · have hnd : (sh.map (fun k => (⟨s, .shift k⟩ : Action))).Nodup := by
      have h1 := ((perm_sortBy g.actionLt (g.rawActions q (sts.getD q default))).nodup_iff).2 (nodup_raw hi ha hq hsub)
      exact ((List.sublist_append_left _ _).trans hsubl).nodup h1
    have hnd := List.Nodup.of_map _ hnd
    match sh, hnd, f2 with
    | [], _, _ => simp
    | [_], _, _ => simp
    | a :: b :: l, hnd, f2 =>
      have := hone s a b ((f2 a).1 (by simp)) ((f2 b).1 (by simp))
      rw [this] at hnd
      simp at hnd
  · apply sublist_pair
    intro a b h
    have h1 := ((h.map (fun r => (⟨s, .reduce r⟩ : Action))).trans (List.sublist_append_right _ _)).trans hsubl
    exact (rawSpec hi ha hp).order (y := ⟨s, .reduce a⟩) (z := ⟨s, .reduce b⟩) rfl rfl rfl h1

theorem resolveL_short {l : List Action} (h : l.length ≤ 1) : (g.resolveL l).2 = 0 := by
  match l, h with
  | [], _ => rfl
  | [_], _ => rfl

theorem increasing_ext {l m : List Nat} (hl : l.Pairwise (· < ·)) (hm : m.Pairwise (· < ·)) (h : ∀ x, x ∈ l ↔ x ∈ m) : l = m := by
  have nd : ∀ {l : List Nat}, l.Pairwise (· < ·) → l.Nodup := fun h => h.imp (fun h => Nat.ne_of_lt h)
  have hp := (List.perm_ext_iff_of_nodup (nd hl) (nd hm)).2 h
  exact hp.eq_of_pairwise (fun a b _ _ h k => absurd (Nat.lt_trans h k) (Nat.lt_irrefl _)) hl hm

namespace Embed
variable (e : Embed g g')

theorem group (hi : GInv g) (hi' : GInv g') (ha : Auto g sts) (ha' : Auto g' sts')
    (hsub : ∀ q X k, g.Trans sts q X k → (g.sym X).subs.Nodup) (hone : ∀ q s k k', g.CanShift sts q s k → g.CanShift sts q s k' → k = k')
    (hsub' : ∀ q X k, g'.Trans sts' q X k → (g'.sym X).subs.Nodup) (hone' : ∀ q s k k', g'.CanShift sts' q s k → g'.CanShift sts' q s k' → k = k')
    {q q' : StateId} (hm : e.Mate sts sts' q q') {s s' : SymbolId} (hr : e.rel s s') (hs : q ≠ 0 ∨ s ≠ g.start.getD 0) :
    List.Forall₂ (e.RelA (e.Mate sts sts')) (onSym s (sortBy g.actionLt (g.rawActions q (sts.getD q default))))
      (onSym s' (sortBy g'.actionLt (g'.rawActions q' (sts'.getD q' default)))) := by
  obtain ⟨γ, γ', m1, m2, m3⟩ := id hm
  have hs' : q' ≠ 0 ∨ s' ≠ g'.start.getD 0 := by
    rcases hs with h | h
    · left
      rintro rfl
      exact h (e.mate_inj hi hi' ha ha' hm e.mate_zero)
    · right
      rintro rfl
      exact h (e.inj hr e.start)
  obtain ⟨sh, rd, a1, a2, a3, a4, a5⟩ := group_norm hi ha m2 (hsub q) (hone q) hs
  obtain ⟨sh', rd', b1, b2, b3, b4, b5⟩ := group_norm hi' ha' m3 (hsub' q') (hone' q') hs'
  rw [a1, b1]
  have hrd : rd = rd' := by
    apply increasing_ext a3 b3
    intro r
    rw [a5, b5]
    constructor
    · intro h
      obtain ⟨x, h1, h2⟩ := e.canReduce hi hi' ha ha' hm h
      rw [e.fn hr h1]; exact h2
    · intro h
      obtain ⟨x, h1, h2⟩ := e.symm.canReduce hi' hi ha' ha hm.symm h
      rw [e.inj hr h1]; exact h2
  subst hrd
  apply forall₂_append
  · have f : ∀ k, k ∈ sh → ∃ k', k' ∈ sh' ∧ e.Mate sts sts' k k' := by
      intro k hk
      obtain ⟨x, k', h1, h2, h3⟩ := e.canShift hi hi' ha ha' hm ((a4 k).1 hk)
      rw [← e.fn hr h1] at h3
      exact ⟨k', (b4 k').2 h3, h2⟩
    have b : ∀ k', k' ∈ sh' → ∃ k, k ∈ sh ∧ e.Mate sts sts' k k' := by
      intro k hk
      obtain ⟨x, k', h1, h2, h3⟩ := e.symm.canShift hi' hi ha' ha hm.symm ((b4 k).1 hk)
      rw [← e.inj hr h1] at h3
      exact ⟨k', (a4 k').2 h3, h2.symm⟩
    match sh, sh', a2, b2, f, b with
    | [], [], _, _, _, _ => exact .nil
    | [], k :: _, _, _, _, b =>
      obtain ⟨_, h, _⟩ := b k (by simp)
      cases h
    | k :: _, [], _, _, f, _ =>
      obtain ⟨_, h, _⟩ := f k (by simp)
      cases h
    | [k], [k'], _, _, f, _ =>
      obtain ⟨x, h, h2⟩ := f k (by simp)
      rw [List.mem_singleton] at h
      subst h
      exact .cons ⟨hr, .shift h2⟩ .nil
    | _ :: _ :: _, _, h, _, _, _ => simp at h
    | _, _ :: _ :: _, _, h, _, _ => simp at h
  · have hlt : ∀ r ∈ rd, r < g.rules.length := by
      intro r h
      exact ha.item_rule hi (Path.lt ha m2) (LA_item hi ha ((a5 r).1 h).2.2).2
    clear a1 b1 a3 b3 a5 b5
    induction rd with
    | nil => exact .nil
    | cons r rd ih => exact .cons ⟨hr, .reduce (hlt r (by simp))⟩ (ih (fun x hx => hlt x (by simp [hx])))

include e in
/-- The other automaton has no conflicts either. -/
theorem findActions (hi : GInv g) (hi' : GInv g') (ha : Auto g sts) (ha' : Auto g' sts') (hl : g.Levels) (hn : g.NoStart) (hn' : g'.NoStart)
    {acts : List (List Action)} (h : g.findActions sts = .ok (acts, 0)) : ∃ acts2, g'.findActions sts' = .ok (acts2, 0) := by
  have hspec := findActions_spec hi ha hl hn h
  obtain ⟨a1, a2, a3, a4⟩ := findActions_get h
  have a3 := a3.1 rfl
  have hsub : ∀ q X k, g.Trans sts q X k → (g.sym X).subs.Nodup := fun q X k => subs_nodup hi ha hl hn h
  have hone : ∀ q s k k', g.CanShift sts q s k → g.CanShift sts q s k' → k = k' := by
    intro q s k k' c1 c2
    obtain ⟨X, c0, _⟩ := id c1
    obtain ⟨sh, rd, e1, _, hout⟩ := hspec.out q c0.src s (.inr (c1.ne_start hi ha hn))
    have := hout.short
    have m1 := (e1 k).2 c1
    have m2 := (e1 k').2 c2
    cases sh with
    | nil => cases m1
    | cons x l =>
      cases l with
      | nil => rw [List.mem_singleton] at m1 m2; rw [m1, m2]
      | cons _ _ => simp at this
  have hsub' : ∀ q X k, g'.Trans sts' q X k → (g'.sym X).subs.Nodup := by
    intro q X k ht
    obtain ⟨p, hp⟩ := e.symm.mate_exists hi' hi ha' ha ht.src
    obtain ⟨Y, j, h1, _, h3⟩ := e.symm.mate_trans hi' hi ha' ha hp ht
    exact forall₂_nodup (R := e.rel) (fun h k => e.inj h k) (e.subs h1) (hsub _ _ _ h3)
  have hone' : ∀ q s k k', g'.CanShift sts' q s k → g'.CanShift sts' q s k' → k = k' := by
    intro q s k k' c1 c2
    obtain ⟨X, c0, _⟩ := id c1
    obtain ⟨p, hp⟩ := e.symm.mate_exists hi' hi ha' ha c0.src
    obtain ⟨s1, j1, r1, m1, d1⟩ := e.symm.canShift hi' hi ha' ha hp c1
    obtain ⟨s2, j2, r2, m2, d2⟩ := e.symm.canShift hi' hi ha' ha hp c2
    rw [e.inj r2 r1] at d2
    have := hone _ _ _ _ d1 d2
    subst this
    exact e.mate_fn hi hi' ha ha' m1.symm m2.symm
  have hzero : ∀ q', q' < sts'.length → (g'.resolveState (g'.rawActions q' (sts'.getD q' default))).2 = 0 := by
    intro q' hq'
    obtain ⟨q, hm⟩ := e.symm.mate_exists hi' hi ha' ha hq'
    have hm := hm.symm
    have hq : q < sts.length := by
      obtain ⟨_, _, _, h, _⟩ := hm
      exact Path.lt ha h
    show (g'.resolveL (sortBy g'.actionLt (g'.rawActions q' (sts'.getD q' default)))).2 = 0
    rw [(resolveL_onSym (g := g') _ (Nat.le_refl _) (sorted_raw hi' ha' hq')).2]
    intro s'
    by_cases hst : q' = 0 ∧ s' = g'.start.getD 0
    · obtain ⟨rfl, rfl⟩ := hst
      apply resolveL_short
      have hnd := ((perm_sortBy g'.actionLt (g'.rawActions 0 (sts'.getD 0 default))).nodup_iff).2 (nodup_raw hi' ha' hq' (hsub' 0))
      have hnd : (onSym (g'.start.getD 0) (sortBy g'.actionLt (g'.rawActions 0 (sts'.getD 0 default)))).Nodup := List.Nodup.filter _ hnd
      have hall : ∀ a ∈ onSym (g'.start.getD 0) (sortBy g'.actionLt (g'.rawActions 0 (sts'.getD 0 default))), a = ⟨g'.start.getD 0, .accept⟩ := by
        intro a hm
        obtain ⟨hm, he⟩ := mem_onSym.1 hm
        rw [mem_sortBy, mem_rawActions hi' ha' hq'] at hm
        rcases hm with ⟨k, h, _⟩ | ⟨r, h, _⟩ | ⟨_, h⟩
        · exact absurd he (Grammar.CanShift.ne_start hi' ha' hn' h)
        · have := h.2.1
          rw [he, hi'.start_kind.1] at this; cases this
        · exact h
      match onSym (g'.start.getD 0) (sortBy g'.actionLt (g'.rawActions 0 (sts'.getD 0 default))), hnd, hall with
      | [], _, _ => simp
      | [_], _, _ => simp
      | a :: b :: l, hnd, hall =>
        have h1 := hall a (by simp)
        have h2 := hall b (by simp)
        rw [h1, h2] at hnd
        simp at hnd
    · by_cases hr : ∃ s, e.rel s s'
      · obtain ⟨s, hr⟩ := hr
        have hs : q ≠ 0 ∨ s ≠ g.start.getD 0 := by
          by_contra hc
          rw [not_or, Decidable.not_not, Decidable.not_not] at hc
          obtain ⟨rfl, rfl⟩ := hc
          exact hst ⟨e.mate_fn hi hi' ha ha' hm e.mate_zero, e.fn hr e.start⟩
        have := e.resolveL (e.group hi hi' ha ha' hsub hone hsub' hone' hm hr hs)
        rw [← this.2]
        exact ((resolveL_onSym (g := g) _ (Nat.le_refl _) (sorted_raw hi ha hq)).2.1 (a3 q hq)) s
      · have : onSym s' (sortBy g'.actionLt (g'.rawActions q' (sts'.getD q' default))) = [] := by
          rw [List.eq_nil_iff_forall_not_mem]
          intro a hm'
          obtain ⟨hm2, rfl⟩ := mem_onSym.1 hm'
          clear hm'
          rw [mem_sortBy, mem_rawActions hi' ha' hq'] at hm2
          rcases hm2 with ⟨k, h, _⟩ | ⟨r, h, _⟩ | ⟨h0, h⟩
          · obtain ⟨x, _, h1, _⟩ := e.symm.canShift hi' hi ha' ha hm.symm h
            exact hr ⟨x, h1⟩
          · obtain ⟨x, h1, _⟩ := e.symm.canReduce hi' hi ha' ha hm.symm h
            exact hr ⟨x, h1⟩
          · exact hst ⟨h0, by rw [h]⟩
        rw [this]
        rfl
  have hmem : ∀ q, q < sts'.length → (g'.resolveState (g'.rawActions q (sts'.getD q default))).1 ∈
      (sts'.zipIdx.map (fun x => g'.resolveState (g'.rawActions x.2 x.1))).map (·.1) := by
    intro q hq
    refine List.mem_map.2 ⟨_, List.mem_map.2 ⟨(sts'.getD q default, q), ?_, rfl⟩, rfl⟩
    rw [List.mem_zipIdx_iff_getElem?]
    simp [List.getElem?_eq_getElem hq]
  have hok : ∃ acts2 n, g'.findActions sts' = .ok (acts2, n) := by
    unfold Grammar.findActions
    rw [if_neg, if_pos]
    · exact ⟨_, _, rfl⟩
    · rw [List.all_eq_true]
      intro r hr
      rw [List.mem_range, e.nrules] at hr
      obtain ⟨q, hq, a, hmem1, hd⟩ := a4 r hr
      have hs : q ≠ 0 ∨ a.la ≠ g.start.getD 0 := by
        by_contra hc
        rw [not_or, Decidable.not_not, Decidable.not_not] at hc
        obtain ⟨rfl, hc⟩ := hc
        have h1 : a ∈ onSym (g.start.getD 0) (acts.getD 0 []) := mem_onSym.2 ⟨hmem1, hc⟩
        rw [hspec.acc, List.mem_singleton] at h1
        rw [h1] at hd; cases hd
      obtain ⟨q', hm⟩ := e.mate_exists hi hi' ha ha' hq
      have hq' : q' < sts'.length := by
        obtain ⟨_, _, _, _, h⟩ := hm
        exact Path.lt ha' h
      obtain ⟨s', hr'⟩ : ∃ s', e.rel a.la s' := by
        rcases hspec.las q hq a hmem1 with ⟨k, h⟩ | ⟨r, h⟩ | ⟨h0, h⟩
        · obtain ⟨x, _, h1, _⟩ := e.canShift hi hi' ha ha' hm h
          exact ⟨x, h1⟩
        · obtain ⟨x, h1, _⟩ := e.canReduce hi hi' ha ha' hm h
          exact ⟨x, h1⟩
        · rcases hs with hs | hs
          · exact absurd h0 hs
          · exact absurd h hs
      have h1 : a ∈ (g.resolveL (onSym a.la (sortBy g.actionLt (g.rawActions q (sts.getD q default))))).1 := by
        rw [← (resolveL_onSym (g := g) _ (Nat.le_refl _) (sorted_raw hi ha hq)).1]
        rw [a2 q hq] at hmem1
        exact mem_onSym.2 ⟨hmem1, rfl⟩
      obtain ⟨b, hb, hab⟩ := forall₂_mem_left (e.resolveL (e.group hi hi' ha ha' hsub hone hsub' hone' hm hr' hs)).1 h1
      rw [← (resolveL_onSym (g := g') _ (Nat.le_refl _) (sorted_raw hi' ha' hq')).1] at hb
      rw [List.any_eq_true]
      refine ⟨_, hmem q' hq', ?_⟩
      rw [List.any_eq_true]
      refine ⟨b, (mem_onSym.1 hb).1, ?_⟩
      rw [decide_eq_true_eq]
      have h2 := hab.2
      rw [hd] at h2
      generalize b.detail = d at h2
      cases h2
      rfl
    · rw [Bool.not_eq_true, List.any_eq_false]
      rintro ⟨st, q⟩ hx
      rw [List.mem_zipIdx_iff_getElem?] at hx
      have hx : sts'[q]? = some st := hx
      have hq := (List.getElem?_eq_some_iff.1 hx).1
      have hst : st = sts'.getD q default := by rw [List.getD_eq_getElem?_getD, hx]; rfl
      simp only [hst]
      rw [selfShift_false hi' ha' hq (hsub' q) (hone' q)]
      exact Bool.false_ne_true
  obtain ⟨acts2, n, hok⟩ := hok
  obtain ⟨_, _, b3, _⟩ := findActions_get hok
  have := b3.2 hzero
  subst this
  exact ⟨acts2, hok⟩

end Embed

end Pomelo
