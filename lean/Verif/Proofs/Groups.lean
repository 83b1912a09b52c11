import Verif.Proofs.Resolve
import Verif.Proofs.Auto
import Verif.Proofs.RulePrec
/-! # The actions of a state, look-ahead by look-ahead -/

namespace Pomelo

open Spec

variable {g : Grammar}

/-! ## Levels -/

theorem precFrom_level {i : Ident} : ∀ {ds : List Decl} {n : Nat} {p : Precedence}, precFrom i n ds = some p → n < p.level := by
  intro ds
  induction ds with
  | nil => intro n p h; cases h
  | cons d ds ih =>
    intro n p h
    cases d with
    | assoc a ids =>
      unfold precFrom at h
      split at h
      · cases h; simp
      · have := ih h; omega
    | _ => exact ih h

theorem precFrom_assoc {i j : Ident} : ∀ {ds : List Decl} {n : Nat} {p q : Precedence}, precFrom i n ds = some p → precFrom j n ds = some q →
    p.level = q.level → p.assoc = q.assoc := by
  intro ds
  induction ds with
  | nil => intro n p q h; cases h
  | cons d ds ih =>
    intro n p q h1 h2 he
    cases d with
    | assoc a ids =>
      unfold precFrom at h1 h2
      split at h1 <;> split at h2
      · cases h1; cases h2; rfl
      · cases h1
        have := precFrom_level h2
        simp only at he; omega
      · cases h2
        have := precFrom_level h1
        simp only at he; omega
      · exact ih h1 h2 he
    | _ => exact ih h1 h2 he

theorem Bridge.gP_prec {ord} {ds : List Decl} {g : Grammar} (b : Bridge ord ds g) {x : SymbolId} {p : Precedence}
    (h : (b.gP.sym x).precedence = some p) : ∃ i, precOf ds i = some p := by
  by_cases hx : x < b.gD.syms.length
  · have e : (b.gP.sym x).precedence = (b.gD.sym x).precedence := congrArg (·.2.2.2.2.1) (b.keepP x hx)
    rw [e] at h
    cases hn : (b.gD.sym x).name.isIdent with
    | false => rw [(b.plainAnon x hx hn).1] at h; cases h
    | true =>
      cases hm : (b.gD.sym x).name with
      | ident i => exact ⟨i, by rw [← (b.decl.sym b.dinv hx hm).1]; exact h⟩
      | _ => rw [hm] at hn; cases hn
  · by_cases hx2 : x < b.gP.syms.length
    · -- the default symbol
      have hlast : x = b.gD.syms.length := Nat.le_antisymm (Nat.le_of_lt_succ (by rw [b.lenP] at hx2; exact hx2)) (Nat.le_of_not_lt hx)
      exfalso
      have e : (b.gP.sym x).precedence = none := by
        rw [b.gP_eq, prepare_eq, proj_addOptionals Symbol.precedence (fun _ _ => rfl) (fun _ _ => rfl),
          proj_addExtraToken Symbol.precedence (fun _ _ => rfl), proj_indexed Symbol.precedence (fun _ _ => rfl), hlast]
        unfold Grammar.sym Grammar.pushSym
        simp
      rw [e] at h; cases h
    · exfalso
      have : b.gP.sym x = default := by
        unfold Grammar.sym
        rw [List.getD_eq_getElem?_getD, List.getElem?_eq_none (Nat.le_of_not_lt hx2)]; rfl
      rw [this] at h; cases h

theorem Bridge.rule_prec {ord} {ds : List Decl} {g : Grammar} (b : Bridge ord ds g) {r : RuleId} {p : Precedence}
    (h : (g.rule r).precedence = some p) : ∃ i, precOf ds i = some p := by
  by_cases hr : r < g.rules.length
  · have hlen := b.rules.length_eq
    have hP : r < b.gP.rules.length := by rw [hlen]; exact hr
    have h2 := List.Forall₂.get b.rules hP hr
    simp only [List.get_eq_getElem] at h2
    obtain ⟨c, hc1, hc2⟩ := h2
    have hgr : g.rule r = g.rules[r] := by unfold Grammar.rule; rw [getD_of_lt hr]
    rw [hgr, hc2] at h
    have h : c.precedence = some p := h
    rw [normalizeRule_precedence hc1] at h
    have hfresh : (b.gP.rules[r]).precedence = none := by
      have hm := List.getElem_mem hP
      generalize b.gP.rules[r] = x at hm
      rw [b.rulesP, List.mem_append] at hm
      rcases hm with hm | hm
      · obtain ⟨k, hk, rfl⟩ := List.getElem_of_mem hm
        have := (b.dinv.fresh k hk).1
        unfold Grammar.rule at this
        rw [getD_of_lt hk] at this
        exact this
      · obtain ⟨o, _, ho⟩ := List.mem_flatMap.1 hm
        unfold optRules at ho
        simp only [List.mem_cons, List.not_mem_nil, or_false] at ho
        rcases ho with rfl | rfl <;> rfl
    generalize b.gP.rules[r] = a at h hfresh
    unfold Grammar.rulePrec at h
    split at h
    · exact b.gP_prec h
    · split at h
      · simp only at h
        unfold Grammar.symPrec at h
        split at h
        · obtain ⟨l1, a, l2, _, h3, _⟩ := List.findSome?_eq_some_iff.1 h
          exact b.gP_prec h3
        · exact b.gP_prec h
      · rw [hfresh] at h; cases h
  · exfalso
    have : g.rule r = default := by
      unfold Grammar.rule
      rw [List.getD_eq_getElem?_getD, List.getElem?_eq_none (Nat.le_of_not_lt hr)]; rfl
    rw [this] at h; cases h

theorem Bridge.levels {ord} {ds : List Decl} {g : Grammar} (b : Bridge ord ds g) : g.Levels := by
  rintro p q ⟨r, hr⟩ ⟨r', hr'⟩ he
  obtain ⟨i, hi⟩ := b.rule_prec hr
  obtain ⟨j, hj⟩ := b.rule_prec hr'
  exact precFrom_assoc hi hj he

/-! ## Sorted lists of actions -/

/-- Order of the kinds of actions when sorted -/
def Detail.rank : Detail → Nat
  | .shift _ => 0
  | .accept => 1
  | .reduce _ => 2
  | _ => 3

/-- May come before, after sorting -/
def Grammar.Before (g : Grammar) (a b : Action) : Prop :=
  (g.sym a.la).index < (g.sym b.la).index ∨ ((g.sym a.la).index = (g.sym b.la).index ∧ a.detail.rank ≤ b.detail.rank)

theorem sorted_actions (l : List Action) : (sortBy g.actionLt l).Pairwise g.Before := by
  apply pairwise_sortBy
  · unfold Grammar.Before; intro a b c h1 h2; omega
  · intro a b h
    unfold Grammar.actionLt at h
    simp only [Bool.or_eq_true, decide_eq_true_eq, Bool.and_eq_true, beq_iff_eq] at h
    rcases h with h | ⟨h1, h2⟩
    · exact .inl h
    · refine .inr ⟨h1, ?_⟩
      revert h2
      cases a.detail <;> cases b.detail <;> simp [Detail.lt, Detail.rank]
  · intro a b h
    unfold Grammar.actionLt at h
    simp only [Bool.or_eq_false_iff, decide_eq_false_iff_not, Bool.and_eq_false_iff, beq_eq_false_iff_ne] at h
    obtain ⟨h1, h2⟩ := h
    rcases h2 with h2 | h2
    · exact .inl (by omega)
    · by_cases h3 : (g.sym b.la).index = (g.sym a.la).index
      · refine .inr ⟨h3, ?_⟩
        revert h2
        cases a.detail <;> cases b.detail <;> simp [Detail.lt, Detail.rank]
      · exact .inl (by omega)

/-- Equal look-aheads are together -/
def Contiguous (l : List Action) : Prop := ∀ a b c, ∀ l1 l2 l3 l4, l = l1 ++ a :: l2 ++ b :: l3 ++ c :: l4 → a.la = c.la → b.la = a.la

/-- The actions of a list for one symbol -/
def onSym (s : SymbolId) (l : List Action) : List Action := l.filter (fun a => a.la = s)

theorem mem_onSym {s : SymbolId} {l : List Action} {a : Action} : a ∈ onSym s l ↔ a ∈ l ∧ a.la = s := by simp [onSym]

/-- Sorted by index, on symbols with distinct indices -/
structure Grammar.Sorted (g : Grammar) (l : List Action) : Prop where
  le : l.Pairwise (fun a b => (g.sym a.la).index ≤ (g.sym b.la).index)
  inj : ∀ a ∈ l, ∀ b ∈ l, (g.sym a.la).index = (g.sym b.la).index → a.la = b.la

theorem Grammar.Sorted.tail {a : Action} {l : List Action} (h : g.Sorted (a :: l)) : g.Sorted l :=
  ⟨(List.pairwise_cons.1 h.le).2, fun x hx y hy => h.inj x (by simp [hx]) y (by simp [hy])⟩

theorem Grammar.Sorted.sublist {l l' : List Action} (h : g.Sorted l) (hs : l'.Sublist l) : g.Sorted l' :=
  ⟨h.le.sublist hs, fun x hx y hy => h.inj x (hs.subset hx) y (hs.subset hy)⟩

theorem resolveFrom_append : ∀ {ys rest : List Action} {x : Action}, (∀ y ∈ ys, y.la = x.la) → (∀ y ∈ rest, y.la ≠ x.la) →
    g.resolveFrom x (ys ++ rest) = ((g.resolveFrom x ys).1, (g.resolveFrom x ys).2.1 ++ rest, (g.resolveFrom x ys).2.2) := by
  intro ys
  induction ys with
  | nil =>
    intro rest x _ h
    cases rest with
    | nil => rfl
    | cons y rest =>
      have := h y (by simp)
      unfold Grammar.resolveFrom
      simp only [List.nil_append]
      rw [if_neg (fun e => this e.symm)]
  | cons y ys ih =>
    intro rest x h1 h2
    have hy := h1 y (by simp)
    rw [List.cons_append]
    conv => lhs; unfold Grammar.resolveFrom
    conv => rhs; unfold Grammar.resolveFrom
    simp only [if_pos hy.symm]
    have hl := (resolveConflict_la (g := g) x y).1
    rw [ih (by intro z hz; rw [hl]; exact h1 z (by simp [hz])) (by intro z hz; rw [hl]; exact h2 z hz)]
    rfl

theorem resolveL_append {s : SymbolId} : ∀ (n : Nat) {grp rest : List Action}, grp.length = n → (∀ y ∈ grp, y.la = s) →
    (∀ y ∈ rest, y.la ≠ s) → g.resolveL (grp ++ rest) = ((g.resolveL grp).1 ++ (g.resolveL rest).1, (g.resolveL grp).2 + (g.resolveL rest).2) := by
  intro n
  induction n with
  | zero =>
    intro grp rest h _ _
    rw [List.length_eq_zero_iff] at h; subst h
    show g.resolveL rest = ([] ++ (g.resolveL rest).1, 0 + (g.resolveL rest).2)
    simp
  | succ n ih =>
    intro grp rest h h1 h2
    cases grp with
    | nil => cases h
    | cons x xs =>
      have hx := h1 x (by simp)
      rw [List.cons_append, resolveL_cons, resolveL_cons]
      rw [resolveFrom_append (by intro y hy; rw [hx]; exact h1 y (by simp [hy])) (by rw [hx]; exact h2)]
      simp only
      have hla := (resolveFrom_la (g := g) xs x).2
      rw [ih (by rw [resolveFrom_len]; simpa using h) ?_ h2]
      · simp [Nat.add_assoc]
      · intro y hy
        have hm : y.la ∈ (g.resolveFrom x xs).2.1.map (·.la) := List.mem_map.2 ⟨y, hy, rfl⟩
        rw [hla] at hm
        obtain ⟨z, hz, he⟩ := List.mem_map.1 hm
        rw [← he]; exact h1 z (by simp [hz])

theorem onSym_eq_self {s : SymbolId} {l : List Action} (h : ∀ y ∈ l, y.la = s) : onSym s l = l := by
  unfold onSym
  rw [List.filter_eq_self]
  simpa using h

theorem onSym_eq_nil {s : SymbolId} {l : List Action} (h : ∀ y ∈ l, y.la ≠ s) : onSym s l = [] := by
  unfold onSym
  rw [List.filter_eq_nil_iff]
  simpa using h

theorem onSym_append (s : SymbolId) (a b : List Action) : onSym s (a ++ b) = onSym s a ++ onSym s b := by
  unfold onSym; rw [List.filter_append]

theorem mem_resolveL_la {l : List Action} {y : Action} (hy : y ∈ (g.resolveL l).1) : ∃ z ∈ l, z.la = y.la := by
  have hm : y.la ∈ (g.resolveL l).1.map (·.la) := List.mem_map.2 ⟨y, hy, rfl⟩
  rw [resolveL_la l.length l rfl] at hm
  exact List.mem_map.1 hm

/-- Resolution works on each look-ahead separately. -/
theorem resolveL_onSym : ∀ (n : Nat) {l : List Action}, l.length ≤ n → g.Sorted l →
    (∀ s, onSym s (g.resolveL l).1 = (g.resolveL (onSym s l)).1) ∧ ((g.resolveL l).2 = 0 ↔ ∀ s, (g.resolveL (onSym s l)).2 = 0) := by
  intro n
  induction n with
  | zero =>
    intro l h _
    have : l = [] := List.length_eq_zero_iff.1 (by omega)
    subst this
    exact ⟨fun s => rfl, by simp [onSym, Grammar.resolveL, Grammar.resolveAll]⟩
  | succ n ih =>
    intro l h hs
    cases l with
    | nil => exact ⟨fun s => rfl, by simp [onSym, Grammar.resolveL, Grammar.resolveAll]⟩
    | cons x xs =>
      -- the group of the first action
      have hsplit : ∃ ys rest, xs = ys ++ rest ∧ (∀ y ∈ ys, y.la = x.la) ∧ (∀ y ∈ rest, y.la ≠ x.la) := by
        refine ⟨xs.takeWhile (fun y => y.la = x.la), xs.dropWhile (fun y => y.la = x.la), List.takeWhile_append_dropWhile.symm, ?_, ?_⟩
        · intro y hy
          have := List.all_takeWhile (p := fun y : Action => decide (y.la = x.la)) (l := xs)
          rw [List.all_eq_true] at this
          simpa using this y hy
        · intro y hy he
          have hsub : (xs.dropWhile (fun y => y.la = x.la)).Sublist xs := List.dropWhile_sublist _
          cases hd : xs.dropWhile (fun y => decide (y.la = x.la)) with
          | nil => rw [hd] at hy; cases hy
          | cons z zs =>
            have hz : z.la ≠ x.la := by
              have := List.head?_dropWhile_not (fun y : Action => decide (y.la = x.la)) xs
              rw [hd] at this
              simpa using this
            have hzx : z ∈ xs := hsub.subset (by rw [hd]; simp)
            have hle : (g.sym x.la).index ≤ (g.sym z.la).index := (List.pairwise_cons.1 hs.le).1 z hzx
            have hyx : y ∈ xs := hsub.subset hy
            rw [hd] at hy
            rcases List.mem_cons.1 hy with rfl | hy
            · exact hz he
            · have h2 : (z :: zs).Pairwise (fun a b => (g.sym a.la).index ≤ (g.sym b.la).index) := by
                rw [← hd]; exact (List.pairwise_cons.1 hs.le).2.sublist hsub
              have h3 := (List.pairwise_cons.1 h2).1 y hy
              rw [he] at h3
              exact hz (hs.inj z (by simp [hzx]) x (by simp) (by omega))
      obtain ⟨ys, rest, rfl, h1, h2⟩ := hsplit
      have hgrp : ∀ y ∈ x :: ys, y.la = x.la := by
        intro y hy; rcases List.mem_cons.1 hy with rfl | hy
        · rfl
        · exact h1 y hy
      have happ := resolveL_append (g := g) _ (grp := x :: ys) (rest := rest) rfl hgrp h2
      rw [List.cons_append] at happ
      have hr := ih (l := rest) (by simp at h; omega) (hs.sublist (by
        rw [← List.cons_append]; exact List.sublist_append_right _ _))
      have hog : onSym x.la (x :: ys) = x :: ys := onSym_eq_self hgrp
      have hor : onSym x.la rest = [] := onSym_eq_nil h2
      have hlist : ∀ s, onSym s (x :: (ys ++ rest)) = if s = x.la then x :: ys else onSym s rest := by
        intro s
        rw [← List.cons_append, onSym_append]
        split
        · rename_i e; subst e; rw [hog, hor]; simp
        · rename_i e
          rw [onSym_eq_nil (l := x :: ys) (fun y hy => by rw [hgrp y hy]; exact fun e2 => e e2.symm)]; simp
      constructor
      · intro s
        rw [happ, hlist]
        simp only
        rw [onSym_append]
        split
        · rename_i e
          subst e
          rw [onSym_eq_self (l := (g.resolveL (x :: ys)).1) ?_, onSym_eq_nil (l := (g.resolveL rest).1) ?_]
          · simp
          · intro y hy
            obtain ⟨z, hz, e⟩ := mem_resolveL_la hy
            rw [← e]; exact h2 z hz
          · intro y hy
            obtain ⟨z, hz, e⟩ := mem_resolveL_la hy
            rw [← e]; exact hgrp z hz
        · rename_i e
          rw [onSym_eq_nil (l := (g.resolveL (x :: ys)).1) ?_, hr.1 s]
          · simp
          · intro y hy
            obtain ⟨z, hz, e2⟩ := mem_resolveL_la hy
            rw [← e2, hgrp z hz]; exact fun e3 => e e3.symm
      · rw [happ]
        simp only
        constructor
        · intro h3 s
          rw [hlist]
          split
          · omega
          · exact hr.2.1 (by omega) s
        · intro h3
          have a1 := h3 x.la
          rw [hlist, if_pos rfl] at a1
          have a2 : (g.resolveL rest).2 = 0 := by
            rw [hr.2]
            intro s
            have := h3 s
            rw [hlist] at this
            split at this
            · rename_i e; subst e; rw [hor]; rfl
            · exact this
          omega

/-! ## One group before resolution -/

theorem filter_three {α : Type} (rk : α → Nat) : ∀ {l : List α}, l.Pairwise (fun a b => rk a ≤ rk b) → (∀ a ∈ l, rk a ≤ 2) →
    l = l.filter (fun a => rk a = 0) ++ l.filter (fun a => rk a = 1) ++ l.filter (fun a => rk a = 2) := by
  intro l
  induction l with
  | nil => intro _ _; rfl
  | cons a l ih =>
    intro h hb
    rw [List.pairwise_cons] at h
    have ih' := ih h.2 (fun x hx => hb x (by simp [hx]))
    have ha := hb a (by simp)
    have hz : ∀ k, k < rk a → l.filter (fun x => rk x = k) = [] := by
      intro k hk
      rw [List.filter_eq_nil_iff]
      intro x hx
      have := h.1 x hx
      simp; omega
    simp only [List.filter_cons]
    have h3 : rk a = 0 ∨ rk a = 1 ∨ rk a = 2 := by omega
    rcases h3 with h3 | h3 | h3
    · rw [h3]; simp only [decide_true, if_true, List.cons_append]
      simp only [show ¬ (0 = 1) by omega, show ¬ (0 = 2) by omega, decide_false, Bool.false_eq_true, if_false]
      congr 1
    · rw [h3]
      simp only [decide_true, if_true, show ¬ (1 = 0) by omega, show ¬ (1 = 2) by omega, decide_false, Bool.false_eq_true, if_false]
      rw [hz 0 (by omega)] at ih' ⊢
      simp only [List.nil_append, List.cons_append] at ih' ⊢
      congr 1
    · rw [h3]
      simp only [decide_true, if_true, show ¬ (2 = 0) by omega, show ¬ (2 = 1) by omega, decide_false, Bool.false_eq_true, if_false]
      rw [hz 0 (by omega), hz 1 (by omega)] at ih' ⊢
      simp only [List.nil_append] at ih' ⊢
      congr 1

theorem map_of_all {α β : Type} {f : β → α} : ∀ {l : List α}, (∀ a ∈ l, ∃ b, a = f b) → ∃ m : List β, l = m.map f := by
  intro l
  induction l with
  | nil => intro _; exact ⟨[], rfl⟩
  | cons a l ih =>
    intro h
    obtain ⟨b, hb⟩ := h a (by simp)
    obtain ⟨m, hm⟩ := ih (fun x hx => h x (by simp [hx]))
    exact ⟨b :: m, by rw [List.map_cons, hb, ← hm]⟩

/-- The sorted actions for a symbol that is never accepted: shifts and then reduces -/
theorem group_shape {raw : List Action} {s : SymbolId} (hk : ∀ a ∈ raw, a.la = s → (∃ k, a.detail = .shift k) ∨ (∃ r, a.detail = .reduce r)) :
    ∃ (sh : List StateId) (rd : List RuleId), onSym s (sortBy g.actionLt raw) = sh.map (fun k => (⟨s, .shift k⟩ : Action)) ++ rd.map (fun r => ⟨s, .reduce r⟩) ∧
      (∀ k, k ∈ sh ↔ (⟨s, .shift k⟩ : Action) ∈ raw) ∧ (∀ r, r ∈ rd ↔ (⟨s, .reduce r⟩ : Action) ∈ raw) := by
  have hp : (onSym s (sortBy g.actionLt raw)).Pairwise (fun a b => a.detail.rank ≤ b.detail.rank) := by
    have h1 : (onSym s (sortBy g.actionLt raw)).Pairwise g.Before := (sorted_actions raw).sublist List.filter_sublist
    refine h1.imp_of_mem ?_
    intro a b ha hb hab
    have ha := (mem_onSym.1 ha).2
    have hb := (mem_onSym.1 hb).2
    unfold Grammar.Before at hab
    rw [ha, hb] at hab
    omega
  have hmem : ∀ a, a ∈ onSym s (sortBy g.actionLt raw) ↔ a ∈ raw ∧ a.la = s := by
    intro a; rw [mem_onSym, mem_sortBy]
  have h3 := filter_three (fun a : Action => a.detail.rank) hp (by
    intro a ha
    rw [hmem] at ha
    rcases hk a ha.1 ha.2 with ⟨k, e⟩ | ⟨r, e⟩ <;> rw [e] <;> simp [Detail.rank])
  generalize onSym s (sortBy g.actionLt raw) = l at h3 hmem
  have h1e : l.filter (fun a => a.detail.rank = 1) = [] := by
    rw [List.filter_eq_nil_iff]
    intro a ha
    rw [hmem] at ha
    rcases hk a ha.1 ha.2 with ⟨k, e⟩ | ⟨r, e⟩ <;> rw [e] <;> simp [Detail.rank]
  rw [h1e, List.append_nil] at h3
  obtain ⟨sh, hsh⟩ := map_of_all (f := fun k => (⟨s, .shift k⟩ : Action)) (l := l.filter (fun a => a.detail.rank = 0)) (by
    intro a ha
    rw [List.mem_filter, hmem] at ha
    obtain ⟨⟨ha1, ha2⟩, ha3⟩ := ha
    rcases hk a ha1 ha2 with ⟨k, e⟩ | ⟨r, e⟩
    · refine ⟨k, ?_⟩
      cases a; simp only at e ha2; subst ha2; rw [e]
    · rw [e] at ha3; simp [Detail.rank] at ha3)
  obtain ⟨rd, hrd⟩ := map_of_all (f := fun k => (⟨s, .reduce k⟩ : Action)) (l := l.filter (fun a => a.detail.rank = 2)) (by
    intro a ha
    rw [List.mem_filter, hmem] at ha
    obtain ⟨⟨ha1, ha2⟩, ha3⟩ := ha
    rcases hk a ha1 ha2 with ⟨k, e⟩ | ⟨r, e⟩
    · rw [e] at ha3; simp [Detail.rank] at ha3
    · refine ⟨r, ?_⟩
      cases a; simp only at e ha2; subst ha2; rw [e])
  refine ⟨sh, rd, by rw [← hsh, ← hrd]; exact h3, ?_, ?_⟩
  · intro k
    have : k ∈ sh ↔ (⟨s, .shift k⟩ : Action) ∈ l.filter (fun a => a.detail.rank = 0) := by
      rw [hsh, List.mem_map]
      constructor
      · intro h; exact ⟨k, h, rfl⟩
      · rintro ⟨k', h, e⟩; cases e; exact h
    rw [this, List.mem_filter, hmem]
    simp [Detail.rank]
  · intro k
    have : k ∈ rd ↔ (⟨s, .reduce k⟩ : Action) ∈ l.filter (fun a => a.detail.rank = 2) := by
      rw [hrd, List.mem_map]
      constructor
      · intro h; exact ⟨k, h, rfl⟩
      · rintro ⟨k', h, e⟩; cases e; exact h
    rw [this, List.mem_filter, hmem]
    simp [Detail.rank]

end Pomelo
