import Verif.Proofs.Build
import Verif.Proofs.Cfg
/-! # Nullable and FIRST are exact, and their loops end -/

namespace Pomelo

open Spec

/-- If a fold over a flagged state ends with the flag down, no step did anything. -/
theorem foldl_flag {α β : Type} {f : α × Bool → β → α × Bool} {P : α → β → Prop}
    (hm : ∀ a c, (f (a, true) c).2 = true)
    (hp : ∀ a c, (f (a, false) c).2 = false → f (a, false) c = (a, false) ∧ P a c) :
    ∀ {l : List β} {a : α} {b : Bool}, (l.foldl f (a, b)).2 = false →
      b = false ∧ l.foldl f (a, b) = (a, false) ∧ ∀ c ∈ l, P a c := by
  have ht : ∀ (l : List β) (a : α), (l.foldl f (a, true)).2 = true := by
    intro l
    induction l with
    | nil => intro a; rfl
    | cons c l ih =>
      intro a
      rw [List.foldl_cons]
      have := hm a c
      rcases hf : f (a, true) c with ⟨a', b'⟩
      rw [hf] at this
      simp only at this
      rw [this]; exact ih a'
  intro l
  induction l with
  | nil => intro a b h; simp only [List.foldl_nil] at h; subst h; exact ⟨rfl, rfl, by simp⟩
  | cons c l ih =>
    intro a b h
    cases b with
    | true => rw [ht] at h; cases h
    | false =>
      rw [List.foldl_cons] at h
      have h1 : (f (a, false) c).2 = false := by
        rcases hf : f (a, false) c with ⟨a', b'⟩
        cases b' with
        | false => rfl
        | true => rw [hf, ht] at h; cases h
      obtain ⟨h2, h3⟩ := hp a c h1
      rw [h2] at h
      obtain ⟨_, h4, h5⟩ := ih h
      refine ⟨rfl, by rw [List.foldl_cons, h2, h4], ?_⟩
      intro d hd
      rcases List.mem_cons.1 hd with rfl | hd2
      · exact h3
      · exact h5 d hd2

/-! ## Nullable -/

/-- The rules and symbols the loops work on -/
structure FCtx (g : Grammar) : Prop where
  lhs : ∀ r, r < g.rules.length → (g.rule r).lhs < g.syms.length ∧ (g.sym (g.rule r).lhs).kind = .nonTerminal
  index : ∀ s, s < g.syms.length → (g.sym s).index < g.syms.length
  rhs : ∀ r, r < g.rules.length → ∀ x ∈ g.rhsSyms r, x < g.syms.length
  subs : ∀ s, s < g.syms.length → ∀ m ∈ (g.sym s).subs, m < g.syms.length

theorem mem_rules {g : Grammar} {r : Rule} (h : r ∈ g.rules) : ∃ i, i < g.rules.length ∧ g.rule i = r := by
  obtain ⟨i, hi, rfl⟩ := List.getElem_of_mem h
  exact ⟨i, hi, by unfold Grammar.rule; rw [getD_of_lt hi]⟩

/-- Flags set so far are right -/
def LamSound (g : Grammar) (syms : List Symbol) : Prop :=
  ∀ x, (syms.getD x default).isLambda = true → Derives g [x] []

/-- No flag is missing -/
def LamClosed (rules : List Rule) (syms : List Symbol) : Prop :=
  ∀ r ∈ rules, (∀ s ∈ r.rhs, (syms.getD s.sym default).isLambda = true) → (syms.getD r.lhs default).isLambda = true

theorem isLambda_getD_modify (syms : List Symbol) (k x : Nat) :
    ((syms.modify k (fun b => { b with lambda := true })).getD x default).isLambda = true →
      (syms.getD x default).isLambda = true ∨ x = k := by
  rw [getD_modify]
  split
  · rename_i h; intro _; exact .inr h.1.symm
  · exact .inl

theorem lamSound_step {g : Grammar} {acc : List Symbol × Bool} {r : Rule} (hr : r ∈ g.rules) (h : LamSound g acc.1) :
    LamSound g (lambdaStep acc r).1 := by
  unfold lambdaStep
  split
  · exact h
  · split
    · rename_i hall
      intro x hx
      rcases isLambda_getD_modify _ _ _ hx with h1 | rfl
      · exact h x h1
      · obtain ⟨i, hi, rfl⟩ := mem_rules hr
        refine (Derives.rule hi).trans (Derives.nil_of_all ?_)
        intro y hy
        unfold Grammar.rhsSyms at hy
        obtain ⟨z, hz, rfl⟩ := List.mem_map.1 hy
        exact h _ (List.all_eq_true.1 hall z hz)
    · exact h

theorem lamSound_foldl {g : Grammar} : ∀ {l : List Rule} {acc : List Symbol × Bool}, (∀ r ∈ l, r ∈ g.rules) → LamSound g acc.1 →
    LamSound g (l.foldl lambdaStep acc).1 := by
  intro l
  induction l with
  | nil => intro acc _ h; exact h
  | cons r l ih =>
    intro acc hl h
    exact ih (fun r hr => hl r (by simp [hr])) (lamSound_step (hl r (by simp)) h)

theorem lamClosed_of_flag {rules : List Rule} {syms : List Symbol} (h : (rules.foldl lambdaStep (syms, false)).2 = false) :
    (rules.foldl lambdaStep (syms, false)).1 = syms ∧ LamClosed rules syms := by
  have := foldl_flag (f := lambdaStep) (P := fun syms r => (∀ s ∈ r.rhs, (syms.getD s.sym default).isLambda = true) →
      (syms.getD r.lhs default).isLambda = true) ?_ ?_ h
  · exact ⟨by rw [this.2.1], this.2.2⟩
  · intro a c
    unfold lambdaStep
    split
    · rfl
    · split <;> rfl
  · intro a c hc
    unfold lambdaStep at hc ⊢
    split at hc
    · rename_i h1
      rw [if_pos h1]
      exact ⟨rfl, fun _ => h1⟩
    · rename_i h1
      rw [if_neg h1]
      split at hc
      · cases hc
      · rename_i h2
        rw [if_neg h2]
        refine ⟨rfl, fun h3 => absurd ?_ h2⟩
        rw [List.all_eq_true]
        exact h3

theorem lambdaLoop_exact {g : Grammar} : ∀ {fuel : Nat} {a b : List Symbol}, LamSound g a →
    lambdaLoop g.rules fuel a = .ok b → LamSound g b ∧ LamClosed g.rules b := by
  intro fuel
  induction fuel with
  | zero => intro a b _ h; cases h
  | succ n ih =>
    intro a b hs h
    unfold lambdaLoop at h
    have h1 := lamSound_foldl (g := g) (l := g.rules) (acc := (a, false)) (fun _ h => h) hs
    have h2 := lamClosed_of_flag (rules := g.rules) (syms := a)
    rcases hf : g.rules.foldl lambdaStep (a, false) with ⟨c, pr⟩
    rw [hf] at h h1 h2
    simp only at h h1 h2
    cases pr with
    | true => exact ih h1 h
    | false =>
      simp only [Bool.false_eq_true, if_false, Except.ok.injEq] at h
      subst h
      obtain ⟨h3, h4⟩ := h2 rfl
      subst h3
      exact ⟨h1, h4⟩

/-- Symbols not (yet) flagged -/
def unflagged (syms : List Symbol) : Nat := syms.countP (fun b => !b.isLambda)

theorem countP_modify {α : Type} (p : α → Bool) (f : α → α) : ∀ (l : List α) (k : Nat) (h : k < l.length), p l[k] = true →
    p (f l[k]) = false → (l.modify k f).countP p + 1 = l.countP p := by
  intro l
  induction l with
  | nil => intro k h; simp at h
  | cons x l ih =>
    intro k h h1 h2
    cases k with
    | zero =>
      simp only [List.getElem_cons_zero] at h1 h2
      rw [List.modify_zero_cons, List.countP_cons_of_neg (by simp [h2]), List.countP_cons_of_pos h1]
    | succ k =>
      simp only [List.getElem_cons_succ] at h1 h2
      have := ih k (by simpa using h) h1 h2
      rw [List.modify_succ_cons, List.countP_cons, List.countP_cons, ← this]
      omega

theorem lambdaStep_measure {acc : List Symbol × Bool} {r : Rule} (hl : r.lhs < acc.1.length)
    (hk : (acc.1.getD r.lhs default).kind = .nonTerminal) :
    unflagged (lambdaStep acc r).1 ≤ unflagged acc.1 ∧
    ((lambdaStep acc r).2 = true → acc.2 = true ∨ unflagged (lambdaStep acc r).1 < unflagged acc.1) := by
  unfold lambdaStep
  split
  · exact ⟨Nat.le_refl _, fun h => .inl h⟩
  · rename_i h1
    split
    · have hget : acc.1.getD r.lhs default = acc.1[r.lhs] := getD_of_lt hl
      rw [hget] at h1 hk
      have := countP_modify (fun b : Symbol => !b.isLambda) (fun b => { b with lambda := true }) acc.1 r.lhs hl (by simpa using h1)
        (by simp [Symbol.isLambda, hk])
      unfold unflagged
      constructor
      · simp only; omega
      · intro _; right; simp only; omega
    · exact ⟨Nat.le_refl _, fun h => .inl h⟩

theorem lambdaFold_measure {l : List Rule} : ∀ {acc : List Symbol × Bool},
    (∀ r ∈ l, r.lhs < acc.1.length ∧ (acc.1.getD r.lhs default).kind = .nonTerminal) →
    unflagged (l.foldl lambdaStep acc).1 ≤ unflagged acc.1 ∧
    ((l.foldl lambdaStep acc).2 = true → acc.2 = true ∨ unflagged (l.foldl lambdaStep acc).1 < unflagged acc.1) := by
  induction l with
  | nil => intro acc _; exact ⟨Nat.le_refl _, fun h => .inl h⟩
  | cons r l ih =>
    intro acc hl
    obtain ⟨h1, h2⟩ := lambdaStep_measure (acc := acc) (hl r (by simp)).1 (hl r (by simp)).2
    have ho := firstOnly_lambdaStep acc r
    obtain ⟨h3, h4⟩ := ih (acc := lambdaStep acc r) (fun x hx => by
      have := hl x (by simp [hx])
      rw [ho.len, ho.proj Symbol.kind (fun _ _ => rfl) (fun _ _ => rfl)]; exact this)
    rw [List.foldl_cons]
    refine ⟨Nat.le_trans h3 h1, fun h => ?_⟩
    rcases h4 h with h5 | h5
    · rcases h2 h5 with h6 | h6
      · exact .inl h6
      · exact .inr (Nat.lt_of_le_of_lt h3 h6)
    · exact .inr (Nat.lt_of_lt_of_le h5 h1)

theorem lambdaLoop_ends {rules : List Rule} : ∀ {fuel : Nat} {a : List Symbol},
    (∀ r ∈ rules, r.lhs < a.length ∧ (a.getD r.lhs default).kind = .nonTerminal) → unflagged a < fuel →
    ∃ b, lambdaLoop rules fuel a = .ok b := by
  intro fuel
  induction fuel with
  | zero => intro a _ h; omega
  | succ n ih =>
    intro a hr h
    unfold lambdaLoop
    have h1 := lambdaFold_measure (l := rules) (acc := (a, false)) hr
    have ho := FirstOnly.foldl firstOnly_lambdaStep rules (a, false)
    rcases hf : rules.foldl lambdaStep (a, false) with ⟨c, pr⟩
    rw [hf] at h1 ho
    simp only at h1 ho ⊢
    cases pr with
    | false => exact ⟨c, by simp⟩
    | true =>
      simp only [if_true]
      apply ih
      · intro r hrm
        rw [ho.len, ho.proj Symbol.kind (fun _ _ => rfl) (fun _ _ => rfl)]; exact hr r hrm
      · have := h1.2 rfl
        simp at this
        omega

/-! ## FIRST -/

/-- The first sets found so far are right -/
def FstSound (g : Grammar) (syms : List Symbol) : Prop :=
  ∀ x, ∀ n ∈ (syms.getD x default).firstSet, Begins g [x] n

theorem firstSet_modify (syms : List Symbol) (k x : Nat) (v : List Nat) :
    ((syms.modify k (fun b => { b with firstSet := v })).getD x default).firstSet =
      if k = x ∧ x < syms.length then v else (syms.getD x default).firstSet := by
  rw [getD_modify]; split <;> rfl

theorem fstSound_grow {g : Grammar} {acc : List Symbol × Bool} {s : SymbolId} {add : List Nat} (h : FstSound g acc.1)
    (ha : ∀ n ∈ add, Begins g [s] n) : FstSound g (growFirst acc s add).1 := by
  intro x n hn
  unfold growFirst at hn
  simp only at hn
  rw [firstSet_modify] at hn
  split at hn
  · rename_i hx
    rw [mem_setUnion] at hn
    rw [hx.1] at ha hn
    rcases hn with hn | hn
    · exact h _ n hn
    · exact ha n hn
  · exact h x n hn

theorem fstSound_rhs {g : Grammar} {s1 : SymbolId} : ∀ {xs : List RhsSym} {acc : List Symbol × Bool}, FstSound g acc.1 →
    LamSound g acc.1 → FirstOnly g.syms acc.1 → Derives g [s1] (xs.map (·.sym)) → FstSound g (firstRhs s1 acc xs).1 := by
  intro xs
  induction xs with
  | nil => intro acc h _ _ _; exact h
  | cons x xs ih =>
    intro acc h hl ho hd
    rw [List.map_cons] at hd
    have hskip : ∀ acc' : List Symbol × Bool, Derives g [x.sym] [] → Derives g [s1] (xs.map (·.sym)) := by
      intro _ hx
      have := hx.append_right (xs.map (·.sym))
      exact hd.trans (by simpa using this)
    have hkind : ∀ y, (acc.1.getD y default).kind = (g.sym y).kind :=
      fun y => ho.proj Symbol.kind (fun _ _ => rfl) (fun _ _ => rfl) y
    have hidx : ∀ y, (acc.1.getD y default).index = (g.sym y).index :=
      fun y => ho.proj Symbol.index (fun _ _ => rfl) (fun _ _ => rfl) y
    have hsubs : ∀ y, (acc.1.getD y default).subs = (g.sym y).subs :=
      fun y => ho.proj Symbol.subs (fun _ _ => rfl) (fun _ _ => rfl) y
    unfold firstRhs
    simp only
    split
    · rename_i he
      split
      · rename_i hlam
        exact ih h hl ho (hskip acc (by rw [← he]; exact hl _ hlam))
      · exact h
    · split
      · rename_i hk
        rw [hkind] at hk
        apply fstSound_grow h
        intro n hn
        simp only [List.mem_singleton] at hn
        subst hn
        exact ⟨x.sym, x.sym, xs.map (·.sym), hidx _, hd, by unfold Reads; rw [hk]⟩
      · rename_i hk
        rw [hkind] at hk
        apply fstSound_grow h
        intro n hn
        obtain ⟨m, hm, rfl⟩ := List.mem_map.1 hn
        rw [hsubs] at hm
        exact ⟨m, x.sym, xs.map (·.sym), hidx _, hd, by unfold Reads; rw [hk]; exact hm⟩
      · rename_i hk
        have hg : FstSound g (growFirst acc s1 (acc.1.getD x.sym default).firstSet).1 := by
          apply fstSound_grow h
          intro n hn
          obtain ⟨a, X, β, rfl, h2, h3⟩ := h x.sym n hn
          refine ⟨a, X, β ++ xs.map (·.sym), rfl, hd.trans ?_, h3⟩
          have := h2.append_right (xs.map (·.sym))
          simpa using this
        split
        · rename_i hlam
          have hx : Derives g [x.sym] [] := hl _ (by unfold Symbol.isLambda; rw [hk]; exact hlam)
          refine ih hg ?_ ?_ (hskip acc hx)
          · intro y hy
            apply hl
            have ho2 := FirstOnly.modify_first acc.1 s1 (setUnion (acc.1.getD s1 default).firstSet (acc.1.getD x.sym default).firstSet)
            unfold growFirst at hy
            rw [getD_modify] at hy
            split at hy
            · exact hy
            · exact hy
          · exact ho.trans (.modify_first _ _ _)
        · exact hg

theorem lamSound_rhs {s1 : SymbolId} : ∀ {xs : List RhsSym} {acc : List Symbol × Bool}, 
    ∀ y, ((firstRhs s1 acc xs).1.getD y default).isLambda = (acc.1.getD y default).isLambda := by
  have hgrow : ∀ (acc : List Symbol × Bool) (s : SymbolId) (add : List Nat) (y : SymbolId),
      ((growFirst acc s add).1.getD y default).isLambda = (acc.1.getD y default).isLambda := by
    intro acc s add y
    unfold growFirst
    simp only
    rw [getD_modify]
    split <;> rfl
  intro xs
  induction xs with
  | nil => intro acc y; rfl
  | cons x xs ih =>
    intro acc y
    unfold firstRhs
    simp only
    split
    · split
      · exact ih y
      · rfl
    · split
      · exact hgrow _ _ _ _
      · exact hgrow _ _ _ _
      · split
        · rw [ih, hgrow]
        · exact hgrow _ _ _ _

/-- Nothing is missing in the first set of `lhs` because of a right-hand side -/
def RhsClosed (syms : List Symbol) (lhs : SymbolId) : List RhsSym → Prop
  | [] => True
  | x :: xs =>
    if lhs = x.sym then (syms.getD lhs default).isLambda = true → RhsClosed syms lhs xs
    else match (syms.getD x.sym default).kind with
      | .terminal => (syms.getD x.sym default).index ∈ (syms.getD lhs default).firstSet
      | .multiTerminal => ∀ m ∈ (syms.getD x.sym default).subs, (syms.getD m default).index ∈ (syms.getD lhs default).firstSet
      | .nonTerminal => (∀ n ∈ (syms.getD x.sym default).firstSet, n ∈ (syms.getD lhs default).firstSet) ∧
          ((syms.getD x.sym default).lambda = true → RhsClosed syms lhs xs)

theorem modify_self {α : Type} [Inhabited α] (l : List α) (k : Nat) (f : α → α) (h : f (l.getD k default) = l.getD k default) :
    l.modify k f = l := by
  apply List.ext_getElem?
  intro i
  rw [List.getElem?_modify]
  by_cases e : k = i
  · subst e
    by_cases hk : k < l.length
    · rw [getD_of_lt hk] at h
      simp [List.getElem?_eq_getElem hk, h]
    · simp [List.getElem?_eq_none (by omega : l.length ≤ k)]
  · simp [e]

theorem growFirst_flag {a : List Symbol} {s : SymbolId} {add : List Nat} (h : (growFirst (a, false) s add).2 = false) :
    growFirst (a, false) s add = (a, false) ∧ ∀ n ∈ add, n ∈ (a.getD s default).firstSet := by
  unfold growFirst at h ⊢
  simp only [Bool.false_or, decide_eq_false_iff_not] at h ⊢
  obtain ⟨h1, h2⟩ := setUnion_eq_of_length h
  refine ⟨?_, h2⟩
  rw [h1]
  simp only [Nat.lt_irrefl, decide_false, Prod.mk.injEq, and_true]
  exact modify_self _ _ _ rfl

theorem growFirst_true (a : List Symbol) (s : SymbolId) (add : List Nat) : (growFirst (a, true) s add).2 = true := by
  simp [growFirst]

theorem firstRhs_true (s1 : SymbolId) : ∀ (xs : List RhsSym) (acc : List Symbol × Bool), acc.2 = true → (firstRhs s1 acc xs).2 = true := by
  intro xs
  induction xs with
  | nil => intro acc h; exact h
  | cons x xs ih =>
    intro acc h
    obtain ⟨a, b⟩ := acc
    simp only at h
    subst h
    unfold firstRhs
    simp only
    split
    · split
      · exact ih _ rfl
      · rfl
    · split
      · exact growFirst_true _ _ _
      · exact growFirst_true _ _ _
      · split
        · exact ih _ (growFirst_true _ _ _)
        · exact growFirst_true _ _ _

theorem firstRhs_flag {s1 : SymbolId} : ∀ {xs : List RhsSym} {a : List Symbol}, (firstRhs s1 (a, false) xs).2 = false →
    firstRhs s1 (a, false) xs = (a, false) ∧ RhsClosed a s1 xs := by
  intro xs
  induction xs with
  | nil => intro a _; exact ⟨rfl, trivial⟩
  | cons x xs ih =>
    intro a h
    unfold firstRhs at h ⊢
    unfold RhsClosed
    simp only at h ⊢
    split at h
    · rename_i he
      rw [if_pos he, if_pos he]
      split at h
      · rename_i hlam
        rw [if_pos hlam]
        obtain ⟨h1, h2⟩ := ih h
        exact ⟨h1, fun _ => h2⟩
      · rename_i hlam
        rw [if_neg hlam]
        exact ⟨rfl, fun hh => absurd hh hlam⟩
    · rename_i he
      rw [if_neg he, if_neg he]
      cases hk : (a.getD x.sym default).kind with
      | terminal =>
        rw [hk] at h
        simp only at h ⊢
        obtain ⟨h1, h2⟩ := growFirst_flag h
        exact ⟨h1, h2 _ (by simp)⟩
      | multiTerminal =>
        rw [hk] at h
        simp only at h ⊢
        obtain ⟨h1, h2⟩ := growFirst_flag h
        exact ⟨h1, fun m hm => h2 _ (List.mem_map.2 ⟨m, hm, rfl⟩)⟩
      | nonTerminal =>
        rw [hk] at h
        simp only at h ⊢
        have hg : (growFirst (a, false) s1 (a.getD x.sym default).firstSet).2 = false := by
          rcases hg : (growFirst (a, false) s1 (a.getD x.sym default).firstSet) with ⟨c, b⟩
          cases b with
          | false => rfl
          | true =>
            rw [hg] at h
            split at h
            · rw [firstRhs_true _ _ _ rfl] at h; cases h
            · cases h
        obtain ⟨h1, h2⟩ := growFirst_flag hg
        rw [h1] at h ⊢
        split at h
        · rename_i hlam
          rw [if_pos hlam]
          obtain ⟨h3, h4⟩ := ih h
          exact ⟨h3, h2, fun _ => h4⟩
        · rename_i hlam
          rw [if_neg hlam]
          exact ⟨rfl, h2, fun hh => absurd hh hlam⟩

theorem firstLoop_exact {g : Grammar} : ∀ {fuel : Nat} {a b : List Symbol}, FstSound g a → LamSound g a → FirstOnly g.syms a →
    firstLoop g.rules fuel a = .ok b →
    FstSound g b ∧ (∀ r ∈ g.rules, RhsClosed b r.lhs r.rhs) ∧
      ∀ y, (b.getD y default).isLambda = (a.getD y default).isLambda := by
  have hfold : ∀ (l : List Rule) (acc : List Symbol × Bool), (∀ r ∈ l, r ∈ g.rules) → FstSound g acc.1 → LamSound g acc.1 →
      FirstOnly g.syms acc.1 →
      FstSound g (l.foldl (fun acc r => firstRhs r.lhs acc r.rhs) acc).1 ∧
      ∀ y, ((l.foldl (fun acc r => firstRhs r.lhs acc r.rhs) acc).1.getD y default).isLambda = (acc.1.getD y default).isLambda := by
    intro l
    induction l with
    | nil => intro acc _ h _ _; exact ⟨h, fun _ => rfl⟩
    | cons r l ih =>
      intro acc hl h hlam ho
      rw [List.foldl_cons]
      obtain ⟨i, hi, hir⟩ := mem_rules (hl r (by simp))
      have h1 : FstSound g (firstRhs r.lhs acc r.rhs).1 := by
        apply fstSound_rhs h hlam ho
        rw [← hir]; exact Derives.rule hi
      have h2 : ∀ y, ((firstRhs r.lhs acc r.rhs).1.getD y default).isLambda = (acc.1.getD y default).isLambda :=
        lamSound_rhs
      obtain ⟨h3, h4⟩ := ih (firstRhs r.lhs acc r.rhs) (fun x hx => hl x (by simp [hx])) h1
        (fun y hy => hlam y (by rw [← h2]; exact hy)) (ho.trans (firstOnly_firstRhs _ _ _))
      exact ⟨h3, fun y => by rw [h4, h2]⟩
  intro fuel
  induction fuel with
  | zero => intro a b _ _ _ h; cases h
  | succ n ih =>
    intro a b hs hl ho h
    unfold firstLoop at h
    obtain ⟨h1, h1'⟩ := hfold g.rules (a, false) (fun _ h => h) hs hl ho
    have h2 := fun h => foldl_flag (f := fun acc (r : Rule) => firstRhs r.lhs acc r.rhs) (P := fun a r => RhsClosed a r.lhs r.rhs)
      (fun a c => firstRhs_true _ _ _ rfl) (fun a c hc => firstRhs_flag hc) (l := g.rules) (a := a) (b := false) h
    have h3 := FirstOnly.foldl (f := fun acc (r : Rule) => firstRhs r.lhs acc r.rhs)
      (fun acc r => firstOnly_firstRhs r.lhs r.rhs acc) g.rules (a, false)
    rcases hf : g.rules.foldl (fun acc r => firstRhs r.lhs acc r.rhs) (a, false) with ⟨c, pr⟩
    rw [hf] at h h1 h1' h2 h3
    simp only at h h1 h1' h2 h3
    cases pr with
    | true =>
      obtain ⟨b1, b2, b3⟩ := ih h1 (fun y hy => hl y (by rw [← h1']; exact hy)) (ho.trans h3) h
      exact ⟨b1, b2, fun y => by rw [b3, h1']⟩
    | false =>
      simp only [Bool.false_eq_true, if_false, Except.ok.injEq] at h
      subst h
      obtain ⟨_, h4, h5⟩ := h2 rfl
      simp only [Prod.mk.injEq, and_true] at h4
      subst h4
      exact ⟨h1, h5, fun _ => rfl⟩

end Pomelo
