import Verif.Proofs.Swap
import Verif.Props.Reading
/-!
# C38: the order of directives
-/

namespace Pomelo

open Spec

/-- C38 in full: an exchange of two adjacent declarations, unless both are precedence directives or both are rules, changes
neither whether the declarations are read without an error nor, but for the numbers of the symbols, the grammar. -/
def C38_statement : Prop :=
  ∀ (l r : List Decl) (d d' : Decl), ordered d d' = false →
    ((∃ g, newFromDecls (l ++ d :: d' :: r) = .ok g) ↔ ∃ g', newFromDecls (l ++ d' :: d :: r) = .ok g') ∧
    ∀ g g', newFromDecls (l ++ d :: d' :: r) = .ok g → newFromDecls (l ++ d' :: d :: r) = .ok g' → SameGrammar g g'

theorem SameDecls.refl (ds : List Decl) : SameDecls ds ds :=
  ⟨fun _ => rfl, fun _ => rfl, fun _ => rfl, fun _ => rfl, fun _ => rfl, rfl, fun _ => Iff.rfl, rfl⟩

theorem SameDecls.trans {a b c : List Decl} (h : SameDecls a b) (k : SameDecls b c) : SameDecls a c :=
  ⟨fun i => (h.type i).trans (k.type i), fun i => (h.prec i).trans (k.prec i), fun i => (h.fallback i).trans (k.fallback i),
   fun i => (h.multi i).trans (k.multi i), fun i => (h.subs i).trans (k.subs i), h.rules.trans k.rules,
   fun i => (h.names i).trans (k.names i), h.glob.trans k.glob⟩

theorem Spec.Reordered.perm {ds ds' : List Decl} (h : Reordered ds ds') : ds.Perm ds' := by
  induction h with
  | same => exact .refl _
  | swap _ _ ih => exact ih.trans (swap_perm _ _ _ _)

theorem noSelf_perm {ds ds' : List Decl} (h : ds.Perm ds') : noSelfFallback ds = noSelfFallback ds' := by
  rw [Bool.eq_iff_iff]
  unfold noSelfFallback
  rw [List.all_eq_true, List.all_eq_true]
  exact ⟨fun hh x hx => hh x (h.mem_iff.2 hx), fun hh x hx => hh x (h.mem_iff.1 hx)⟩

theorem orderMatters_symm {d d' : Decl} (h : orderMatters d d' = false) : orderMatters d' d = false := by
  cases d with
  | type a i ty =>
    cases d' with
    | type b j ty' =>
      simp only [orderMatters, Bool.and_eq_false_iff, beq_eq_false_iff_ne, Bool.or_eq_false_iff] at h ⊢
      exact h.imp (fun h e => h e.symm) (fun h => ⟨h.2, h.1⟩)
    | _ => rfl
  | stackSize n ty =>
    cases d' with
    | stackSize n' ty' =>
      simp only [orderMatters, Bool.or_eq_false_iff] at h ⊢
      exact ⟨h.2, h.1⟩
    | _ => rfl
  | tokenClass t ids =>
    cases d' with
    | tokenClass t' js =>
      simp only [orderMatters, beq_eq_false_iff_ne] at h ⊢
      exact fun e => h e.symm
    | _ => rfl
  | _ => cases d' <;> first | rfl | exact h

theorem Spec.Reordered.orderly {ds ds' : List Decl} (h : Reordered ds ds') (ho : Orderly ds) : Orderly ds' ∧ SameDecls ds ds' := by
  induction h with
  | same => exact ⟨ho, .refl _⟩
  | swap _ hm ih =>
    obtain ⟨h1, h2⟩ := orderly_swap hm ih.1
    exact ⟨h2, ih.2.trans (sameDecls_swap hm h1)⟩

theorem Spec.Reordered.orderly' {ds ds' : List Decl} (h : Reordered ds ds') (ho : Orderly ds') : Orderly ds := by
  induction h with
  | same => exact ho
  | swap _ hm ih => exact ih (orderly_swap (orderMatters_symm hm) ho).2

theorem rulesOf_nil {ds ds' : List Decl} (h : ds.Perm ds') : rulesOf ds = [] ↔ rulesOf ds' = [] := by
  have : (rulesOf ds).length = (rulesOf ds').length := (h.filterMap _).length_eq
  rw [← List.length_eq_zero_iff, ← List.length_eq_zero_iff, this]

/-- C38, but for tokens that are their own fallback (`orderMatters` also keeps two `%token_class`es of one name in order, and
two `%stack_size`s or `%type`s of one symbol of which one has no type): declarations in another order are read without an
error if and only if they were in the first, and the grammars differ in the numbers of the symbols only. -/
theorem C38_partial {ds ds' : List Decl} (h : Reordered ds ds') (hn : noSelfFallback ds = true) :
    ((∃ g, newFromDecls ds = .ok g) ↔ ∃ g', newFromDecls ds' = .ok g') ∧
    ∀ g g', newFromDecls ds = .ok g → newFromDecls ds' = .ok g' → SameGrammar g g' := by
  have hn' : noSelfFallback ds' = true := by rw [← noSelf_perm h.perm]; exact hn
  constructor
  · rw [C46_read, C46_read, admitted_orderly hn, admitted_orderly hn', ne_eq, ne_eq, rulesOf_nil h.perm]
    exact and_congr_left' ⟨fun ho => (h.orderly ho).1, h.orderly'⟩
  · intro g g' hg hg'
    have ho := (admitted_orderly hn).1 ((C46_read ds).1 ⟨g, hg⟩).1
    rw [newFromDecls_eq] at hg hg'
    split at hg
    · cases hg
    · rename_i g0 h0
      split at hg'
      · cases hg'
      · rename_i g0' h0'
        split at hg
        · cases hg
        · split at hg'
          · cases hg'
          · cases hg; cases hg'
            rw [symbolNew_dflt (DInv.initial.parseDecls h0).1, symbolNew_dflt (DInv.initial.parseDecls h0').1]
            exact sameGrammar h0 h0' (h.orderly ho).2

/-- C38 for one exchange, in the form of the full statement -/
theorem C38_swap_partial (l r : List Decl) (d d' : Decl) (hm : orderMatters d d' = false) (hn : noSelfFallback (l ++ d :: d' :: r) = true) :
    ((∃ g, newFromDecls (l ++ d :: d' :: r) = .ok g) ↔ ∃ g', newFromDecls (l ++ d' :: d :: r) = .ok g') ∧
    ∀ g g', newFromDecls (l ++ d :: d' :: r) = .ok g → newFromDecls (l ++ d' :: d :: r) = .ok g' → SameGrammar g g' :=
  C38_partial (.swap .same hm) hn

/-! ## Declarations in two orders -/

namespace Exchangex
open Tests (U L s r)

/-- `%fallback A B; s ::= K x?; %token_class K C D; %left D C; %type x ();` -/
def a : List Decl :=
  [.fallback (U 0) [U 1], r (L 0) [s (U 4), s (L 1) (opt := true)], .tokenClass (U 4) [U 2, U 3], .assoc .left [U 3, U 2], .type false (L 1) (some .unit)]

/-- Some exchanges later -/
def b : List Decl :=
  [r (L 0) [s (U 4), s (L 1) (opt := true)], .assoc .left [U 3, U 2], .type false (L 1) (some .unit), .fallback (U 0) [U 1], .tokenClass (U 4) [U 2, U 3]]

theorem ab : Reordered a b := by
  have h0 : Reordered a a := .same
  have h1 := Reordered.swap (l := []) h0 rfl
  have h2 := Reordered.swap (l := [_, _]) h1 rfl
  have h3 := Reordered.swap (l := [_]) h2 rfl
  have h4 := Reordered.swap (l := [_, _, _]) h3 rfl
  have h5 := Reordered.swap (l := [_, _]) h4 rfl
  exact h5

/-- Both are read; the numbers of the symbols differ. -/
example : ∃ g g', newFromDecls a = .ok g ∧ newFromDecls b = .ok g' ∧ g.syms ≠ g'.syms ∧ SameGrammar g g' := by
  obtain ⟨g, hg⟩ : ∃ g, newFromDecls a = .ok g := ⟨_, rfl⟩
  obtain ⟨g', hg'⟩ : ∃ g', newFromDecls b = .ok g' := ⟨_, rfl⟩
  refine ⟨g, g', hg, hg', ?_, (C38_partial ab rfl).2 g g' hg hg'⟩
  have : (newFromDecls a).toOption.map Grammar.syms ≠ (newFromDecls b).toOption.map Grammar.syms := by decide
  rw [hg, hg'] at this
  exact fun e => this (by simp [Except.toOption, e])

/-- Refused in both orders -/
example : ¬ (∃ g, newFromDecls [.fallback (U 0) [U 1], .fallback (U 1) [U 0], r (L 0) []] = .ok g) := by
  rintro ⟨g, hg⟩; cases hg

end Exchangex

open Tests (U L s r) in
/-- `%stack_size 5; %stack_size 6 T;` is read, in the other order it is an error. -/
theorem C38_false : ¬ C38_statement := by
  intro h
  have := (h [] [r (L 0) [s (U 1)]] (.stackSize 5 none) (.stackSize 6 (some .unit)) rfl).1.1 ⟨_, rfl⟩
  obtain ⟨g, hg⟩ := this
  cases hg

open Tests (U L s r) in
/-- The same with `%type #[attr] A; %type A T;`. -/
theorem C38_false_type : (∃ g, newFromDecls [.type true (U 1) none, .type false (U 1) (some .unit), r (L 0) [s (U 1)]] = .ok g) ∧
    newFromDecls [.type false (U 1) (some .unit), .type true (U 1) none, r (L 0) [s (U 1)]] = .error .alreadyDefined :=
  ⟨⟨_, rfl⟩, rfl⟩

open Tests (U L s r) in
/-- A token that is its own fallback: `%fallback A B; %fallback A A;` is read, in the other order the macro does not end. -/
theorem C38_false_self : (∃ g, newFromDecls [.fallback (U 0) [U 1], .fallback (U 0) [U 0], r (L 0) [s (U 1)]] = .ok g) ∧
    newFromDecls [.fallback (U 0) [U 0], .fallback (U 0) [U 1], r (L 0) [s (U 1)]] = .error .hang :=
  ⟨⟨_, rfl⟩, rfl⟩

open Tests (U L s r) in
/-- Two lists of members of one class: the order of the members, hence the precedence of the rules with the class, changes. -/
theorem C38_false_class : ∃ ds ds' : List Decl, ∃ l r d d', ds = l ++ d :: d' :: r ∧ ds' = l ++ d' :: d :: r ∧ ordered d d' = false ∧
    ∃ u ∈ rulesOf ds, u ∈ rulesOf ds' ∧ rulePrec ds u ≠ rulePrec ds' u :=
  ⟨_, _, [.assoc .left [U 0], .assoc .left [U 1]], [r (L 0) [s (U 2)]], .tokenClass (U 2) [U 0], .tokenClass (U 2) [U 1], rfl, rfl, rfl,
    ⟨L 0, [s (U 2)], none, none⟩, by decide, by decide, by decide⟩

end Pomelo
