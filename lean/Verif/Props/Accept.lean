import Verif.Proofs.EmbedGen
import Verif.Props.Exchange
/-!
# C65: the order of directives does not decide whether the macro accepts

C38 is about reading the declarations.  Here is the whole macro: it gives numbers to the symbols in the order in which they are named, and
the first sets, the sorting of configurations and actions, the detection of conflicts and the compression all go by these numbers.
-/

namespace Pomelo

open Spec

variable {ord ord' : List (SymbolId × SymbolId) → List (SymbolId × SymbolId)}

/-- C65 in full: an exchange of two adjacent declarations, unless both are precedence directives or both are rules, does not change whether
the macro makes a parser. -/
def C65_statement : Prop :=
  ∀ (ord ord' : List (SymbolId × SymbolId) → List (SymbolId × SymbolId)), OrdOk ord → OrdOk ord' →
  ∀ (l r : List Decl) (d d' : Decl), ordered d d' = false →
    ((∃ t, compile ord (l ++ d :: d' :: r) = .ok t) ↔ ∃ t', compile ord' (l ++ d' :: d :: r) = .ok t')

/-- What the macro accepts, it reads. -/
theorem compile_reads {ds : List Decl} {t : Tables} (hc : compile ord ds = .ok t) : ∃ g, newFromDecls ds = .ok g := by
  obtain ⟨s⟩ := compile_cspec hc
  exact ⟨_, s.decls⟩

/-- C65, but for classes that are members of classes and tokens that are their own fallback (and for the pairs that `orderMatters` keeps in
order): the macro accepts the declarations in another order if and only if it accepts them in the first. -/
theorem C65_partial (ho : OrdOk ord) (ho' : OrdOk ord') {ds ds' : List Decl} (h : Reordered ds ds') (hs : noSelfFallback ds = true)
    (hf : flat ds = true) (hw : written ds = true) : (∃ t, compile ord ds = .ok t) ↔ ∃ t', compile ord' ds' = .ok t' := by
  have hs' : noSelfFallback ds' = true := by rw [← noSelf_perm h.perm]; exact hs
  have hread := (C38_partial h hs).1
  constructor
  · rintro ⟨t, hc⟩
    obtain ⟨g0, h0⟩ := compile_reads hc
    have hl := (h.orderly ((admitted_orderly hs).1 ((C46_read ds).1 ⟨g0, h0⟩).1)).2.like
    obtain ⟨g0', h0'⟩ := hread.1 ⟨g0, h0⟩
    exact like_compile ho ho' hl hf hw hs' h0' hc
  · rintro ⟨t', hc⟩
    obtain ⟨g0', h0'⟩ := compile_reads hc
    obtain ⟨g0, h0⟩ := hread.2 ⟨g0', h0'⟩
    have hl := (h.orderly ((admitted_orderly hs).1 ((C46_read ds).1 ⟨g0, h0⟩).1)).2.like
    have ha := alike hl h0 h0'
    exact like_compile ho' ho hl.symm (ha.flat'.1 hf) (ha.written.symm.trans hw) hs h0 hc

/-- C65 for one exchange, in the form of the full statement -/
theorem C65_swap_partial (ho : OrdOk ord) (ho' : OrdOk ord') (l r : List Decl) (d d' : Decl) (hm : orderMatters d d' = false)
    (hs : noSelfFallback (l ++ d :: d' :: r) = true) (hf : flat (l ++ d :: d' :: r) = true) (hw : written (l ++ d :: d' :: r) = true) :
    (∃ t, compile ord (l ++ d :: d' :: r) = .ok t) ↔ ∃ t', compile ord' (l ++ d' :: d :: r) = .ok t' :=
  C65_partial ho ho' (.swap .same hm) hs hf hw

/-! ## Declarations in two orders -/

namespace C65ex
open Tests (U L s r)
open Examples (compiles compiles_iff tablesOf)

/-- `%fallback A B; s ::= K x?; x ::= D A; %token_class K C D; %left D C;` -/
def a : List Decl :=
  [.fallback (U 0) [U 1], r (L 0) [s (U 4), s (L 1) (opt := true)], r (L 1) [s (U 3), s (U 0)], .tokenClass (U 4) [U 2, U 3], .assoc .left [U 3, U 2]]

/-- Some exchanges later -/
def b : List Decl :=
  [.assoc .left [U 3, U 2], r (L 0) [s (U 4), s (L 1) (opt := true)], .tokenClass (U 4) [U 2, U 3], r (L 1) [s (U 3), s (U 0)], .fallback (U 0) [U 1]]

theorem ab : Reordered a b := by
  have h0 : Reordered a a := .same
  have h1 := Reordered.swap (l := [_, _, _]) h0 rfl
  have h2 := Reordered.swap (l := [_, _]) h1 rfl
  have h3 := Reordered.swap (l := [_]) h2 rfl
  have h4 := Reordered.swap (l := []) h3 rfl
  have h5 := Reordered.swap (l := [_]) h4 rfl
  have h6 := Reordered.swap (l := [_, _]) h5 rfl
  have h7 := Reordered.swap (l := [_, _, _]) h6 rfl
  have h8 := Reordered.swap (l := [_, _]) h7 rfl
  exact h8

-- The hypotheses; the tables differ.
example : compiles a = true ∧ flat a = true ∧ written a = true ∧ noSelfFallback a = true ∧ (tablesOf a).tokenNames ≠ (tablesOf b).tokenNames := by
  decide +kernel
example : ∃ t', compile id b = .ok t' := (C65_partial OrdOk.id OrdOk.id ab rfl rfl rfl).1 ⟨_, compiles_iff (by decide +kernel)⟩

/-- A grammar with a conflict, refused in both orders: `%type A T; s ::= A; s ::= x; x ::= A;` -/
example : ¬ ∃ t', compile id [r (L 0) [s (U 0)], .type false (U 0) (some (.named 0)), r (L 0) [s (L 1)], r (L 1) [s (U 0)]] = .ok t' := by
  intro h
  obtain ⟨t, ht⟩ := (C65_swap_partial (ord := id) OrdOk.id OrdOk.id [] [r (L 0) [s (L 1)], r (L 1) [s (U 0)]] (.type false (U 0) (some (.named 0)))
    (r (L 0) [s (U 0)]) rfl rfl rfl rfl).2 h
  have : compiles [.type false (U 0) (some (.named 0)), r (L 0) [s (U 0)], r (L 0) [s (L 1)], r (L 1) [s (U 0)]] = false := by decide +kernel
  unfold compiles at this
  rw [List.nil_append] at ht
  rw [ht] at this
  cases this
end C65ex

open Tests (U L s r) in
/-- `%stack_size 5; %stack_size 6 T; s ::= A;` is accepted, in the other order it is an error. -/
theorem C65_false : ¬ C65_statement := by
  intro h
  have := (h id id OrdOk.id OrdOk.id [] [r (L 0) [s (U 1)]] (.stackSize 5 none) (.stackSize 6 (some .unit)) rfl).1
    ⟨_, Examples.compiles_iff (by decide +kernel)⟩
  obtain ⟨t, ht⟩ := this
  obtain ⟨g, hg⟩ := compile_reads ht
  cases hg

open Tests (U L s r) in
/-- The same with a class in a class: `%token_class J A; %token_class K J A; %type A T; s ::= K(x);` is accepted; with the first two
exchanged `J` has no type yet when `K` takes the type of its first member, and the macro stops. -/
theorem C65_false_class :
    (∃ t, compile id [.tokenClass (U 1) [U 0], .tokenClass (U 2) [U 1, U 0], .type false (U 0) (some (.named 0)), r (L 0) [s (U 2) true]] = .ok t) ∧
    (compile id [.tokenClass (U 2) [U 1, U 0], .tokenClass (U 1) [U 0], .type false (U 0) (some (.named 0)), r (L 0) [s (U 2) true]]).toOption = none := by
  refine ⟨⟨_, Examples.compiles_iff (by decide +kernel)⟩, ?_⟩
  have : ((compile id [.tokenClass (U 2) [U 1, U 0], .tokenClass (U 1) [U 0], .type false (U 0) (some (.named 0)), r (L 0) [s (U 2) true]]).toOption).isNone
      = true := by decide +kernel
  exact Option.isNone_iff_eq_none.1 this

end Pomelo
