import Verif.Spec.Height
import Verif.Proofs.Convert
import Verif.Proofs.Root
import Verif.Proofs.Given
/-! # The size of the stack and the height of trees -/

namespace Pomelo

open Spec

variable {V X E : Type}

theorem glob_stackLimit (ds : List Decl) : ∀ a : Glob, (ds.foldl Glob.step a).stackLimit =
    (ds.reverse.findSome? fun | .stackSize n _ => some n | _ => none).getD a.stackLimit := by
  induction ds with
  | nil => intro a; rfl
  | cons d ds ih =>
    intro a
    rw [List.foldl_cons, ih, List.reverse_cons, List.findSome?_append]
    cases h : ds.reverse.findSome? (fun | .stackSize n _ => some n | _ => none : Decl → Option Nat) with
    | some n => rfl
    | none => cases d <;> rfl

/-- The limit in the tables is the declared one. -/
theorem CSpec.stackLimit {ord} {ds : List Decl} {t : Tables} (s : CSpec ord ds t) : t.stackLimit = stackSizeOf ds := by
  have h1 : s.gen.gT.given = s.g0.given := (given_assignTypes s.gen.assign).trans (given_automaton s.auto)
  simp only [Grammar.given, Prod.mk.injEq] at h1
  rw [s.gen.stackLimit, h1.2.2.2.2.2.2.2]
  obtain ⟨gD, hp, hd, hrec, hne, h0⟩ := newFromDecls_spec s.decls
  obtain ⟨_, h2, _⟩ := preAll_parseDecls DInv.initial hp
  have h3 := congrArg Glob.stackLimit h2
  rw [glob_stackLimit] at h3
  rw [h0]
  exact h3

section
variable {ord : List (SymbolId × SymbolId) → List (SymbolId × SymbolId)} {ds : List Decl} {t : Tables} {s : CSpec ord ds t} {dflt : SymbolId}

theorem Made.conv_need (_ : Made s dflt) (ho : OrdOk ord) (b : Bridge ord ds s.g) {ts : List (GTree V)} {γ : List SymbolId} (h : s.g.Forest ts γ) :
    Tree.needs (GTree.toTrees (rulesOf ds).length ts) = GTree.needs ts := by
  induction h with
  | nil => rfl
  | leaf _ _ _ _ _ _ _ ih => simp only [GTree.toTrees, GTree.toTree, Tree.needs, Tree.need, GTree.needs, GTree.need, ih]
  | @node r kids ts γ h1 h2 _ ihk ih =>
    by_cases hr : r < (rulesOf ds).length
    · simp only [GTree.toTrees, GTree.toTree, hr, if_true, Tree.needs, Tree.need, GTree.needs, GTree.need, ihk, ih]
    · obtain ⟨o, o1, o2, o3⟩ := b.unwritten ho h1 (Nat.le_of_not_lt hr)
      have hl := h2.length
      unfold Grammar.rhsSyms at hl
      rcases o3 with ⟨o3, o4⟩ | ⟨o3, o4⟩
      · rw [o3] at hl
        have := List.eq_nil_of_length_eq_zero hl
        subst this
        simp only [GTree.toTrees, GTree.toTree, hr, if_false, Tree.needs, Tree.need, GTree.needs, GTree.need, ih]
        omega
      · rw [o3] at hl
        obtain ⟨k0, rfl⟩ : ∃ k0, kids = [k0] := by
          match kids, hl with
          | [k0], _ => exact ⟨k0, rfl⟩
        simp only [GTree.toTrees, Tree.needs, GTree.needs] at ihk
        have := k0.need_pos
        have h5 : ∀ T : Tree V, 0 < T.need := by
          intro T
          induction T using Tree.rec (motive_2 := fun _ => True) <;> simp only [Tree.need] <;> first | trivial | omega
        have := h5 (k0.toTree (rulesOf ds).length)
        simp only [GTree.toTrees, GTree.toTree, hr, if_false, Tree.needs, Tree.need, GTree.needs, GTree.need, ih]
        omega

/-- The rules of the start symbol are written ones. -/
theorem Made.root_written (m : Made s dflt) (ho : OrdOk ord) (b : Bridge ord ds s.g) {r : RuleId} (hr : r < s.g.rules.length) (hl : (s.g.rule r).lhs = s.g.start.getD 0) :
    r < (rulesOf ds).length := by
  by_contra hn
  obtain ⟨o, o1, o2, _⟩ := b.unwritten ho hr (Nat.le_of_not_lt hn)
  obtain ⟨_, _, _, k, _, hk⟩ := b.opt_name o1
  obtain ⟨st, i, g1, g2, g3, _⟩ := b.start_name m.inv
  rw [g1, Option.getD_some] at hl
  rw [← o2, hl, g3] at hk
  cases hk

/-- The stack is large enough for the root of an input iff it has room for its children. -/
theorem Made.enough (m : Made s dflt) (ho : OrdOk ord) (b : Bridge ord ds s.g) {r : RuleId} {kids : List (GTree V)} (hr : r < s.g.rules.length) (hl : (s.g.rule r).lhs = s.g.start.getD 0)
    {γ : List SymbolId} (h : s.g.Forest kids γ) : HasRoom ds (GTree.toTree (rulesOf ds).length (.node r kids)) ↔ Room t 1 (GTree.needs kids) := by
  have hr := m.root_written ho b hr hl
  unfold HasRoom Room
  rw [s.stackLimit]
  simp only [GTree.toTree, hr, if_true, Tree.height, m.conv_need ho b h]
  omega

end

end Pomelo
