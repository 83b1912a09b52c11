import Verif.Spec.Shape
import Verif.Proofs.Convert
/-! # Subtrees of a driven tree -/

namespace Pomelo

open Spec

variable {V X E : Type}

theorem toTrees_map (n : Nat) : ∀ ts : List (GTree V), GTree.toTrees n ts = ts.map (GTree.toTree n)
  | [] => rfl
  | t :: ts => by simp only [GTree.toTrees, List.map_cons, toTrees_map n ts]

theorem toTree_tok {n : Nat} {T : GTree V} {k : Tok V} (h : T.toTree n = .tok k) : T = .leaf k := by
  cases T with
  | leaf => simp only [GTree.toTree, Tree.tok.injEq] at h; rw [h]
  | node r kids =>
    simp only [GTree.toTree] at h
    split at h
    · cases h
    · split at h <;> cases h

theorem toTree_rule {n r : Nat} {T : GTree V} {ks : List (Tree V)} (h : T.toTree n = .rule r ks) : r < n ∧ ∃ kids, T = .node r kids ∧ ks = GTree.toTrees n kids := by
  cases T with
  | leaf => simp [GTree.toTree] at h
  | node r' kids =>
    simp only [GTree.toTree] at h
    split at h
    · cases h; exact ⟨by assumption, _, rfl, rfl⟩
    · split at h <;> cases h

section
variable {ord : List (SymbolId × SymbolId) → List (SymbolId × SymbolId)} {ds : List Decl} {t : Tables} {s : CSpec ord ds t} {dflt : SymbolId}

/-- The parser was somewhere before every subtree. -/
theorem Drive.sub {N : Nat} {q q' : StateId} {ts : List (GTree V)} {n : Nat} {γ δ : List SymbolId} (h : Drive s q ts n γ q') (hp : s.g.Path s.sts δ q)
    {T : Tree V} (hT : T ∈ GTree.toTrees N ts) {r : Nat} {ks : List (Tree V)} (hs : Sub (.rule r ks) T) :
    ∃ δ0 q0 kids n0 q1 b, s.g.Path s.sts δ0 q0 ∧ ks = GTree.toTrees N kids ∧ r < N ∧ Drive s q0 kids n0 (s.g.rhsSyms r) q1 ∧
      s.g.CanReduce s.sts q1 b r ∧ t.findShift (s.num q1) n0 = .ok (t.nState + r) := by
  induction h generalizing δ T with
  | nil => cases hT
  | @leaf q tok ts n γ a b Y k q' _ _ _ _ _ _ h7 _ _ ih =>
    simp only [GTree.toTrees, List.mem_cons] at hT
    rcases hT with rfl | hT
    · simp only [GTree.toTree] at hs
      cases hs
    · exact ih (.snoc hp h7) hT hs
  | @node q r' kids ts n γ q1 b k q' h1 h2 h3 h4 _ ih1 ih2 =>
    simp only [GTree.toTrees, List.mem_cons] at hT
    rcases hT with rfl | hT
    · generalize hU : GTree.toTree N (.node r' kids) = U at hs
      cases hs with
      | refl =>
        obtain ⟨hr, kids', e1, e2⟩ := toTree_rule hU
        cases e1
        exact ⟨δ, q, kids, nextOf ts n, q1, b, hp, e2, hr, h1, h2, h3⟩
      | @present U hs =>
        simp only [GTree.toTree] at hU
        split at hU
        · cases hU
        · split at hU
          · cases hU
          · cases hU
            exact ih1 hp (by rename_i e; rw [e]; exact List.mem_cons_self) hs
      | rule hm hs =>
        obtain ⟨hr, kids', e1, e2⟩ := toTree_rule hU
        cases e1
        exact ih1 hp (by rw [← e2]; exact hm) hs
    · exact ih2 (.snoc hp h4) hT hs

end

end Pomelo
