import Verif.Proofs.EmbedGen
import Verif.Proofs.Goes
import Verif.Spec.Unread
/-! # Trees and actions in grammars with other numbers of symbols -/

namespace Pomelo
open Spec

variable {V X E : Type}

/-! ## Trees with other numbers for the tokens -/

mutual
/-- The tree with other numbers for the tokens -/
def GTree.swap (ρ : Nat → Nat) : GTree V → GTree V
  | .leaf tok => .leaf (tok.swap ρ)
  | .node r kids => .node r (GTree.swaps ρ kids)
def GTree.swaps (ρ : Nat → Nat) : List (GTree V) → List (GTree V)
  | [] => []
  | t :: ts => t.swap ρ :: GTree.swaps ρ ts
end

mutual
/-- The tree with other numbers for the tokens -/
def Tree.swap (ρ : Nat → Nat) : Tree V → Tree V
  | .tok k => .tok (k.swap ρ)
  | .absent => .absent
  | .present t => .present (Tree.swap ρ t)
  | .rule n kids => .rule n (Tree.swaps ρ kids)
def Tree.swaps (ρ : Nat → Nat) : List (Tree V) → List (Tree V)
  | [] => []
  | t :: ts => Tree.swap ρ t :: Tree.swaps ρ ts
end

mutual
theorem GTree.yield_swap (ρ : Nat → Nat) : ∀ T : GTree V, (T.swap ρ).yield = T.yield.map (Tok.swap ρ)
  | .leaf _ => rfl
  | .node _ kids => by simp only [GTree.swap, GTree.yield]; exact GTree.yields_swap ρ kids
theorem GTree.yields_swap (ρ : Nat → Nat) : ∀ ts : List (GTree V), GTree.yields (GTree.swaps ρ ts) = (GTree.yields ts).map (Tok.swap ρ)
  | [] => rfl
  | t :: ts => by simp only [GTree.swaps, GTree.yields, List.map_append, GTree.yield_swap ρ t, GTree.yields_swap ρ ts]
end

mutual
theorem GTree.toTree_swap (ρ : Nat → Nat) (n : Nat) : ∀ T : GTree V, (T.swap ρ).toTree n = Tree.swap ρ (T.toTree n)
  | .leaf _ => rfl
  | .node r kids => by
    have h := GTree.toTrees_swap ρ n kids
    simp only [GTree.swap, GTree.toTree]
    rw [h]
    split
    · rfl
    · generalize GTree.toTrees n kids = l
      cases l <;> rfl
theorem GTree.toTrees_swap (ρ : Nat → Nat) (n : Nat) : ∀ ts : List (GTree V), GTree.toTrees n (GTree.swaps ρ ts) = Tree.swaps ρ (GTree.toTrees n ts)
  | [] => rfl
  | t :: ts => by simp only [GTree.swaps, GTree.toTrees, Tree.swaps, GTree.toTree_swap ρ n t, GTree.toTrees_swap ρ n ts]
end

mutual
theorem Tree.yield_swap (ρ : Nat → Nat) : ∀ T : Tree V, (Tree.swap ρ T).yield = T.yield.map (Tok.swap ρ)
  | .tok _ => rfl
  | .absent => rfl
  | .present T => by simp only [Tree.swap, Tree.yield]; exact Tree.yield_swap ρ T
  | .rule _ kids => by simp only [Tree.swap, Tree.yield]; exact Tree.yields_swap ρ kids
theorem Tree.yields_swap (ρ : Nat → Nat) : ∀ ts : List (Tree V), Tree.yields (Tree.swaps ρ ts) = (Tree.yields ts).map (Tok.swap ρ)
  | [] => rfl
  | t :: ts => by simp only [Tree.swaps, Tree.yields, List.map_append, Tree.yield_swap ρ t, Tree.yields_swap ρ ts]
end

mutual
theorem Tree.need_swap (ρ : Nat → Nat) : ∀ T : Tree V, (Tree.swap ρ T).need = T.need
  | .tok _ => rfl
  | .absent => rfl
  | .present T => by simp only [Tree.swap, Tree.need]; exact Tree.need_swap ρ T
  | .rule _ kids => by simp only [Tree.swap, Tree.need, Tree.needs_swap ρ kids]
theorem Tree.needs_swap (ρ : Nat → Nat) : ∀ ts : List (Tree V), Tree.needs (Tree.swaps ρ ts) = Tree.needs ts
  | [] => rfl
  | t :: ts => by simp only [Tree.swaps, Tree.needs, Tree.need_swap ρ t, Tree.needs_swap ρ ts]
end

theorem Tree.height_swap (ρ : Nat → Nat) (T : Tree V) : (Tree.swap ρ T).height = T.height := by
  cases T <;> simp [Tree.swap, Tree.height, Tree.needs_swap]

theorem SaysSame.ruleValue {ds ds' : List Decl} (h : SaysSame ds ds') (sem : Sem V X E) : Spec.ruleValue ds sem = Spec.ruleValue ds' sem := by
  funext u vs x; unfold Spec.ruleValue; rw [h.typedSym, h.typedElem]

mutual
theorem Tree.value_swap {ds ds' : List Decl} (h : SaysSame ds ds') (sem : Sem V X E) (ρ : Nat → Nat) : ∀ (T : Tree V) (x : X),
    Tree.value ds' sem (Tree.swap ρ T) x = T.value ds sem x
  | .tok _, _ => rfl
  | .absent, _ => rfl
  | .present T, x => by simp only [Tree.swap, Tree.value, Tree.value_swap h sem ρ T x]
  | .rule n kids, x => by simp only [Tree.swap, Tree.value, Tree.values_swap h sem ρ kids x, h.rules, h.ruleValue sem]
theorem Tree.values_swap {ds ds' : List Decl} (h : SaysSame ds ds') (sem : Sem V X E) (ρ : Nat → Nat) : ∀ (ts : List (Tree V)) (x : X),
    Tree.values ds' sem (Tree.swaps ρ ts) x = Tree.values ds sem ts x
  | [], _ => rfl
  | t :: ts, x => by
    simp only [Tree.swaps, Tree.values, Tree.value_swap h sem ρ t x]
    rcases hv : Tree.value ds sem t x with ⟨e | v, x'⟩
    · rfl
    · simp only [Tree.values_swap h sem ρ ts x']
end

theorem nextOf_swap (ρ : Nat → Nat) (ts : List (GTree V)) (n : Nat) : nextOf (GTree.swaps ρ ts) (ρ n) = ρ (nextOf ts n) := by
  unfold nextOf
  rw [GTree.yields_swap]
  cases GTree.yields ts <;> rfl

/-! ## Actions -/

section
variable {g g' : Grammar} {sts sts' : List LState}

namespace Embed
variable (e : Embed g g')

/-- The actions of corresponding states on corresponding symbols correspond. -/
theorem acts (hi : GInv g) (hi' : GInv g') (ha : Auto g sts) (ha' : Auto g' sts') (hl : g.Levels) (hn : g.NoStart) (hl' : g'.Levels) (hn' : g'.NoStart)
    {acts acts' : List (List Action)} (h : g.findActions sts = .ok (acts, 0)) (h' : g'.findActions sts' = .ok (acts', 0)) {q q' : StateId}
    (hm : e.Mate sts sts' q q') {s s' : SymbolId} (hr : e.rel s s') (hs : s ≠ g.start.getD 0) :
    List.Forall₂ (e.RelA (e.Mate sts sts')) (onSym s (acts.getD q [])) (onSym s' (acts'.getD q' [])) := by
  have one : ∀ {g : Grammar} {sts : List LState} {acts : List (List Action)}, GInv g → Auto g sts → g.Levels → g.NoStart → g.findActions sts = .ok (acts, 0) →
      ∀ q s k k', g.CanShift sts q s k → g.CanShift sts q s k' → k = k' := by
    intro g sts acts hi ha hl hn h q s k k' c1 c2
    have hspec := findActions_spec hi ha hl hn h
    obtain ⟨X, c0, _⟩ := id c1
    obtain ⟨sh, rd, e1, _, hout⟩ := hspec.out q c0.src s (.inr (c1.ne_start hi ha hn))
    have := hout.short
    have m1 := (e1 k).2 c1
    have m2 := (e1 k').2 c2
    cases sh with
    | nil => cases m1
    | cons x l =>
      cases l with
      | nil => rw [List.mem_singleton] at m1 m2; rw [m1, m2]
      | cons _ _ => simp at this
  have hq : q < sts.length ∧ q' < sts'.length := by
    obtain ⟨_, _, _, h1, h2⟩ := hm
    exact ⟨Path.lt ha h1, Path.lt ha' h2⟩
  have := (e.resolveL (e.group hi hi' ha ha' (fun q X k => subs_nodup hi ha hl hn h) (one hi ha hl hn h) (fun q X k => subs_nodup hi' ha' hl' hn' h')
    (one hi' ha' hl' hn' h') hm hr (.inr hs))).1
  rw [← (resolveL_onSym (g := g) _ (Nat.le_refl _) (sorted_raw hi ha hq.1)).1, ← (resolveL_onSym (g := g') _ (Nat.le_refl _) (sorted_raw hi' ha' hq.2)).1] at this
  rw [(findActions_get h).2.1 q hq.1, (findActions_get h').2.1 q' hq.2]
  exact this

end Embed

theorem RelD.counts {M : StateId → StateId → Prop} {n : Nat} {d d' : Detail} (h : RelD M n d d') : Spec.counts d' = Spec.counts d := by
  cases h <;> rfl

theorem relA_head {e : Embed g g'} {M : StateId → StateId → Prop} {l l' : List Action} (h : List.Forall₂ (e.RelA M) l l') :
    List.Forall₂ (RelD M g.rules.length) ((l.map (·.detail)).filter Spec.counts) ((l'.map (·.detail)).filter Spec.counts) := by
  induction h with
  | nil => exact .nil
  | cons h1 _ ih =>
    simp only [List.map_cons, List.filter_cons, h1.2.counts]
    split
    · exact .cons h1.2 ih
    · exact ih

end

end Pomelo
