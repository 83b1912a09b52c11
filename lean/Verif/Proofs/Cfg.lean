import Verif.Spec.Cfg
/-! # Lemmas about derivations -/

namespace Pomelo.Spec

variable {g : Grammar}

theorem Rewrites.append_left {α β : List SymbolId} (h : Rewrites g α β) (γ : List SymbolId) : Rewrites g (γ ++ α) (γ ++ β) := by
  obtain ⟨u, v, r, hr, rfl, rfl⟩ := h
  exact ⟨γ ++ u, v, r, hr, by simp, by simp⟩

theorem Rewrites.append_right {α β : List SymbolId} (h : Rewrites g α β) (γ : List SymbolId) : Rewrites g (α ++ γ) (β ++ γ) := by
  obtain ⟨u, v, r, hr, rfl, rfl⟩ := h
  exact ⟨u, v ++ γ, r, hr, by simp, by simp⟩

theorem Derives.append_left {α β : List SymbolId} (h : Derives g α β) (γ : List SymbolId) : Derives g (γ ++ α) (γ ++ β) :=
  by
  induction h with
  | refl => exact Relation.ReflTransGen.refl
  | tail _ h2 ih => exact ih.tail (Rewrites.append_left h2 γ)

theorem Derives.append_right {α β : List SymbolId} (h : Derives g α β) (γ : List SymbolId) : Derives g (α ++ γ) (β ++ γ) :=
  by
  induction h with
  | refl => exact Relation.ReflTransGen.refl
  | tail _ h2 ih => exact ih.tail (Rewrites.append_right h2 γ)

theorem Derives.trans {α β γ : List SymbolId} (h1 : Derives g α β) (h2 : Derives g β γ) : Derives g α γ :=
  Relation.ReflTransGen.trans h1 h2

theorem Derives.append {α β γ δ : List SymbolId} (h1 : Derives g α β) (h2 : Derives g γ δ) : Derives g (α ++ γ) (β ++ δ) :=
  (h1.append_right γ).trans (h2.append_left β)

theorem Derives.rule {r : RuleId} (hr : r < g.rules.length) : Derives g [(g.rule r).lhs] (g.rhsSyms r) :=
  Relation.ReflTransGen.single ⟨[], [], r, hr, by simp, by simp⟩

theorem Derives.refl (α : List SymbolId) : Derives g α α := Relation.ReflTransGen.refl

/-- If every symbol derives the empty string so does the sequence. -/
theorem Derives.nil_of_all {α : List SymbolId} (h : ∀ x ∈ α, Derives g [x] []) : Derives g α [] := by
  induction α with
  | nil => exact .refl _
  | cons x α ih =>
    have := (h x (by simp)).append (ih (fun y hy => h y (by simp [hy])))
    simpa using this

end Pomelo.Spec
