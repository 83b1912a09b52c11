import Verif.Proofs.Stops
/-! # Where there is no infinite sequence of reductions, no symbol derives itself, and there is no hidden left recursion -/

namespace Pomelo

open Spec

variable {g : Grammar}

/-- The first stack becomes the second one by a reduction. -/
def Grammar.RedTo (g : Grammar) (γ γ' : List SymbolId) : Prop := ∃ r, g.Red γ γ' r

/-- Symbols that vanish can be made from nothing. -/
theorem build {ν : List SymbolId} (h : g.Null ν) : ∀ {γ β : List SymbolId} {r : RuleId} {d : Nat}, Viable g γ ⟨r, d⟩ → rest g ⟨r, d⟩ = ν ++ β →
    Relation.ReflTransGen g.RedTo γ (γ ++ ν) ∧ (ν ≠ [] → Relation.TransGen g.RedTo γ (γ ++ ν)) ∧ Viable g (γ ++ ν) ⟨r, d + ν.length⟩ ∧ rest g ⟨r, d + ν.length⟩ = β := by
  induction h with
  | nil =>
    intro γ β r d hv hr
    simp only [List.append_nil, List.length_nil, Nat.add_zero]
    exact ⟨.refl, fun h => absurd rfl h, hv, by simpa using hr⟩
  | @cons r' ν' hr' _ _ ih1 ih2 =>
    intro γ β r d hv hr
    obtain ⟨hd, hb⟩ := atDot_of_rest hr
    have hv0 : Viable g γ ⟨r', 0⟩ := .close hv hd ⟨hr', rfl⟩
    obtain ⟨h1, _, h2, _⟩ := ih1 (β := []) hv0 (by rw [rest_zero, List.append_nil])
    rw [Nat.zero_add] at h2
    have hred : g.RedTo (γ ++ g.rhsSyms r') (γ ++ [(g.rule r').lhs]) := ⟨r', γ, _, rfl, h2, rfl, hv, hd⟩
    have h3 : Relation.TransGen g.RedTo γ (γ ++ [(g.rule r').lhs]) := .tail' h1 hred
    obtain ⟨h4, _, h5, h6⟩ := ih2 (β := β) (Viable.shift hv hd) hb
    rw [List.append_assoc, List.singleton_append] at h4 h5
    rw [Nat.add_assoc, Nat.add_comm 1] at h5 h6
    have h7 := h3.trans_left h4
    exact ⟨h7.to_reflTransGen, fun _ => h7, h5, h6⟩

theorem follow_left {X A : SymbolId} (h : Relation.ReflTransGen (fun B Y => ∃ δ, LeftOf g δ B Y) X A) : ∀ {γ : List SymbolId} {c : Item}, Viable g γ c → atDot g c = some X →
    ∃ γ' c', Relation.ReflTransGen g.RedTo γ γ' ∧ Viable g γ' c' ∧ atDot g c' = some A := by
  induction h using Relation.ReflTransGen.head_induction_on with
  | refl => intro γ c hv hd; exact ⟨γ, c, .refl, hv, hd⟩
  | head h1 _ ih =>
    intro γ c hv hd
    obtain ⟨δ, r, β, hr, hl, he, hδ⟩ := h1
    obtain ⟨h2, _, h3, h4⟩ := build (null_of_derives hδ) (Viable.close hv hd ⟨hr, hl⟩) (by rw [rest_zero]; exact he)
    obtain ⟨γ', c', h5, h6⟩ := ih h3 (atDot_of_rest h4).1
    exact ⟨γ', c', h2.trans h5, h6⟩

variable (hacc : ∀ γ, Acc (fun γ' γ => ∃ r, g.Red γ γ' r) γ) (hreach : ∀ r, r < g.rules.length → ∃ γ, Viable g γ ⟨r, 0⟩)
include hacc hreach

omit hreach in
theorem no_loop {P : List SymbolId → Prop} (h : ∀ γ, P γ → ∃ γ', Relation.TransGen g.RedTo γ γ' ∧ P γ') (γ : List SymbolId) : ¬ P γ := by
  have ha : Acc (fun γ' γ => Relation.TransGen g.RedTo γ γ') γ := by
    have := (hacc γ).transGen
    refine Subrelation.accessible ?_ this
    intro a b hab
    exact (Relation.transGen_swap (r := g.RedTo)).2 hab
  induction ha with
  | intro γ _ ih =>
    intro hp
    obtain ⟨γ', h1, h2⟩ := h γ hp
    exact ih γ' h1 h2

theorem noHidden_of_acc : NoHidden g := by
  intro α A X hα hl hr
  obtain ⟨r, β, hrl, hlhs, he, hδ⟩ := hl
  obtain ⟨γ, hv⟩ := hreach r hrl
  refine no_loop hacc (P := fun γ => Viable g γ ⟨r, 0⟩) (fun γ hv => ?_) γ hv
  obtain ⟨_, h1, h2, h3⟩ := build (null_of_derives hδ) hv (by rw [rest_zero]; exact he)
  obtain ⟨γ', c', h4, h5, h6⟩ := follow_left hr h2 (atDot_of_rest h3).1
  exact ⟨γ', (h1 hα).trans_left h4, .close h5 h6 ⟨hrl, hlhs⟩⟩

theorem noCycle_of_acc : NoCycle g := by
  intro A hA
  have hnh := noHidden_of_acc hacc hreach
  have left : ∀ {B Y}, Relation.ReflTransGen (UnitOf g) B Y → Relation.ReflTransGen (fun B Y => ∃ δ, LeftOf g δ B Y) B Y := by
    intro B Y h
    induction h with
    | refl => exact .refl
    | tail _ h ih =>
      obtain ⟨r, α, β, h1, h2, h3, h4, _⟩ := h
      exact ih.tail ⟨α, r, β, h1, h2, h3, h4⟩
  -- on a cycle nothing is in front
  have front : ∀ {B Y}, UnitOf g B Y → Relation.ReflTransGen (UnitOf g) Y B → ∃ r β, r < g.rules.length ∧ (g.rule r).lhs = B ∧ g.rhsSyms r = Y :: β ∧ g.Null β := by
    rintro B Y ⟨r, α, β, h1, h2, h3, h4, h5⟩ hc
    by_cases hα : α = []
    · subst hα; exact ⟨r, β, h1, h2, by simpa using h3, null_of_derives h5⟩
    · exact absurd (left hc) (hnh α B Y hα ⟨r, β, h1, h2, h3, h4⟩)
  have step : ∀ {γ : List SymbolId} {c : Item} {B Y : SymbolId}, Viable g γ c → atDot g c = some B → UnitOf g B Y → Relation.ReflTransGen (UnitOf g) Y B →
      (∃ c', Viable g γ c' ∧ atDot g c' = some Y) ∧ Relation.TransGen g.RedTo (γ ++ [Y]) (γ ++ [B]) := by
    intro γ c B Y hv hd hu hc
    obtain ⟨r, β, hr, rfl, he, hβ⟩ := front hu hc
    have hv0 : Viable g γ ⟨r, 0⟩ := .close hv hd ⟨hr, rfl⟩
    have hd0 : atDot g ⟨r, 0⟩ = some Y := (atDot_of_rest (g := g) (c := ⟨r, 0⟩) (by rw [rest_zero]; exact he)).1
    refine ⟨⟨_, hv0, hd0⟩, ?_⟩
    obtain ⟨h1, _, h2, _⟩ := build hβ (Viable.shift hv0 hd0) (β := []) (by rw [List.append_nil]; exact (atDot_of_rest (g := g) (c := ⟨r, 0⟩) (by rw [rest_zero]; exact he)).2)
    rw [List.append_assoc, List.singleton_append, ← he] at h1 h2
    have hlen : 0 + 1 + β.length = (g.rhsSyms r).length := by rw [he]; simp; omega
    simp only [hlen] at h2
    exact .tail' h1 ⟨r, γ, c, rfl, h2, rfl, hv, hd⟩
  -- a place where `A` may stand
  obtain ⟨γ, c, hv, hd⟩ : ∃ γ c, Viable g γ c ∧ atDot g c = some A := by
    obtain ⟨Y, h1, h2⟩ := Relation.TransGen.tail'_iff.1 hA
    obtain ⟨r, β, hr, _, he, _⟩ := front h2 h1
    obtain ⟨γ, hv⟩ := hreach r hr
    exact ⟨γ, _, hv, (atDot_of_rest (g := g) (c := ⟨r, 0⟩) (by rw [rest_zero]; exact he)).1⟩
  have key : ∀ {Z}, Relation.TransGen (UnitOf g) A Z → Relation.ReflTransGen (UnitOf g) Z A →
      (∃ c', Viable g γ c' ∧ atDot g c' = some Z) ∧ Relation.TransGen g.RedTo (γ ++ [Z]) (γ ++ [A]) := by
    intro Z h
    induction h with
    | single h1 => exact fun hc => step hv hd h1 hc
    | @tail Y Z h1 h2 ih =>
      intro hc
      obtain ⟨⟨c', h3, h4⟩, h5⟩ := ih (.head h2 hc)
      obtain ⟨h6, h7⟩ := step h3 h4 h2 (hc.trans h1.to_reflTransGen)
      exact ⟨h6, h7.trans h5⟩
  exact no_loop hacc (P := fun γ' => γ' = γ ++ [A]) (fun γ' h => ⟨γ', by subst h; exact (key hA .refl).2, h⟩) _ rfl

end Pomelo
