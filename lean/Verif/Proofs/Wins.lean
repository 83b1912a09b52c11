import Verif.Proofs.Sentences
/-! # Trees whose moves win the conflicts -/

namespace Pomelo

open Spec

variable {V X E : Type} {g : Grammar} {sts : List LState}

/-- A forest read after `δ`, with token `n` behind it: in every state on the way the move that builds the
forest wins against all others. -/
inductive Grammar.Wins (g : Grammar) : List SymbolId → List (GTree V) → Nat → List SymbolId → Prop
  | nil {δ n} : g.Wins δ [] n []
  | leaf {δ tok ts n γ Y} : (∀ a, a < g.syms.length → (g.sym a).kind = .terminal → tok.major = (g.sym a).index → ∀ r, ReducesOn g δ a r → g.TokVs a r .gt) →
      g.Wins (δ ++ [Y]) ts n γ → g.Wins δ (.leaf tok :: ts) n (Y :: γ)
  | node {δ r kids ts n γ} : g.Wins δ kids (nextOf ts n) (g.rhsSyms r) →
      (∀ b, b < g.syms.length → (g.sym b).kind = .terminal → (g.sym b).index = nextOf ts n →
        (∀ r', ReducesOn g (δ ++ g.rhsSyms r) b r' → r' = r) ∧ ∀ Z, ShiftsOn g (δ ++ g.rhsSyms r) b Z → g.TokVs b r .lt) →
      g.Wins (δ ++ [(g.rule r).lhs]) ts n γ → g.Wins δ (.node r kids :: ts) n ((g.rule r).lhs :: γ)

theorem canShift_shiftsOn (hi : GInv g) (ha : Auto g sts) {δ : List SymbolId} {q k : StateId} (hp : g.Path sts δ q) {a : SymbolId}
    (hk : (g.sym a).kind = .terminal) (h : g.CanShift sts q a k) : ∃ Y, ShiftsOn g δ a Y := by
  obtain ⟨Y, h1, h2⟩ := h
  have hY : (g.sym Y).kind ≠ .nonTerminal := by
    intro hY
    rcases (mem_shiftActions.1 h2).2 with ⟨h3, _⟩ | ⟨_, h3⟩
    · rw [hY] at h3; cases h3
    · simp only at h3
      rw [h3, hY] at hk; cases hk
  exact ⟨Y, (shiftsOn_iff hi ha hp).2 ⟨⟨k, h1⟩, (reads_iff hY).1 h2⟩⟩

section
variable {ord : List (SymbolId × SymbolId) → List (SymbolId × SymbolId)} {ds : List Decl} {t : Tables} {s : CSpec ord ds t} {dflt : SymbolId}

/-- The reduction that wins is found. -/
theorem Made.look_reduce_of (m : Made s dflt) (ho : OrdOk ord) (hA : apart ord ds = true) (hw : s.WildOk) {δ : List SymbolId} {q : StateId}
    (hp : s.g.Path s.sts δ q) {b : SymbolId} {r : RuleId} (h : s.g.CanReduce s.sts q b r) (h1 : ∀ r', ReducesOn s.g δ b r' → r' = r)
    (h2 : ∀ Z, ShiftsOn s.g δ b Z → s.g.TokVs b r .lt) : t.findShift (s.num q) (s.g.sym b).index = .ok (t.nState + r) := by
  refine m.look_reduce_wins ho hA hw h ?_ ?_
  · intro k hk
    obtain ⟨Z, hZ⟩ := canShift_shiftsOn m.inv m.auto hp h.2.1 hk
    exact h2 Z hZ
  · intro r' hr'
    exact h1 r' ((reducesOn_iff m.inv m.auto hp).2 hr')

/-- The parser finds the moves that win. -/
theorem Made.pdrive_wins (m : Made s dflt) (ho : OrdOk ord) (hA : apart ord ds = true) (hw : s.WildOk) {q q' : StateId} {ts : List (GTree V)} {n : Nat}
    {γ : List SymbolId} (h : s.g.Moves s.sts q ts n γ q') : ∀ {δ : List SymbolId}, s.g.Path s.sts δ q → s.g.Wins δ ts n γ → PDrive s q ts n γ q' := by
  induction h with
  | nil => intro δ _ _; exact .nil
  | @leaf q tok ts n γ a Y k q' h1 h2 h3 h4 h5 h6 _ ih =>
    intro δ hp hW
    cases hW with
    | leaf w1 w2 =>
      refine .leaf h1 h2 h3 h4 h5 h6 ?_ (ih (.snoc hp h6) w2)
      rw [h4]
      exact m.look_shift_wins ho hA h1 h2 h5 h6 (fun r hr => w1 a h1 h2 h4 r ((reducesOn_iff m.inv m.auto hp).2 hr))
  | @node q r kids ts n γ q1 b k q' hk h2 h3 h4 _ ih1 ih2 =>
    intro δ hp hW
    generalize hγ : (s.g.rule r).lhs :: γ = γ' at hW
    cases hW with
    | node w1 w2 w3 =>
      simp only [List.cons.injEq, true_and] at hγ
      subst hγ
      have hp1 := hk.path hp
      obtain ⟨w4, w5⟩ := w2 b h2.1 h2.2.1 h3
      refine .node (ih1 hp w1) h2 ?_ h4 (ih2 (.snoc hp h4) w3)
      rw [← h3]
      exact m.look_reduce_of ho hA hw hp1 h2 w4 w5

end

end Pomelo
