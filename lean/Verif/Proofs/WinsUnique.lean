import Verif.Proofs.Wins
/-! # Of two trees that win all conflicts, both are the same -/

namespace Pomelo

open Spec

variable {V : Type} {g : Grammar} {sts : List LState}

/-- A move of the automaton that wins against all others -/
inductive Grammar.WMv (g : Grammar) (sts : List LState) : Pile V × List (Tok V) → Pile V × List (Tok V) → Prop
  | shift {st : Pile V} {tok rest a Y k} : a < g.syms.length → (g.sym a).kind = .terminal → tok.major = (g.sym a).index → Reads g Y a → g.Trans sts st.top Y k →
      (∀ r, g.CanReduce sts st.top a r → g.TokVs a r .gt) → g.WMv sts (st, tok :: rest) ((k, .leaf tok) :: st, rest)
  | reduce {ks st : Pile V} {inp r b k} : g.CanReduce sts (Pile.top (ks ++ st)) b r → (g.sym b).index = nextTok inp → ks.length = (g.rhsSyms r).length →
      g.Trans sts st.top (g.rule r).lhs k → (∀ r', g.CanReduce sts (Pile.top (ks ++ st)) b r' → r' = r) →
      (∀ k', g.CanShift sts (Pile.top (ks ++ st)) b k' → g.TokVs b r .lt) → g.WMv sts (ks ++ st, inp) ((k, .node r (ks.map (·.2)).reverse) :: st, inp)

theorem Grammar.TokVs.same {a : SymbolId} {r : RuleId} {o o' : Ordering} (h : g.TokVs a r o) (h' : g.TokVs a r o') : o = o' := by
  obtain ⟨p, q, e1, e2, e3⟩ := h
  obtain ⟨p', q', f1, f2, f3⟩ := h'
  rw [e1] at f1; rw [e2] at f2; cases f1; cases f2
  exact e3.symm.trans f3

theorem ActsSpec.shift_unique (hi : GInv g) {acts : List (List Action)} (hsp : ActsSpec g sts acts) {q k k' : StateId} {a : SymbolId} (hk : (g.sym a).kind = .terminal)
    (h1 : g.CanShift sts q a k) (h2 : g.CanShift sts q a k') : k = k' := by
  obtain ⟨X, h3, h4⟩ := h1
  obtain ⟨sh, rd, e1, _, e3⟩ := hsp.out q h3.src a (.inr (by
    intro e; rw [e, hi.start_kind.1] at hk; cases hk))
  have hlen := e3.short
  have m1 := (e1 k).2 ⟨X, h3, h4⟩
  have m2 := (e1 k').2 h2
  match sh, hlen with
  | [x], _ => simp only [List.mem_singleton] at m1 m2; rw [m1, m2]

theorem Grammar.WMv.det (hi : GInv g) (ha : Auto g sts) {acts : List (List Action)} (hsp : ActsSpec g sts acts) {c c1 c2 : Pile V × List (Tok V)} (h1 : g.WMv sts c c1)
    (h2 : g.WMv sts c c2) : c1 = c2 := by
  cases h1 with
  | shift a1 a0 a2 a3 a4 a5 =>
    generalize he : (_, _) = c at h2
    cases h2 with
    | shift b1 b0 b2 b3 b4 _ =>
      simp only [Prod.mk.injEq, List.cons.injEq] at he
      obtain ⟨rfl, rfl, rfl⟩ := he
      have := hi.index_inj a1 b1 (a2.symm.trans b2)
      subst this
      rw [hsp.shift_unique hi a0 (a4.canShift a3) (b4.canShift b3)]
    | reduce b1 b2 b3 b4 b5 b6 =>
      simp only [Prod.mk.injEq] at he
      obtain ⟨rfl, rfl⟩ := he
      exfalso
      have := hi.index_inj a1 b1.1 (by rw [b2, ← a2]; rfl)
      subst this
      cases Grammar.TokVs.same (a5 _ b1) (b6 _ (a4.canShift a3))
  | reduce a1 a2 a3 a4 a5 a6 =>
    generalize he : (_, _) = c at h2
    cases h2 with
    | shift b1 b0 b2 b3 b4 b5 =>
      simp only [Prod.mk.injEq] at he
      obtain ⟨rfl, rfl⟩ := he
      exfalso
      have := hi.index_inj b1 a1.1 (by rw [a2, ← b2]; rfl)
      subst this
      cases Grammar.TokVs.same (b5 _ a1) (a6 _ (b4.canShift b3))
    | reduce b1 b2 b3 b4 b5 b6 =>
      simp only [Prod.mk.injEq] at he
      obtain ⟨e1, rfl⟩ := he
      rw [← e1] at b1
      have := hi.index_inj a1.1 b1.1 (by rw [a2, ← b2])
      subst this
      have := a5 _ b1
      subst this
      obtain ⟨rfl, rfl⟩ := List.append_inj e1 (a3.trans b3.symm)
      rw [ha.unique a4 b4]

theorem Grammar.Moves.run_wins (hi : GInv g) (ha : Auto g sts) {q q' : StateId} {ts : List (GTree V)} {n : Nat} {γ : List SymbolId} (h : g.Moves sts q ts n γ q') :
    ∀ {δ : List SymbolId}, g.Path sts δ q → g.Wins δ ts n γ → ∀ (st : Pile V) (rest : List (Tok V)), st.top = q → nextTok rest = n →
    ∃ ks : Pile V, Relation.ReflTransGen (g.WMv sts) (st, GTree.yields ts ++ rest) (ks ++ st, rest) ∧ (ks.map (·.2)).reverse = ts ∧ Pile.top (ks ++ st) = q' := by
  induction h with
  | nil => intro δ _ _ st rest h1 _; exact ⟨[], Relation.ReflTransGen.refl, rfl, h1⟩
  | @leaf q tok ts n γ a Y k q' h1 h2 h3 h4 h5 h6 _ ih =>
    intro δ hp hW st rest e1 e2
    cases hW with
    | leaf w1 w2 =>
      obtain ⟨ks, f1, f2, f3⟩ := ih (.snoc hp h6) w2 ((k, .leaf tok) :: st) rest rfl e2
      refine ⟨ks ++ [(k, .leaf tok)], ?_, by simp [f2], by simpa using f3⟩
      subst e1
      have hm : g.WMv sts (st, tok :: (GTree.yields ts ++ rest)) ((k, .leaf tok) :: st, GTree.yields ts ++ rest) :=
        .shift h1 h2 h4 h5 h6 (fun r hr => w1 a h1 h2 h4 r ((reducesOn_iff hi ha hp).2 hr))
      have := Relation.ReflTransGen.head hm f1
      simpa [GTree.yields, GTree.yield] using this
  | @node q r kids ts n γ q1 b k q' hk h2 h3 h4 _ ih1 ih2 =>
    intro δ hp hW st rest e1 e2
    generalize hγ : (g.rule r).lhs :: γ = γ' at hW
    cases hW with
    | node w1 w2 w3 =>
      simp only [List.cons.injEq] at hγ
      obtain ⟨_, rfl⟩ := hγ
      have hn : nextTok (GTree.yields ts ++ rest) = nextOf ts n := by rw [nextTok_append, e2]
      obtain ⟨ks, f1, f2, f3⟩ := ih1 hp w1 st (GTree.yields ts ++ rest) e1 hn
      obtain ⟨ks2, g1, g2, g3⟩ := ih2 (.snoc hp h4) w3 ((k, .node r kids) :: st) rest rfl e2
      refine ⟨ks2 ++ [(k, .node r kids)], ?_, by simp [g2], by simpa using g3⟩
      subst e1
      obtain ⟨w4, w5⟩ := w2 b h2.1 h2.2.1 h3
      have hp1 := hk.path hp
      have hm : g.WMv sts (ks ++ st, GTree.yields ts ++ rest) ((k, .node r kids) :: st, GTree.yields ts ++ rest) := by
        have := Grammar.WMv.reduce (g := g) (sts := sts) (ks := ks) (st := st) (inp := GTree.yields ts ++ rest) (r := r) (b := b) (k := k) (f3 ▸ h2) (by rw [h3, hn]) (by
          rw [← hk.length, ← f2]; simp) h4 (by
          intro r' hr'
          rw [f3] at hr'
          exact w4 r' ((reducesOn_iff hi ha hp1).2 hr')) (by
          intro k' hk'
          rw [f3] at hk'
          obtain ⟨Z, hZ⟩ := canShift_shiftsOn hi ha hp1 h2.2.1 hk'
          exact w5 Z hZ)
        rwa [f2] at this
      have := f1.trans (Relation.ReflTransGen.head hm g1)
      simpa [GTree.yields, GTree.yield] using this

/-- Two trees with the same tokens whose moves win are the same. -/
theorem wins_unique (hi : GInv g) (ha : Auto g sts) (hns : ∀ r, r < g.rules.length → ∀ x ∈ g.rhsSyms r, some x ≠ g.start) {acts : List (List Action)}
    (hsp : ActsSpec g sts acts) {r1 r2 : RuleId} {k1 k2 : List (GTree V)} {q1 q2 : StateId}
    (l1 : (g.rule r1).lhs = g.start.getD 0) (m1 : g.Moves sts 0 k1 0 (g.rhsSyms r1) q1) (c1 : g.CanReduce sts q1 0 r1) (w1 : g.Wins [] k1 0 (g.rhsSyms r1))
    (u1 : ∀ r', ReducesOn g (g.rhsSyms r1) 0 r' → r' = r1)
    (l2 : (g.rule r2).lhs = g.start.getD 0) (m2 : g.Moves sts 0 k2 0 (g.rhsSyms r2) q2) (c2 : g.CanReduce sts q2 0 r2) (w2 : g.Wins [] k2 0 (g.rhsSyms r2))
    (u2 : ∀ r', ReducesOn g (g.rhsSyms r2) 0 r' → r' = r2)
    (hy : GTree.yields k1 = GTree.yields k2) : GTree.node r1 k1 = GTree.node r2 k2 := by
  have hst : g.start = some (g.start.getD 0) := by obtain ⟨x, hx, _⟩ := hi.start; rw [hx]; rfl
  obtain ⟨ks1, f1, f2, f3⟩ := m1.run_wins hi ha .nil w1 [] [] rfl rfl
  obtain ⟨ks2, g1, g2, g3⟩ := m2.run_wins hi ha .nil w2 [] [] rfl rfl
  have p1 := m1.path (.nil (g := g) (sts := sts))
  have p2 := m2.path (.nil (g := g) (sts := sts))
  rw [List.nil_append] at p1 p2
  simp only [List.append_nil] at f1 f3 g1 g3
  have stop : ∀ {r : RuleId} {ks : Pile V} {q : StateId}, (g.rule r).lhs = g.start.getD 0 → ks.top = q → g.CanReduce sts q 0 r →
      (∀ r', g.CanReduce sts q 0 r' → r' = r) → ∀ x, ¬ g.WMv sts (ks, ([] : List (Tok V))) x := by
    intro r ks q e1 e2 e3 e4 x hx
    generalize he : (ks, ([] : List (Tok V))) = c at hx
    cases hx with
    | shift => simp at he
    | reduce c1 c2 c3 c4 =>
      simp only [Prod.mk.injEq] at he
      obtain ⟨rfl, rfl⟩ := he
      have := hi.index_inj e3.1 c1.1 (by rw [c2, hi.dollar.2.2]; rfl)
      subst this
      rw [e2] at c1
      have := e4 _ c1
      subst this
      obtain ⟨r2, hr2, hx2⟩ := c4.rhs hi ha
      exact hns r2 hr2 _ hx2 (by rw [e1]; exact hst.symm)
  rw [← hy] at g1
  have s1 : ∀ r', g.CanReduce sts q1 0 r' → r' = r1 := fun r' hr' => u1 r' ((reducesOn_iff hi ha p1).2 hr')
  have s2 : ∀ r', g.CanReduce sts q2 0 r' → r' = r2 := fun r' hr' => u2 r' ((reducesOn_iff hi ha p2).2 hr')
  have := det_end (R := g.WMv sts) (fun h1 h2 => Grammar.WMv.det hi ha hsp h1 h2) f1 g1 (stop l1 f3 c1 s1) (stop l2 g3 c2 s2)
  simp only [Prod.mk.injEq, and_true] at this
  subst this
  have hq : q1 = q2 := by rw [← f3, ← g3]
  subst hq
  rw [s2 r1 c1, ← f2, ← g2]

end Pomelo
