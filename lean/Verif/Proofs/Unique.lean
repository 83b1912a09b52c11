import Verif.Proofs.Convert
import Verif.Proofs.Conflicts
import Verif.Spec.Sentence
/-! # The automaton follows every tree of a grammar without conflicts, and only one -/

namespace Pomelo

open Spec

variable {V : Type} {g : Grammar} {sts : List LState}

/-- A sequence of trees in which every token stands for itself -/
inductive Grammar.Plain (g : Grammar) : List (GTree V) → List SymbolId → Prop
  | nil : g.Plain [] []
  | leaf {tok a Y ts γ} : a < g.syms.length → (g.sym a).kind = .terminal → a ≠ 0 → tok.major = (g.sym a).index → Reads g Y a →
      g.Plain ts γ → g.Plain (.leaf tok :: ts) (Y :: γ)
  | node {r kids ts γ} : r < g.rules.length → g.Plain kids (g.rhsSyms r) → g.Plain ts γ → g.Plain (.node r kids :: ts) ((g.rule r).lhs :: γ)

/-- The token stands for itself in place of the symbol. -/
def Grammar.Covers (g : Grammar) (tok : Tok V) (Y : SymbolId) : Prop :=
  ∃ a, a < g.syms.length ∧ (g.sym a).kind = .terminal ∧ a ≠ 0 ∧ tok.major = (g.sym a).index ∧ Reads g Y a

theorem Grammar.Plain.derives {ts : List (GTree V)} {γ : List SymbolId} (h : g.Plain ts γ) :
    ∃ ys, Derives g γ ys ∧ List.Forall₂ g.Covers (GTree.yields ts) ys := by
  induction h with
  | nil => exact ⟨[], Derives.refl _, .nil⟩
  | @leaf tok a Y ts γ h1 h2 h3 h4 h5 _ ih =>
    obtain ⟨ys, e1, e2⟩ := ih
    exact ⟨Y :: ys, e1.append_left [Y], .cons ⟨a, h1, h2, h3, h4, h5⟩ e2⟩
  | @node r kids ts γ h1 _ _ ih1 ih2 =>
    obtain ⟨ys, e1, e2⟩ := ih1
    obtain ⟨zs, f1, f2⟩ := ih2
    exact ⟨ys ++ zs, ((Derives.rule h1).trans e1).append f1, List.rel_append e2 f2⟩

/-- The automaton reads the forest `ts` in state `q` and comes to `q'`, if the token `n` follows. -/
inductive Grammar.Moves (g : Grammar) (sts : List LState) : StateId → List (GTree V) → Nat → List SymbolId → StateId → Prop
  | nil {q n} : g.Moves sts q [] n [] q
  | leaf {q tok ts n γ a Y k q'} : a < g.syms.length → (g.sym a).kind = .terminal → a ≠ 0 → tok.major = (g.sym a).index →
      Reads g Y a → g.Trans sts q Y k → g.Moves sts k ts n γ q' → g.Moves sts q (.leaf tok :: ts) n (Y :: γ) q'
  | node {q r kids ts n γ q1 b k q'} : g.Moves sts q kids (nextOf ts n) (g.rhsSyms r) q1 → g.CanReduce sts q1 b r →
      (g.sym b).index = nextOf ts n → g.Trans sts q (g.rule r).lhs k →
      g.Moves sts k ts n γ q' → g.Moves sts q (.node r kids :: ts) n ((g.rule r).lhs :: γ) q'

theorem Grammar.Moves.path {q q' : StateId} {ts : List (GTree V)} {n : Nat} {γ δ : List SymbolId} (h : g.Moves sts q ts n γ q') (hp : g.Path sts δ q) :
    g.Path sts (δ ++ γ) q' := by
  induction h generalizing δ with
  | nil => simpa using hp
  | leaf _ _ _ _ _ e _ ih => have := ih (.snoc hp e); simpa using this
  | node _ _ _ e _ _ ih => have := ih (.snoc hp e); simpa using this

theorem Grammar.Moves.length {q q' : StateId} {ts : List (GTree V)} {n : Nat} {γ : List SymbolId} (h : g.Moves sts q ts n γ q') : ts.length = γ.length := by
  induction h with
  | nil => rfl
  | leaf _ _ _ _ _ _ _ ih => simp [ih]
  | node _ _ _ _ _ _ ih => simp [ih]

/-- The number of a token or of the end of input -/
def Grammar.TokIdx (g : Grammar) (n : Nat) : Prop := ∃ b, b < g.syms.length ∧ (g.sym b).kind = .terminal ∧ (g.sym b).index = n

theorem Grammar.Plain.next {ts : List (GTree V)} {γ : List SymbolId} (h : g.Plain ts γ) {n : Nat} (hn : g.TokIdx n) : g.TokIdx (nextOf ts n) := by
  obtain ⟨ys, _, h2⟩ := h.derives
  unfold nextOf
  generalize GTree.yields ts = w at h2 ⊢
  cases h2 with
  | nil => exact hn
  | cons h3 _ =>
    obtain ⟨a, h1, h2, _, h4, _⟩ := h3
    exact ⟨a, h1, h2, by simp [h4]⟩

/-- What follows the symbol at the dot is a lookahead of its rules. -/
theorem Ahead.kid {δ : List SymbolId} {c : Item} {n : Nat} (h : Ahead g δ c n) {A : SymbolId} (hA : atDot g c = some A) {r : RuleId} (hr : RuleOf g A r)
    {ts : List (GTree V)} (hts : g.Plain ts (behind g c)) : Ahead g δ ⟨r, 0⟩ (nextOf ts n) := by
  obtain ⟨ys, h1, h2⟩ := hts.derives
  unfold nextOf
  generalize GTree.yields ts = w at h2 ⊢
  cases h2 with
  | nil => exact .pass h hA hr h1
  | cons h3 _ =>
    obtain ⟨a, _, _, _, h4, h5⟩ := h3
    exact .first h.viable hA hr ⟨a, _, _, by simpa using h4, h1, h5⟩

theorem Grammar.Plain.moves (hi : GInv g) (ha : Auto g sts) {ts : List (GTree V)} {γ : List SymbolId} (h : g.Plain ts γ) :
    ∀ {δ : List SymbolId} {q : StateId} {c : Item} {n : Nat}, g.Path sts δ q → Ahead g δ c n → (g.rhsSyms c.rule).drop c.dot = γ → g.TokIdx n →
    ∃ q', g.Moves sts q ts n γ q' := by
  induction h with
  | nil => intro δ q c n _ _ _ _; exact ⟨q, .nil⟩
  | @leaf tok a Y ts γ h1 h2 h3 h4 h5 _ ih =>
    intro δ q c n hp hA hd hn
    have hat : atDot g c = some Y := by
      unfold atDot
      have := congrArg List.head? hd
      rwa [List.head?_drop] at this
    obtain ⟨k, hk⟩ := ha.move (Path.lt ha hp) ((path_items hi ha hp c).2 hA.viable) hat
    obtain ⟨q', hq'⟩ := ih (.snoc hp hk) (.shift hA hat) (by
      show (g.rhsSyms c.rule).drop (c.dot + 1) = γ
      rw [← List.drop_drop, hd]; rfl) hn
    exact ⟨q', .leaf h1 h2 h3 h4 h5 hk hq'⟩
  | @node r kids ts γ h1 hkids hts ih1 ih2 =>
    intro δ q c n hp hA hd hn
    have hat : atDot g c = some (g.rule r).lhs := by
      unfold atDot
      have := congrArg List.head? hd
      rwa [List.head?_drop] at this
    have hbeh : behind g c = γ := by
      unfold behind
      rw [← List.drop_drop, hd]; rfl
    have hnx := hts.next hn
    obtain ⟨q1, hq1⟩ := ih1 (c := ⟨r, 0⟩) hp (Ahead.kid hA hat ⟨h1, rfl⟩ (hbeh ▸ hts)) rfl hnx
    obtain ⟨k, hk⟩ := ha.move (Path.lt ha hp) ((path_items hi ha hp c).2 hA.viable) hat
    obtain ⟨q', hq'⟩ := ih2 (.snoc hp hk) (.shift hA hat) (by
      show (g.rhsSyms c.rule).drop (c.dot + 1) = γ
      exact hbeh) hn
    obtain ⟨b, hb1, hb2, hb3⟩ := hnx
    refine ⟨q', .node hq1 (b := b) ⟨hb1, hb2, ?_⟩ hb3 hk hq'⟩
    rw [hb3]
    refine (la_iff hi ha).2 ⟨δ ++ g.rhsSyms r, hq1.path hp, ?_⟩
    have : ∀ d, d ≤ (g.rhsSyms r).length → Ahead g (δ ++ (g.rhsSyms r).take d) ⟨r, d⟩ (nextOf ts n) := by
      intro d
      induction d with
      | zero => intro _; simpa using Ahead.kid hA hat ⟨h1, rfl⟩ (hbeh ▸ hts)
      | succ d ihd =>
        intro hdl
        have e := ihd (Nat.le_of_succ_le hdl)
        have hX : atDot g (⟨r, d⟩ : Item) = some ((g.rhsSyms r)[d]'hdl) := List.getElem?_eq_getElem hdl
        have := Ahead.shift e hX
        rwa [List.append_assoc, List.take_append_getElem] at this
    have := this _ (Nat.le_refl _)
    rwa [List.take_length] at this

/-! ## Determinism -/

/-- Stack of the automaton, newest first: states and the trees read -/
abbrev Pile (V : Type) := List (StateId × GTree V)

def Pile.top (st : Pile V) : StateId := (st.head?.map (·.1)).getD 0

/-- Number of the next token -/
def nextTok (inp : List (Tok V)) : Nat := (inp.head?.map (·.major)).getD 0

/-- One move of the automaton on its stack and input -/
inductive Grammar.Mv (g : Grammar) (sts : List LState) : Pile V × List (Tok V) → Pile V × List (Tok V) → Prop
  | shift {st : Pile V} {tok rest a Y k} : a < g.syms.length → (g.sym a).kind = .terminal → tok.major = (g.sym a).index → Reads g Y a → g.Trans sts st.top Y k →
      g.Mv sts (st, tok :: rest) ((k, .leaf tok) :: st, rest)
  | reduce {ks st : Pile V} {inp r b k} : g.CanReduce sts (Pile.top (ks ++ st)) b r → (g.sym b).index = nextTok inp → ks.length = (g.rhsSyms r).length →
      g.Trans sts st.top (g.rule r).lhs k → g.Mv sts (ks ++ st, inp) ((k, .node r (ks.map (·.2)).reverse) :: st, inp)

/-- No conflict in the states -/
structure Grammar.Settled (g : Grammar) (sts : List LState) : Prop where
  sr : ∀ {q a k r}, g.CanShift sts q a k → ¬ g.CanReduce sts q a r
  rr : ∀ {q a r r'}, g.CanReduce sts q a r → g.CanReduce sts q a r' → r = r'
  ss : ∀ {q a k k'}, (g.sym a).kind = .terminal → g.CanShift sts q a k → g.CanShift sts q a k' → k = k'

theorem Grammar.Trans.canShift {q k : StateId} {Y a : SymbolId} (h : g.Trans sts q Y k) (hr : Reads g Y a) : g.CanShift sts q a k :=
  ⟨Y, h, (reads_iff (Reads.kind hr)).2 hr⟩

theorem Grammar.Mv.det (hi : GInv g) (ha : Auto g sts) (hs : g.Settled sts) {c c1 c2 : Pile V × List (Tok V)} (h1 : g.Mv sts c c1) (h2 : g.Mv sts c c2) : c1 = c2 := by
  cases h1 with
  | shift a1 a0 a2 a3 a4 =>
    generalize he : (_, _) = c at h2
    cases h2 with
    | shift b1 b0 b2 b3 b4 =>
      simp only [Prod.mk.injEq, List.cons.injEq] at he
      obtain ⟨rfl, rfl, rfl⟩ := he
      have := hi.index_inj a1 b1 (a2.symm.trans b2)
      subst this
      rw [hs.ss a0 (a4.canShift a3) (b4.canShift b3)]
    | reduce b1 b2 b3 b4 =>
      simp only [Prod.mk.injEq] at he
      obtain ⟨rfl, rfl⟩ := he
      exfalso
      have := hi.index_inj a1 b1.1 (by rw [b2, ← a2]; rfl)
      subst this
      exact hs.sr (a4.canShift a3) b1
  | reduce a1 a2 a3 a4 =>
    generalize he : (_, _) = c at h2
    cases h2 with
    | shift b1 b0 b2 b3 b4 =>
      simp only [Prod.mk.injEq] at he
      obtain ⟨rfl, rfl⟩ := he
      exfalso
      have := hi.index_inj b1 a1.1 (by rw [a2, ← b2]; rfl)
      subst this
      exact hs.sr (b4.canShift b3) a1
    | reduce b1 b2 b3 b4 =>
      simp only [Prod.mk.injEq] at he
      obtain ⟨e1, rfl⟩ := he
      rw [← e1] at b1
      have := hi.index_inj a1.1 b1.1 (by rw [a2, ← b2])
      subst this
      have := hs.rr a1 b1
      subst this
      obtain ⟨rfl, rfl⟩ := List.append_inj e1 (a3.trans b3.symm)
      rw [ha.unique a4 b4]

theorem nextTok_append (ts : List (GTree V)) (rest : List (Tok V)) : nextTok (GTree.yields ts ++ rest) = nextOf ts (nextTok rest) := by
  unfold nextTok nextOf
  cases GTree.yields ts <;> simp

theorem Grammar.Moves.run {q q' : StateId} {ts : List (GTree V)} {n : Nat} {γ : List SymbolId} (h : g.Moves sts q ts n γ q') :
    ∀ (st : Pile V) (rest : List (Tok V)), st.top = q → nextTok rest = n →
    ∃ ks : Pile V, Relation.ReflTransGen (g.Mv sts) (st, GTree.yields ts ++ rest) (ks ++ st, rest) ∧ (ks.map (·.2)).reverse = ts ∧ Pile.top (ks ++ st) = q' := by
  induction h with
  | nil => intro st rest h1 _; exact ⟨[], Relation.ReflTransGen.refl, rfl, h1⟩
  | @leaf q tok ts n γ a Y k q' h1 h2 h3 h4 h5 h6 _ ih =>
    intro st rest e1 e2
    obtain ⟨ks, f1, f2, f3⟩ := ih ((k, .leaf tok) :: st) rest rfl e2
    refine ⟨ks ++ [(k, .leaf tok)], ?_, by simp [f2], by simpa using f3⟩
    subst e1
    have hm : g.Mv sts (st, tok :: (GTree.yields ts ++ rest)) ((k, .leaf tok) :: st, GTree.yields ts ++ rest) := .shift h1 h2 h4 h5 h6
    have := Relation.ReflTransGen.head hm f1
    simpa [GTree.yields, GTree.yield] using this
  | @node q r kids ts n γ q1 b k q' hk h2 h3 h4 _ ih1 ih2 =>
    intro st rest e1 e2
    have hn : nextTok (GTree.yields ts ++ rest) = nextOf ts n := by rw [nextTok_append, e2]
    obtain ⟨ks, f1, f2, f3⟩ := ih1 st (GTree.yields ts ++ rest) e1 hn
    obtain ⟨ks2, g1, g2, g3⟩ := ih2 ((k, .node r kids) :: st) rest rfl e2
    refine ⟨ks2 ++ [(k, .node r kids)], ?_, by simp [g2], by simpa using g3⟩
    subst e1
    have hm : g.Mv sts (ks ++ st, GTree.yields ts ++ rest) ((k, .node r kids) :: st, GTree.yields ts ++ rest) := by
      have := Grammar.Mv.reduce (g := g) (sts := sts) (ks := ks) (st := st) (inp := GTree.yields ts ++ rest) (r := r) (b := b) (k := k) (f3 ▸ h2) (by rw [h3, hn]) (by
        rw [← hk.length, ← f2]; simp) h4
      rwa [f2] at this
    have := f1.trans (Relation.ReflTransGen.head hm g1)
    simpa [GTree.yields, GTree.yield] using this

theorem det_end {α : Type} {R : α → α → Prop} (hd : ∀ {a b c}, R a b → R a c → b = c) {a b c : α} (h1 : Relation.ReflTransGen R a b) (h2 : Relation.ReflTransGen R a c)
    (hb : ∀ x, ¬ R b x) (hc : ∀ x, ¬ R c x) : b = c := by
  induction h1 using Relation.ReflTransGen.head_induction_on with
  | refl =>
    rcases Relation.ReflTransGen.cases_head h2 with h | ⟨x, h, _⟩
    · exact h
    · exact absurd h (hb x)
  | head h3 _ ih =>
    rcases Relation.ReflTransGen.cases_head h2 with h | ⟨x, h, h4⟩
    · subst h; exact absurd h3 (hc _)
    · exact ih (hd h3 h ▸ h4)

/-- Two trees of the start symbol with the same tokens are the same. -/
theorem plain_unique (hi : GInv g) (ha : Auto g sts) (hns : ∀ r, r < g.rules.length → ∀ x ∈ g.rhsSyms r, some x ≠ g.start) (hs : g.Settled sts)
    {t1 t2 : GTree V} (h1 : g.Plain [t1] [g.start.getD 0]) (h2 : g.Plain [t2] [g.start.getD 0]) (hy : t1.yield = t2.yield) : t1 = t2 := by
  have h0 : (0 : SymbolId) < g.syms.length := Nat.lt_of_lt_of_le Nat.zero_lt_two hi.two
  have hst : g.start = some (g.start.getD 0) := by obtain ⟨x, hx, _⟩ := hi.start; rw [hx]; rfl
  have key : ∀ {t : GTree V}, g.Plain [t] [g.start.getD 0] → ∃ r kids, ∃ ks : Pile V, t = .node r kids ∧ (g.rule r).lhs = g.start.getD 0 ∧
      Relation.ReflTransGen (g.Mv sts) (([] : Pile V), t.yield) (ks, []) ∧ (ks.map (·.2)).reverse = kids ∧
      g.CanReduce sts ks.top 0 r ∧ kids.length = (g.rhsSyms r).length := by
    intro t h
    generalize hS : g.start.getD 0 = S at h
    generalize hγ : [S] = γ at h
    cases h with
    | leaf _ _ _ _ h5 _ =>
      simp only [List.cons.injEq] at hγ
      exfalso
      have := Reads.kind h5
      rw [← hγ.1, ← hS] at this
      exact this hi.start_kind.1
    | @node r kids _ _ hr hk _ =>
      simp only [List.cons.injEq] at hγ
      have hlhs : RuleOf g (g.start.getD 0) r := ⟨hr, by rw [hS, ← hγ.1]⟩
      obtain ⟨q', hm⟩ := hk.moves hi ha (δ := []) (q := 0) (c := ⟨r, 0⟩) (n := 0) .nil (.start hlhs) rfl ⟨0, h0, hi.dollar.2.1, hi.dollar.2.2⟩
      obtain ⟨ks, f1, f2, f3⟩ := hm.run [] [] rfl rfl
      refine ⟨r, kids, ks, rfl, hγ.1.symm, by simpa [GTree.yield] using f1, f2, ?_, hm.length⟩
      rw [List.append_nil] at f3
      rw [f3]
      refine ⟨h0, hi.dollar.2.1, ?_⟩
      rw [hi.dollar.2.2]
      refine (la_iff hi ha).2 ⟨g.rhsSyms r, hm.path .nil, ?_⟩
      have : ∀ d, d ≤ (g.rhsSyms r).length → Ahead g ((g.rhsSyms r).take d) ⟨r, d⟩ 0 := by
        intro d
        induction d with
        | zero => intro _; exact .start hlhs
        | succ d ihd =>
          intro hdl
          have e := ihd (Nat.le_of_succ_le hdl)
          have hX : atDot g (⟨r, d⟩ : Item) = some ((g.rhsSyms r)[d]'hdl) := List.getElem?_eq_getElem hdl
          have := Ahead.shift e hX
          rwa [List.take_append_getElem] at this
      have := this _ (Nat.le_refl _)
      rwa [List.take_length] at this
  obtain ⟨r, kids, ks, rfl, a1, a2, a3, a4, a5⟩ := key h1
  obtain ⟨r', kids', ks', rfl, b1, b2, b3, b4, b5⟩ := key h2
  have stop : ∀ {r : RuleId} {kids : List (GTree V)} {ks : Pile V}, (g.rule r).lhs = g.start.getD 0 → (ks.map (·.2)).reverse = kids → g.CanReduce sts ks.top 0 r →
      kids.length = (g.rhsSyms r).length → ∀ x, ¬ g.Mv sts (ks, ([] : List (Tok V))) x := by
    intro r kids ks e1 e2 e3 e4 x hx
    generalize he : (ks, ([] : List (Tok V))) = c at hx
    cases hx with
    | shift => simp at he
    | reduce c1 c2 c3 c4 =>
      simp only [Prod.mk.injEq] at he
      obtain ⟨rfl, rfl⟩ := he
      have := hi.index_inj e3.1 c1.1 (by rw [c2, hi.dollar.2.2]; rfl)
      subst this
      have := hs.rr e3 c1
      subst this
      obtain ⟨r2, hr2, hx2⟩ := c4.rhs hi ha
      exact hns r2 hr2 _ hx2 (by rw [e1]; exact hst.symm)
  rw [← hy] at b2
  have := det_end (R := g.Mv sts) (fun h1 h2 => Grammar.Mv.det hi ha hs h1 h2) a2 b2 (stop a1 a3 a4 a5) (stop b1 b3 b4 b5)
  simp only [Prod.mk.injEq, and_true] at this
  subst this
  rw [hs.rr a4 b4, ← a3, ← b3]

end Pomelo
