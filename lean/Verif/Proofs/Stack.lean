import Verif.Proofs.Sound
import Verif.Proofs.RunStack
/-! # The stack of the parser is a path of the automaton -/

namespace Pomelo

open Spec

section
variable {g : Grammar}

theorem viable_prefix {γ : List SymbolId} {c : Item} (h : Viable g γ c) :
    ∃ γ0, γ = γ0 ++ (g.rhsSyms c.rule).take c.dot ∧ c.dot ≤ (g.rhsSyms c.rule).length ∧ Viable g γ0 ⟨c.rule, 0⟩ := by
  induction h with
  | start h => exact ⟨[], by simp, by simp, .start h⟩
  | @close γ c A r h1 h2 h3 _ => exact ⟨γ, by simp, by simp, .close h1 h2 h3⟩
  | @shift γ c X h1 h2 ih =>
    obtain ⟨γ0, e, hl, h0⟩ := ih
    unfold atDot at h2
    have hlt : c.dot < (g.rhsSyms c.rule).length := (List.getElem?_eq_some_iff.1 h2).1
    refine ⟨γ0, ?_, hlt, h0⟩
    rw [e, List.append_assoc]
    congr 1
    have : (g.rhsSyms c.rule).take (c.dot + 1) = (g.rhsSyms c.rule).take c.dot ++ [X] := by
      rw [List.take_add_one, h2]; rfl
    exact this.symm

theorem viable_zero {γ : List SymbolId} {r : RuleId} (h : Viable g γ ⟨r, 0⟩) :
    (γ = [] ∧ RuleOf g (g.start.getD 0) r) ∨ ∃ c, Viable g γ c ∧ atDot g c = some (g.rule r).lhs := by
  generalize hc : (⟨r, 0⟩ : Item) = c at h
  cases h with
  | start h => cases hc; exact .inl ⟨rfl, h⟩
  | close h1 h2 h3 => cases hc; exact .inr ⟨_, h1, by rw [h2, h3.2]⟩
  | shift => cases hc

end

variable {V X E : Type}

section
variable {ord : List (SymbolId × SymbolId) → List (SymbolId × SymbolId)} {ds : List Decl} {t : Tables} {s : CSpec ord ds t} {dflt : SymbolId}

/-- The number of the symbol read is that of `Y`, or of a token read as `Y`. -/
def Grammar.Fills (g : Grammar) (major : Nat) (Y : SymbolId) : Prop :=
  ((g.sym Y).kind = .nonTerminal ∧ major = (g.sym Y).index) ∨
  ∃ a b, a < g.syms.length ∧ (g.sym a).kind = .terminal ∧ a ≠ 0 ∧ major = (g.sym a).index ∧ Stands g a b ∧ Reads g Y b

/-- The stack, top first, with the symbols read so far -/
inductive Stk (s : CSpec ord ds t) : List (Entry V) → List SymbolId → StateId → Prop
  | base {e} : e.state = 0 → e.major = 0 → Stk s [e] [] 0
  | push {e es γ q Y k} : Stk s es γ q → s.g.Trans s.sts q Y k → e.state = s.num k → s.g.Fills e.major Y → Stk s (e :: es) (γ ++ [Y]) k

theorem Stk.path {es : List (Entry V)} {γ : List SymbolId} {q : StateId} (h : Stk s es γ q) : s.g.Path s.sts γ q := by
  induction h with
  | base => exact .nil
  | push _ h1 _ _ ih => exact .snoc ih h1

theorem Stk.length {es : List (Entry V)} {γ : List SymbolId} {q : StateId} (h : Stk s es γ q) : es.length = γ.length + 1 := by
  induction h with
  | base => rfl
  | push _ _ _ _ ih => simp [ih]

theorem Stk.top (m : Made s dflt) {e : Entry V} {es : List (Entry V)} {γ : List SymbolId} {q : StateId} (h : Stk s (e :: es) γ q) : e.state = s.num q := by
  cases h with
  | base h _ => rw [h, m.tab.num_zero (by rw [m.len]; exact m.auto.pos)]
  | push _ _ h _ => exact h

theorem Stk.drop {es : List (Entry V)} {γ δ : List SymbolId} {q : StateId} (h : Stk s es (γ ++ δ) q) : ∃ q0, Stk s (es.drop δ.length) γ q0 := by
  induction δ using List.reverseRecOn generalizing es q with
  | nil => simp only [List.append_nil] at h; exact ⟨q, h⟩
  | append_singleton δ Y ih =>
    rw [← List.append_assoc] at h
    generalize hγ : γ ++ δ ++ [Y] = γ' at h
    cases h with
    | base => simp at hγ
    | push h1 h2 _ _ =>
      obtain ⟨e1, e2⟩ := List.append_inj' hγ rfl
      subst e1
      obtain ⟨q0, h⟩ := ih h1
      exact ⟨q0, by simpa using h⟩

theorem CSpec.ruleCode_get (s : CSpec ord ds t) {r : RuleId} (hr : r < s.g.rules.length) :
    ∃ rc, t.ruleCode[r]? = some rc ∧ s.gen.gT.translateCode (s.g.rule r) = .ok rc := by
  have hrs : s.gen.gT.rules = s.g.rules := (assignTypes_shape s.gen.assign).2.1
  have h := mapM_except_forall₂ s.gen.rcEq
  rw [s.gen.ruleCode]
  rcases forall₂_getElem? h r with ⟨h1, _⟩ | ⟨a, b, h1, h2, h3⟩
  · rw [hrs, List.getElem?_eq_getElem hr] at h1; cases h1
  · rw [hrs] at h1
    refine ⟨b, h2, ?_⟩
    have : s.g.rule r = a := by unfold Grammar.rule; rw [List.getD_eq_getElem?_getD, h1]; rfl
    rw [this]; exact h3

theorem translateCode_pats {g : Grammar} {r : Rule} {rc : RuleCode} (h : g.translateCode r = .ok rc) :
    rc = { pats := r.rhs.map (fun s => if s.alias then some (g.sym s.sym).dtNum else none), code := r.code, lhsDt := (g.sym r.lhs).dtNum } := by
  unfold Grammar.translateCode at h
  split at h
  · cases h
  · split at h
    · cases h
    · exact (Except.ok.inj h).symm

/-- A rule that is complete on the stack -/
theorem Made.complete (m : Made s dflt) {es : List (Entry V)} {γ : List SymbolId} {q : StateId} (h : Stk s es γ q) {r : RuleId}
    (hr : (⟨r, (s.g.rhsSyms r).length⟩ : Item) ∈ items (cfgs s.sts q)) :
    ∃ γ0 q0, γ = γ0 ++ s.g.rhsSyms r ∧ Stk s (es.drop (s.g.rhsSyms r).length) γ0 q0 ∧
      ((γ0 = [] ∧ q0 = 0 ∧ (s.g.rule r).lhs = s.g.start.getD 0) ∨ ∃ k, s.g.Trans s.sts q0 (s.g.rule r).lhs k) := by
  have hv := (path_items m.inv m.auto h.path _).1 hr
  obtain ⟨γ0, e, _, h0⟩ := viable_prefix hv
  simp only [List.take_length] at e
  subst e
  obtain ⟨q0, hq⟩ := h.drop
  refine ⟨γ0, q0, rfl, hq, ?_⟩
  rcases viable_zero h0 with ⟨rfl, h1⟩ | ⟨c, hc, hd⟩
  · left; exact ⟨rfl, Path.inv_nil hq.path, h1.2⟩
  · right
    exact m.auto.move (Path.lt m.auto hq.path) ((path_items m.inv m.auto hq.path c).2 hc) hd

theorem Made.goto_shift (m : Made s dflt) {q0 k : StateId} {A : SymbolId} (hA : (s.g.sym A).kind = .nonTerminal) (h : s.g.Trans s.sts q0 A k) :
    t.findReduce (s.num q0) (s.g.sym A).index = .ok (s.num k) := by
  obtain ⟨r, hr, hx⟩ := h.rhs m.inv m.auto
  obtain ⟨hl, _, hn⟩ := m.inv.rhs r hr A hx
  have hne : A ≠ dflt := by rintro rfl; exact hn m.dname
  have hst : A ≠ s.g.start.getD 0 := by
    rintro rfl
    obtain ⟨s', hs1, _⟩ := m.inv.start
    exact m.noStart r hr _ hx (by rw [hs1]; rfl)
  obtain ⟨dd, ig, hc, ho⟩ := m.own h.src
  obtain ⟨sh, rd, h1, h2, hout⟩ := m.aspec.out q0 h.src A (.inr hst)
  have hrd : rd = [] := by
    cases rd with
    | nil => rfl
    | cons b _ => have := ((h2 b).1 (by simp)).2.1; rw [hA] at this; cases this
  have hk : k ∈ sh := (h1 k).2 ((shiftActions_nt m.inv m.auto hA).2 h)
  generalize hL : lives (onSym A (s.acts.getD q0 [])) = L at hout
  have : ownOf (s.acts'.getD q0 []) A = some (.shift k) := by
    cases hout with
    | nothing e _ => rw [e] at hk; cases hk
    | @shift k' e _ =>
      rw [e, List.mem_singleton] at hk
      subst hk
      exact ho.shift A hne _ hL
    | reduce e => rw [hrd] at e; cases e
    | error _ e => rw [hrd] at e; cases e
  exact m.goto h.src this hl hA hne

theorem Made.goto_accept (m : Made s dflt) : t.findReduce 0 (s.g.sym (s.g.start.getD 0)).index = .ok (t.nState + t.nRule + 1) := by
  have hk := m.inv.start_kind
  obtain ⟨dd, ig, hc, ho⟩ := m.own m.auto.pos
  have hne : s.g.start.getD 0 ≠ dflt := by
    intro e
    have := hk.2.2
    rw [e, m.dname] at this; cases this
  have := ho.accept (s.g.start.getD 0) hne (by rw [m.aspec.acc]; rfl)
  have := m.goto m.auto.pos this hk.2.1 hk.1 hne
  rw [show s.num 0 = 0 from m.tab.num_zero (by rw [m.len]; exact m.auto.pos)] at this
  rw [this, m.tab.nState, m.tab.nRule, m.len]
  rfl

/-- Case analysis of a reduction by a rule that is complete. -/
theorem Made.reduce_stk (m : Made s dflt) (sem : Sem V X E) {p : Parser V X} {γ : List SymbolId} {q : StateId} (h : Stk s p.stack γ q) {r : RuleId}
    (hr : (⟨r, (s.g.rhsSyms r).length⟩ : Item) ∈ items (cfgs s.sts q)) :
    ∃ rc, t.ruleCode[r]? = some rc ∧ s.gen.gT.translateCode (s.g.rule r) = .ok rc ∧ rc.pats.length = (s.g.rhsSyms r).length ∧
      ((matchPats rc.pats (p.stack.take rc.pats.length).reverse = none ∧ reduce t sem p r = .panic .pattern) ∨
      ∃ vs, matchPats rc.pats (p.stack.take rc.pats.length).reverse = some vs ∧
        ((∃ e x, runCode sem rc.code vs p.extra = (.error e, x) ∧ reduce t sem p r = .err { p with stack := p.stack.drop rc.pats.length, extra := x, trace := .reduce r vs :: p.trace } e) ∨
         ∃ v x γ0 q0, runCode sem rc.code vs p.extra = (.ok v, x) ∧ γ = γ0 ++ s.g.rhsSyms r ∧ Stk s (p.stack.drop rc.pats.length) γ0 q0 ∧
          ((γ0 = [] ∧ q0 = 0 ∧ (s.g.rule r).lhs = s.g.start.getD 0 ∧ reduce t sem p r = accept t sem { p with stack := p.stack.drop rc.pats.length, extra := x, trace := .reduce r vs :: p.trace } ⟨rc.lhsDt, v⟩) ∨
           ∃ k, s.g.Trans s.sts q0 (s.g.rule r).lhs k ∧
             reduce t sem p r = shift t sem { p with stack := p.stack.drop rc.pats.length, extra := x, trace := .reduce r vs :: p.trace } (s.num k) (s.g.sym (s.g.rule r).lhs).index ⟨rc.lhsDt, v⟩))) := by
  have hql := Path.lt m.auto h.path
  have hrl := m.auto.item_rule m.inv hql hr
  obtain ⟨rc, hrc, htc⟩ := s.ruleCode_get hrl
  have hpl : rc.pats.length = (s.g.rhsSyms r).length := by
    rw [translateCode_pats htc]; simp [Grammar.rhsSyms]
  refine ⟨rc, hrc, htc, hpl, ?_⟩
  obtain ⟨γ0, q0, e, hs0, hgo⟩ := m.complete h hr
  have hlen := h.length
  have hge : ¬ p.stack.length < rc.pats.length := by
    rw [hlen, e, hpl]; simp; omega
  cases hvs : matchPats rc.pats (p.stack.take rc.pats.length).reverse with
  | none => left; exact ⟨rfl, by simp [reduce, hrc, hge, hvs]⟩
  | some vs =>
    right
    refine ⟨vs, rfl, ?_⟩
    rcases hrun : runCode sem rc.code vs p.extra with ⟨res, x⟩
    cases res with
    | error e => left; exact ⟨e, x, rfl, by simp [reduce, hrc, hge, hvs, hrun]⟩
    | ok v =>
      right
      rw [← hpl] at hs0
      refine ⟨v, x, γ0, q0, rfl, e, hs0, ?_⟩
      have hl : t.ruleInfo[r]? = some (s.g.sym (s.g.rule r).lhs).index := by rw [s.ruleInfo_get, if_pos hrl]
      obtain ⟨top, rest, hd⟩ : ∃ top rest, p.stack.drop rc.pats.length = top :: rest := by
        cases hd : p.stack.drop rc.pats.length with
        | nil => have := hs0.length; rw [hd] at this; simp at this
        | cons a b => exact ⟨a, b, rfl⟩
      have htop := hs0
      rw [hd] at htop
      have htop := htop.top m
      have hns : t.nState = s.sts.length := by rw [m.tab.nState, m.len]
      rcases hgo with ⟨h1, h2, h3⟩ | ⟨k, hk⟩
      · left
        refine ⟨h1, h2, h3, ?_⟩
        have hf : t.findReduce top.state (s.g.sym (s.g.rule r).lhs).index = .ok (t.nState + t.nRule + 1) := by
          rw [htop, h2, h3, show s.num 0 = 0 from m.tab.num_zero (by rw [m.len]; exact m.auto.pos)]; exact m.goto_accept
        have hlt : ¬ (t.nState + t.nRule + 1 < t.nState) := by omega
        simp only [reduce, hrc, hge, hvs, hrun, hl, hd, hf, hlt, if_false, if_true]
      · right
        refine ⟨k, hk, ?_⟩
        have hf : t.findReduce top.state (s.g.sym (s.g.rule r).lhs).index = .ok (s.num k) := by
          rw [htop]; exact m.goto_shift (m.inv.lhs r hrl).2.1 hk
        have hlt : s.num k < t.nState := by
          rw [m.tab.nState]; exact m.tab.num_lt k (by rw [m.len]; exact hk.dst)
        simp only [reduce, hrc, hge, hvs, hrun, hl, hd, hf, hlt, if_false, if_true]

end

end Pomelo
