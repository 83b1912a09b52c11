import Verif.Proofs.Drive
/-! # Every step of the parser on its stack -/

namespace Pomelo

open Spec

variable {V X E : Type}

section
variable {ord : List (SymbolId × SymbolId) → List (SymbolId × SymbolId)} {ds : List Decl} {t : Tables} {s : CSpec ord ds t} {dflt : SymbolId}

theorem Made.num_lt (m : Made s dflt) {k : StateId} (hk : k < s.sts.length) : s.num k < t.nState := by
  rw [m.tab.nState]; exact m.tab.num_lt k (by rw [m.len]; exact hk)

theorem Made.nState (m : Made s dflt) : t.nState = s.sts.length := by rw [m.tab.nState, m.len]

theorem Made.code_shift (_ : Made s dflt) (k : StateId) : s.code (.shift k) = s.num k := rfl
theorem Made.code_reduce (m : Made s dflt) (r : RuleId) : s.code (.reduce r) = t.nState + r := by rw [m.nState]; exact Nat.add_comm _ _
theorem Made.code_error (m : Made s dflt) : s.code .error = t.nState + t.nRule := by rw [m.nState, m.tab.nRule]; rfl
theorem Made.code_accept (m : Made s dflt) : s.code .accept = t.nState + t.nRule + 1 := by rw [m.nState, m.tab.nRule]; rfl

/-- Case analysis of one iteration with the token `a`. -/
theorem Made.step_stk (m : Made s dflt) (ho : OrdOk ord) (hA : apart ord ds = true) (sem : Sem V X E) {p : Parser V X} {γ : List SymbolId} {q : StateId}
    (h : Stk s p.stack γ q) {a : SymbolId} (ha : a < s.g.syms.length) (hk : (s.g.sym a).kind = .terminal) (mn : Minor V) :
    ∃ top rest, p.stack = top :: rest ∧ top.state = s.num q ∧
    ((∃ w, t.findShift (s.num q) (s.g.sym a).index = .error w ∧ step t sem p (s.g.sym a).index mn = .done (.panic w)) ∨
     (∃ k Y b, a ≠ 0 ∧ t.findShift (s.num q) (s.g.sym a).index = .ok (s.num k) ∧ Stands s.g a b ∧ Reads s.g Y b ∧ s.g.Trans s.sts q Y k ∧
        ((∃ p1 e, shift t sem p (s.num k) (s.g.sym a).index mn = .err p1 e ∧ step t sem p (s.g.sym a).index mn = .done (.err p1 e)) ∨
         (t.stackLimit = 0 ∨ p.stack.length < t.stackLimit) ∧ step t sem p (s.g.sym a).index mn = .done (.ok { p with stack := ⟨s.num k, (s.g.sym a).index, mn⟩ :: p.stack, errorCount := p.errorCount - 1, trace := .shift (s.g.sym a).index :: p.trace } ()))) ∨
     (∃ r b, t.findShift (s.num q) (s.g.sym a).index = .ok (t.nState + r) ∧ s.g.CanReduce s.sts q b r ∧ ((s.g.rule r).lhs = s.g.start.getD 0 → a = 0) ∧
        ((∃ w, reduce t sem p r = .panic w ∧ step t sem p (s.g.sym a).index mn = .done (.panic w)) ∨
         (∃ p1 e, reduce t sem p r = .err p1 e ∧ step t sem p (s.g.sym a).index mn = .done (.err p1 e)) ∨
         (∃ p1, reduce t sem p r = .ok p1 () ∧ step t sem p (s.g.sym a).index mn = .again p1))) ∨
     (t.findShift (s.num q) (s.g.sym a).index = .ok (t.nState + t.nRule) ∧ step t sem p (s.g.sym a).index mn = .done (onError t sem p top (s.g.sym a).index mn))) := by
  have hql := Path.lt m.auto h.path
  obtain ⟨top, rest, hd⟩ : ∃ top rest, p.stack = top :: rest := by
    cases hd : p.stack with
    | nil => have := h.length; rw [hd] at this; simp at this
    | cons a b => exact ⟨a, b, rfl⟩
  have htop := h
  rw [hd] at htop
  have htop := htop.top m
  refine ⟨top, rest, hd, htop, ?_⟩
  cases hf : t.findShift (s.num q) (s.g.sym a).index with
  | error w =>
    left; refine ⟨w, rfl, ?_⟩
    simp [step, hd, htop, hf]
  | ok c =>
    right
    obtain ⟨d, rfl, hm⟩ := m.find_sound ho hA hql ha hk hf
    cases hm with
    | @shift Y b k h1 h2 h3 =>
      left
      have hlt := m.num_lt h3.dst
      have ha0 : a ≠ 0 := by
        rintro rfl
        have hb : b = 0 := by
          have hstand : ∀ {x y}, Stands s.g x y → x = 0 → y = 0 := by
            intro x y hxy
            induction hxy with
            | self => exact id
            | fallback hf _ ih =>
              intro e; subst e
              have := (m.inv.fb 0 ha _ hf).2.2
              rw [m.inv.dollar.1] at this; cases this
            | wildcard _ hne => intro e; exact absurd e hne
          exact hstand h1 rfl
        subst hb
        obtain ⟨r, hr, hx⟩ := h3.rhs m.inv m.auto
        obtain ⟨hl, hn, _⟩ := m.inv.rhs r hr Y hx
        unfold Reads at h2
        split at h2
        · subst h2; exact hn m.inv.dollar.1
        · have := (m.inv.subs Y hl _ h2).2
          rw [m.inv.dollar.1] at this; cases this
        · exact h2
      have hi0 : (s.g.sym a).index ≠ 0 := fun e => ha0 (m.inv.index_inj ha (Nat.lt_of_lt_of_le Nat.zero_lt_two m.inv.two) (by rw [e, m.inv.dollar.2.2]))
      refine ⟨k, Y, b, ha0, rfl, h1, h2, h3, ?_⟩
      rcases shift_cases t sem p (s.num k) (s.g.sym a).index mn with ⟨_, _, hs⟩ | ⟨hroom, hs⟩
      · left
        refine ⟨_, _, hs, ?_⟩
        simp only [step, hd, htop, hf, m.code_shift, hlt, if_true, hi0, if_false]
        rw [hs]; simp [hd]
      · right
        refine ⟨hroom, ?_⟩
        simp only [step, hd, htop, hf, m.code_shift, hlt, if_true, hi0, if_false]
        rw [hs]; simp [hd]
    | @reduce r b h1 h2 =>
      right; left
      have hrl := (canReduce_rule m.inv m.auto h1).1
      rw [m.code_reduce] at hf ⊢
      refine ⟨r, b, rfl, h1, h2, ?_⟩
      have e1 : ¬ (t.nState + r < t.nState) := by omega
      have e2 : t.nState + r < t.nState + t.nRule := by rw [m.tab.nRule]; exact Nat.add_lt_add_left hrl _
      have e3 : t.nState + r - t.nState = r := Nat.add_sub_cancel_left _ _
      rcases hr : reduce t sem p r with ⟨p1, u⟩ | ⟨p1, e⟩ | w
      · right; right; exact ⟨p1, rfl, by simp only [step, hd, htop, hf, e1, e2, e3, hr, if_true, if_false]⟩
      · right; left; exact ⟨p1, e, rfl, by simp only [step, hd, htop, hf, e1, e2, e3, hr, if_true, if_false]⟩
      · left; exact ⟨w, rfl, by simp only [step, hd, htop, hf, e1, e2, e3, hr, if_true, if_false]⟩
    | error =>
      right; right
      rw [m.code_error] at hf ⊢
      refine ⟨rfl, ?_⟩
      have e1 : ¬ (t.nState + t.nRule < t.nState) := by omega
      simp only [step, hd, htop, hf, e1, if_true, if_false]
      rw [if_neg (by omega)]

/-! ## Parsing without syntax errors -/

/-- Some token was thrown away. -/
def Tainted (p : Parser V X) : Prop := ∃ n, Event.discard n ∈ p.trace

/-- The tokens `toks` have been read without a syntax error, starting with the extra argument `x0`, if the token `n` follows. -/
def Good (s : CSpec ord ds t) (sem : Sem V X E) (x0 : X) (toks : List (Tok V)) (n : Nat) (p : Parser V X) : Prop :=
  p.status = .normal ∧ ∃ γ q ts, Stk s p.stack γ q ∧ Drive s 0 ts n γ q ∧ GTree.yields ts = toks ∧
    GTree.evals t sem ts x0 = (.ok (stackVals p.stack), p.extra) ∧ actsOfLog p.trace = GTree.posts ts ∧ Room t 1 (GTree.needs ts)

/-- The tokens `toks` have been accepted without a syntax error. -/
def Accepted (s : CSpec ord ds t) (sem : Sem V X E) (x0 : X) (toks : List (Tok V)) (n : Nat) (p : Parser V X) : Prop :=
  ∃ v w r kids q b, p.status = .accepted v ∧ (Drive s 0 kids n (s.g.rhsSyms r) q ∧ s.g.CanReduce s.sts q b r ∧ t.findShift (s.num q) n = .ok (t.nState + r)) ∧ RuleOf s.g (s.g.start.getD 0) r ∧ GTree.yields kids = toks ∧
    GTree.eval t sem (.node r kids) x0 = (.ok w, p.extra) ∧ v = (if t.rootDt.isSome then w else sem.unit) ∧ (actsOfLog p.trace = GTree.post (.node r kids) ∧ Room t 1 (GTree.needs kids)) ∧
    ∀ n, t.rootDt = some n → (s.gen.gT.sym (s.g.start.getD 0)).dtNum = n

theorem Good.new (_ : Made s dflt) (sem : Sem V X E) (x : X) (n : Nat) : Good s sem x [] n (Parser.new sem x) := by
  refine ⟨rfl, [], 0, [], .base rfl rfl, .nil, rfl, ?_, rfl, .inr (.inl rfl)⟩
  simp [GTree.evals, stackVals, Parser.new]

theorem Made.good_reduce (m : Made s dflt) (sem : Sem V X E) {x0 : X} {toks : List (Tok V)} {p p1 : Parser V X} (hst : p.status = .normal)
    {γ : List SymbolId} {q : StateId} {ts : List (GTree V)} (hs : Stk s p.stack γ q) {n : Nat} (hf : Drive s 0 ts n γ q) (hy : GTree.yields ts = toks)
    (he : GTree.evals t sem ts x0 = (.ok (stackVals p.stack), p.extra)) (hlog : actsOfLog p.trace = GTree.posts ts) (hroom : Room t 1 (GTree.needs ts))
    {r : RuleId} {b : SymbolId} (hcr : s.g.CanReduce s.sts q b r) (hfs : t.findShift (s.num q) n = .ok (t.nState + r)) (h : reduce t sem p r = .ok p1 ()) :
    Good s sem x0 toks n p1 ∨ (RuleOf s.g (s.g.start.getD 0) r ∧ Accepted s sem x0 toks n p1) := by
  have hr := (canReduce_rule m.inv m.auto hcr).2.2
  have hql := Path.lt m.auto hs.path
  have hrl := m.auto.item_rule m.inv hql hr
  obtain ⟨rc, hrc, htc, hpl, hcase⟩ := m.reduce_stk sem hs hr
  rcases hcase with ⟨_, e⟩ | ⟨vs, hvs, hcase⟩
  · rw [e] at h; cases h
  rcases hcase with ⟨e, x, _, e'⟩ | ⟨v, x, γ0, q0, hrun, rfl, hs0, hcase⟩
  · rw [e'] at h; cases h
  obtain ⟨a, b, q1, rfl, ha, hb⟩ := hf.split
  have hlt : rc.pats.length < p.stack.length := by rw [hs.length, hpl, List.length_append]; omega
  have hvals := stackVals_split hlt
  rw [hvals] at he
  have hal : (stackVals (p.stack.drop rc.pats.length)).length = a.length := by
    have h1 := GTree.evals_length he
    have h2 := (hb.forest m.inv m.auto).length
    simp only [List.length_append, List.length_map, List.length_reverse, List.length_take] at h1
    rw [← hpl] at h2
    omega
  obtain ⟨x1, he1, he2⟩ := GTree.evals_split he hal
  have hnode : GTree.eval t sem (.node r b) x1 = (.ok v, x) := by
    simp only [GTree.eval, he2]
    have : t.ruleCode.getD r default = rc := by rw [List.getD_eq_getElem?_getD, hrc]; rfl
    rw [this, ← matchPats_pick hvs]
    exact hrun
  have hpost : actsOfLog (.reduce r vs :: p.trace) = GTree.posts (a ++ [.node r b]) := by
    unfold actsOfLog at hlog ⊢
    rw [List.filterMap_cons]
    simp only [Event.act?, List.reverse_cons, hlog]
    rw [GTree.posts_append, GTree.posts_append]
    simp [GTree.posts, GTree.post]
  have hyield : GTree.yields (a ++ [.node r b]) = toks := by
    rw [← hy, GTree.yields_append, GTree.yields_append]
    simp [GTree.yields, GTree.yield]
  rcases hcase with ⟨rfl, rfl, hl, e⟩ | ⟨k, hk, e⟩
  · right
    refine ⟨⟨hrl, hl⟩, ?_⟩
    have hlen := (ha.forest m.inv m.auto).length
    have ha0 : a = [] := by cases a with | nil => rfl | cons _ _ => simp at hlen
    subst ha0
    cases ha
    rw [e] at h
    have hx : x1 = x0 := by simp only [GTree.evals, Prod.mk.injEq] at he1; exact he1.2.symm
    subst hx
    unfold accept at h
    split at h
    · rename_i n hn
      split at h
      · rename_i htag
        simp only [Res.ok.injEq, and_true] at h
        subst h
        refine ⟨v, v, r, b, q, _, rfl, ⟨hb, hcr, hfs⟩, ⟨hrl, hl⟩, ?_, hnode, by rw [hn]; rfl, ?_, ?_⟩
        · simpa [GTree.yields, GTree.yield] using hyield
        · exact ⟨by simpa [GTree.posts] using hpost, hroom⟩
        · intro n' hn'
          rw [hn] at hn'
          cases hn'
          rw [translateCode_pats htc] at htag
          rw [← htag, hl]
      · cases h
    · rename_i hn
      simp only [Res.ok.injEq, and_true] at h
      subst h
      refine ⟨sem.unit, v, r, b, q, _, rfl, ⟨hb, hcr, hfs⟩, ⟨hrl, hl⟩, ?_, hnode, by rw [hn]; rfl, ?_, by rw [hn]; simp⟩
      · simpa [GTree.yields, GTree.yield] using hyield
      · exact ⟨by simpa [GTree.posts] using hpost, hroom⟩
  · left
    rw [e] at h
    rcases shift_cases t sem { p with stack := p.stack.drop rc.pats.length, extra := x, trace := .reduce r vs :: p.trace } (s.num k) (s.g.sym (s.g.rule r).lhs).index ⟨rc.lhsDt, v⟩ with ⟨_, _, hsh⟩ | ⟨hfit, hsh⟩
    · rw [hsh] at h; cases h
    · rw [hsh] at h
      simp only [Res.ok.injEq, and_true] at h
      subst h
      refine ⟨hst, γ0 ++ [(s.g.rule r).lhs], k, a ++ [.node r b], .push hs0 hk rfl (.inl ⟨(m.inv.lhs r hrl).2.1, rfl⟩), ?_, hyield, ?_, hpost, hroom.snoc_node ?_⟩
      · have hq1 : q1 = q0 := Path.unique m.auto (by simpa using ha.path .nil) hs0.path
        subst hq1
        exact Drive.append (by rw [nextOf_node]; exact ha) (.node hb hcr hfs hk .nil)
      · rw [GTree.evals_append, he1]
        simp only [GTree.evals, hnode]
        rw [stackVals_cons (fun hnil => by have := hs0.length; rw [hnil] at this; simp at this)]
      · have h1 := (ha.forest m.inv m.auto).length
        have h2 := hs0.length
        rw [h1, ← h2]
        exact hfit

theorem Made.good_step (m : Made s dflt) (ho : OrdOk ord) (hA : apart ord ds = true) (sem : Sem V X E) {x0 : X} {toks : List (Tok V)} {p : Parser V X}
    {a : SymbolId} (h : Good s sem x0 toks (s.g.sym a).index p) (ha : a < s.g.syms.length) (hk : (s.g.sym a).kind = .terminal) (mn : Minor V) :
    (∀ p1, step t sem p (s.g.sym a).index mn = .again p1 → Good s sem x0 toks (s.g.sym a).index p1 ∨ (a = 0 ∧ Accepted s sem x0 toks (s.g.sym a).index p1)) ∧
    (∀ p1 u, step t sem p (s.g.sym a).index mn = .done (.ok p1 u) →
      (a ≠ 0 ∧ ∀ n, Good s sem x0 (toks ++ [⟨(s.g.sym a).index, mn.val⟩]) n p1) ∨ Tainted p1) := by
  obtain ⟨hst, γ, q, ts, hs, hf, hy, he, hlog, hroom⟩ := h
  obtain ⟨top, rest, hd, htop, hcase⟩ := m.step_stk ho hA sem hs ha hk mn
  rcases hcase with ⟨w, _, e⟩ | ⟨k, Y, b, ha0, hfs, h1, h2, h3, hcase⟩ | ⟨r, b, hfs, h1, h2, hcase⟩ | ⟨_, e⟩
  · rw [e]; exact ⟨by simp, by simp⟩
  · rcases hcase with ⟨p1, e, _, e'⟩ | ⟨hfit, e⟩
    · rw [e']; exact ⟨by simp, by simp⟩
    · rw [e]
      refine ⟨by simp, ?_⟩
      intro p1 u hp
      simp only [Step.done.injEq, Res.ok.injEq] at hp
      obtain ⟨rfl, _⟩ := hp
      left
      refine ⟨ha0, fun n => ⟨hst, γ ++ [Y], k, ts ++ [.leaf ⟨(s.g.sym a).index, mn.val⟩], .push hs h3 rfl (.inr ⟨a, b, ha, hk, ha0, rfl, h1, h2⟩), ?_, ?_, ?_, ?_, hroom.snoc_leaf ?_⟩⟩
      · exact Drive.append (by rw [nextOf_leaf]; exact hf) (.leaf ha hk ha0 rfl h1 h2 h3 hfs .nil)
      · rw [GTree.yields_append, hy]; rfl
      · rw [GTree.evals_append, he]
        simp only [GTree.evals, GTree.eval]
        rw [stackVals_cons (fun e => by rw [hd] at e; cases e)]
      · unfold actsOfLog at hlog ⊢
        rw [List.filterMap_cons]
        simp only [Event.act?, List.reverse_cons, hlog]
        rw [GTree.posts_append]
        simp [GTree.posts, GTree.post]
      · rw [(hf.forest m.inv m.auto).length, ← hs.length]
        exact hfit
  · rcases hcase with ⟨w, _, e⟩ | ⟨p1, e, _, e'⟩ | ⟨p1, hr, e⟩
    · rw [e]; exact ⟨by simp, by simp⟩
    · rw [e']; exact ⟨by simp, by simp⟩
    · rw [e]
      refine ⟨?_, by simp⟩
      intro p2 hp
      simp only [Step.again.injEq] at hp
      subst hp
      rcases m.good_reduce sem hst hs hf hy he hlog hroom h1 hfs hr with h | ⟨h', h⟩
      · exact .inl h
      · exact .inr ⟨h2 h'.2, h⟩
  · rw [e]
    refine ⟨by simp, ?_⟩
    intro p1 u hp
    simp only [Step.done.injEq] at hp
    right
    rcases onError_cases t sem p top (s.g.sym a).index mn with ⟨w, h, _⟩ | ⟨_, h⟩ | ⟨ex, _, _, h⟩
    · rw [h] at hp; cases hp
    · rw [h] at hp; cases hp
    · rcases h with ⟨_, h⟩ | ⟨_, _, h⟩ | ⟨_, _, h⟩
      · rcases h with ⟨p1', e, _, h⟩ | ⟨p1', _, _, h⟩ | ⟨p1', _, _, h⟩
        · rw [h] at hp; cases hp
        · rw [h] at hp; cases hp
        · rw [h] at hp; cases hp; exact ⟨_, List.mem_cons_self⟩
      · rcases h with ⟨p1', e, _, h⟩ | ⟨p1', v, _, h⟩
        · rw [h] at hp; cases hp
        · rw [h] at hp; cases hp; exact ⟨_, List.mem_cons_self⟩
      · rw [h] at hp; cases hp; exact ⟨_, List.mem_cons_self⟩

theorem Made.good_loop (m : Made s dflt) (ho : OrdOk ord) (hA : apart ord ds = true) (sem : Sem V X E) {x0 : X} {toks : List (Tok V)}
    {a : SymbolId} (ha : a < s.g.syms.length) (hk : (s.g.sym a).kind = .terminal) (mn : Minor V) : ∀ {fuel : Nat} {p p1 : Parser V X},
    Good s sem x0 toks (s.g.sym a).index p → loop t sem (s.g.sym a).index mn fuel p = some (.ok p1 ()) →
    (a ≠ 0 ∧ ∀ n, Good s sem x0 (toks ++ [⟨(s.g.sym a).index, mn.val⟩]) n p1) ∨ (a = 0 ∧ Accepted s sem x0 toks (s.g.sym a).index p1) ∨ Tainted p1 := by
  intro fuel
  induction fuel with
  | zero => intro p p1 _ h; cases h
  | succ fuel ih =>
    intro p p1 hg h
    obtain ⟨g1, g2⟩ := m.good_step ho hA sem hg ha hk mn
    simp only [loop, hg.1] at h
    cases hstep : step t sem p (s.g.sym a).index mn with
    | done r =>
      rw [hstep] at h
      simp only [Option.some.injEq] at h
      subst h
      rcases g2 p1 () hstep with h | h
      · exact .inl h
      · exact .inr (.inr h)
    | again p2 =>
      rw [hstep] at h
      simp only at h
      rcases g1 p2 hstep with h' | ⟨h0, h'⟩
      · exact ih h' h
      · right; left
        refine ⟨h0, ?_⟩
        obtain ⟨v, w, r, kids, q1, b1, hv, hrest⟩ := h'
        cases fuel with
        | zero => cases h
        | succ fuel =>
          simp only [loop, hv, Option.some.injEq, Res.ok.injEq, and_true] at h
          subst h
          exact ⟨v, w, r, kids, q1, b1, hv, hrest⟩

theorem CSpec.numTerminals (s : CSpec ord ds t) : t.numTerminals = s.g.numTerminals := by
  rw [s.gen.numTerminals, s.gen.shape.nterm]

/-- The symbol of a token -/
theorem Made.token (m : Made s dflt) {n : Nat} (h0 : 0 < n) (hn : n < t.numTerminals) :
    ∃ a, a < s.g.syms.length ∧ (s.g.sym a).kind = .terminal ∧ (s.g.sym a).index = n ∧ a ≠ 0 := by
  rw [s.numTerminals] at hn
  obtain ⟨_, h2, h3⟩ := m.inv.nterm
  obtain ⟨h4, h5⟩ := m.inv.index n (by omega)
  refine ⟨_, h4, (m.inv.term _ h4).2 (by rw [h5]; exact hn), h5, ?_⟩
  intro e
  rw [e, m.inv.dollar.2.2] at h5
  omega

theorem tokenValue_val {sem : Sem V X E} {tok : Tok V} (h : tok.Valid t sem) : (t.tokenValue sem tok).1 = tok.major ∧ (t.tokenValue sem tok).2.val = tok.val := by
  refine ⟨rfl, ?_⟩
  unfold Tables.tokenValue
  simp only
  split
  · rename_i h'; exact (h.unit h').symm
  · rfl

theorem Made.good_parse (m : Made s dflt) (ho : OrdOk ord) (hA : apart ord ds = true) (sem : Sem V X E) {x0 : X} {toks : List (Tok V)}
    {tok : Tok V} (hv : tok.Valid t sem) {fuel : Nat} {p p1 : Parser V X} (hg : ∀ n, Good s sem x0 toks n p) (h : parse t sem fuel p tok = some (.ok p1 ())) :
    (∀ n, Good s sem x0 (toks ++ [tok]) n p1) ∨ Tainted p1 := by
  obtain ⟨a, ha, hk, hi, h0⟩ := m.token hv.pos hv.lt
  rw [parse_eq] at h
  unfold parseToken at h
  rw [(hg 0).1] at h
  simp only at h
  rw [← hi] at h
  cases hl : loop t sem (s.g.sym a).index (t.tokenValue sem tok).2 fuel p with
  | none => rw [hl] at h; cases h
  | some r =>
    rw [hl] at h
    cases r with
    | err => simp at h
    | panic => simp at h
    | ok p2 u =>
      simp only [Option.map_some, Option.some.injEq, Res.ok.injEq, and_true] at h
      subst h
      rcases m.good_loop ho hA sem ha hk _ (hg _) hl with ⟨_, h⟩ | ⟨h, _⟩ | h
      · rw [(tokenValue_val hv).2, hi] at h
        exact .inl h
      · exact absurd h h0
      · exact .inr h

theorem Tainted.mono {sem : Sem V X E} {p p1 : Parser V X} (h : Logged t sem p p1) (ht : Tainted p) : Tainted p1 := by
  obtain ⟨l, hl, _⟩ := h
  obtain ⟨n, hn⟩ := ht
  exact ⟨n, by rw [hl]; exact List.mem_append_right _ hn⟩

theorem Made.good_feed (m : Made s dflt) (ho : OrdOk ord) (hA : apart ord ds = true) (sem : Sem V X E) {x0 : X} {fuel : Nat} : ∀ {toks done : List (Tok V)}
    {p p1 : Parser V X}, (∀ tok ∈ toks, tok.Valid t sem) → (∀ n, Good s sem x0 done n p) ∨ Tainted p → feed t sem fuel p toks = some (.ok p1 ()) →
    (∀ n, Good s sem x0 (done ++ toks) n p1) ∨ Tainted p1 := by
  intro toks
  induction toks with
  | nil =>
    intro done p p1 _ hg h
    simp only [feed, Option.some.injEq, Res.ok.injEq, and_true] at h
    subst h; simpa using hg
  | cons tok toks ih =>
    intro done p p1 hv hg h
    rw [feed] at h
    split at h
    · rename_i p2 hp
      have := ih (done := done ++ [tok]) (p := p2) (p1 := p1) (fun x hx => hv x (List.mem_cons_of_mem _ hx)) ?_ h
      · simpa using this
      · rcases hg with hg | hg
        · exact m.good_parse ho hA sem (hv tok List.mem_cons_self) hg hp
        · right
          rw [parse_eq] at hp
          exact hg.mono (parseToken_logged hp rfl)
    · rename_i hne
      exact absurd h (hne _)

theorem Made.good_end (m : Made s dflt) (ho : OrdOk ord) (hA : apart ord ds = true) (sem : Sem V X E) {x0 : X} {toks : List (Tok V)}
    {fuel : Nat} {p p1 : Parser V X} {v : V} (hg : (∀ n, Good s sem x0 toks n p) ∨ Tainted p) (h : endOfInput t sem fuel p = some (.ok p1 v)) :
    (Accepted s sem x0 toks 0 p1 ∧ p1.status = .accepted v) ∨ Tainted p1 := by
  unfold endOfInput at h
  cases hp : parseToken t sem fuel p 0 ⟨0, sem.unit⟩ with
  | none => rw [hp] at h; cases h
  | some r =>
    rw [hp] at h
    cases r with
    | err => simp at h
    | panic => simp at h
    | ok p2 u =>
      simp only [Option.map_some, Option.some.injEq] at h
      split at h
      · rename_i w hw
        cases h
        rcases hg with hg | hg
        · unfold parseToken at hp
          rw [(hg 0).1] at hp
          simp only at hp
          cases hl : loop t sem 0 ⟨0, sem.unit⟩ fuel p with
          | none => rw [hl] at hp; cases hp
          | some r =>
            rw [hl] at hp
            cases r with
            | err => simp at hp
            | panic => simp at hp
            | ok p3 u =>
              simp only [Option.map_some, Option.some.injEq, Res.ok.injEq, and_true] at hp
              subst hp
              have hz : (0 : SymbolId) < s.g.syms.length := Nat.lt_of_lt_of_le Nat.zero_lt_two m.inv.two
              rw [← m.inv.dollar.2.2] at hl
              rcases m.good_loop ho hA sem hz m.inv.dollar.2.1 _ (hg _) hl with ⟨h, _⟩ | ⟨_, h⟩ | h
              · exact absurd rfl h
              · rw [m.inv.dollar.2.2] at h
                exact .inl ⟨h, hw⟩
              · exact .inr h
        · exact .inr (hg.mono (parseToken_logged hp rfl))
      · cases h

/-- An input accepted without syntax errors has a tree. -/
theorem Made.run_tree (m : Made s dflt) (ho : OrdOk ord) (hA : apart ord ds = true) (sem : Sem V X E) {x : X} {toks : List (Tok V)}
    (hv : ∀ tok ∈ toks, tok.Valid t sem) {fuel : Nat} {p : Parser V X} {v : V} (h : runAll t sem fuel x toks = some (.ok p v)) (hn : ¬ Tainted p) :
    ∃ w r kids q b, (Drive s 0 kids 0 (s.g.rhsSyms r) q ∧ s.g.CanReduce s.sts q b r ∧ t.findShift (s.num q) 0 = .ok (t.nState + r)) ∧ RuleOf s.g (s.g.start.getD 0) r ∧ GTree.yields kids = toks ∧
      GTree.eval t sem (.node r kids) x = (.ok w, p.extra) ∧ v = (if t.rootDt.isSome then w else sem.unit) ∧ (actsOfLog p.trace = GTree.post (.node r kids) ∧ Room t 1 (GTree.needs kids)) ∧
      ∀ n, t.rootDt = some n → (s.gen.gT.sym (s.g.start.getD 0)).dtNum = n := by
  unfold runAll at h
  split at h
  · cases h
  · rename_i p1 hf
    have := m.good_feed ho hA sem hv (.inl (fun n => Good.new m sem x n)) hf
    rcases m.good_end ho hA sem this h with ⟨⟨v', w, r, kids, q, b, e, h1, h2, h3, h4, h5, h6⟩, e'⟩ | h
    · rw [e'] at e
      cases e
      exact ⟨w, r, kids, q, b, h1, h2, by simpa using h3, h4, h5, h6⟩
    · exact absurd h hn
  · cases h
  · cases h

end

end Pomelo
