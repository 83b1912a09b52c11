import Verif.Proofs.Recover
import Verif.Proofs.Types
/-! # Which panics are possible -/

namespace Pomelo

open Spec

variable {V X E : Type}

section
variable {ord : List (SymbolId × SymbolId) → List (SymbolId × SymbolId)} {ds : List Decl} {t : Tables} {s : CSpec ord ds t} {dflt : SymbolId}

/-- Tag of the values of a symbol -/
def CSpec.tag (s : CSpec ord ds t) (x : SymbolId) : Nat := (s.gen.gT.sym x).dtNum

/-- The tag of a stack entry read as `Y` is that of `Y` or of the token. -/
def CSpec.Typed (s : CSpec ord ds t) (e : Entry V) (Y : SymbolId) : Prop :=
  ((s.g.sym Y).kind = .nonTerminal ∧ e.minor.tag = s.tag Y) ∨
  ∃ a b, a < s.g.syms.length ∧ (s.g.sym a).kind = .terminal ∧ a ≠ 0 ∧ Stands s.g a b ∧ Reads s.g Y b ∧ e.minor.tag = s.tag a

inductive Tags (s : CSpec ord ds t) : List (Entry V) → List SymbolId → Prop
  | base {e} : Tags s [e] []
  | push {e es γ Y} : Tags s es γ → s.Typed e Y → Tags s (e :: es) (γ ++ [Y])

theorem Tags.split {es : List (Entry V)} {γ δ : List SymbolId} (h : Tags s es (γ ++ δ)) :
    Tags s (es.drop δ.length) γ ∧ List.Forall₂ s.Typed (es.take δ.length).reverse δ := by
  induction δ using List.reverseRecOn generalizing es with
  | nil => simp only [List.append_nil] at h; exact ⟨h, by simp⟩
  | append_singleton δ Y ih =>
    rw [← List.append_assoc] at h
    generalize hγ : γ ++ δ ++ [Y] = γ' at h
    cases h with
    | base => simp at hγ
    | push h1 h2 =>
      obtain ⟨e1, e2⟩ := List.append_inj' hγ rfl
      subst e1
      obtain ⟨i1, i2⟩ := ih h1
      simp only [List.cons.injEq, and_true] at e2
      subst e2
      refine ⟨by simpa using i1, ?_⟩
      simp only [List.length_append, List.length_singleton, List.take_succ_cons, List.reverse_cons]
      exact List.rel_append i2 (List.Forall₂.cons h2 .nil)

/-- At the places with an alias only values of the type of the symbol can stand (for the rules of
symbols that are used). -/
def CSpec.AliasTyped (s : CSpec ord ds t) : Prop :=
  ∀ r, r < s.g.rules.length → ((s.g.rule r).lhs = s.g.start.getD 0 ∨ ∃ r', r' < s.g.rules.length ∧ (s.g.rule r).lhs ∈ s.g.rhsSyms r') → ∀ x ∈ (s.g.rule r).rhs, x.alias = true → ∀ a b, a < s.g.syms.length → (s.g.sym a).kind = .terminal → a ≠ 0 →
    Stands s.g a b → Reads s.g x.sym b → s.tag a = s.tag x.sym

/-- The accept code expects the type of the start symbol. -/
def CSpec.RootTyped (s : CSpec ord ds t) : Prop := ∀ n, t.rootDt = some n → s.tag (s.g.start.getD 0) = n

theorem matchPats_typed {gT : Grammar} {P : Entry V → SymbolId → Prop} {rhs : List RhsSym} {es : List (Entry V)} (h : List.Forall₂ P es (rhs.map (·.sym)))
    (hp : ∀ x ∈ rhs, x.alias = true → ∀ e, P e x.sym → e.minor.tag = (gT.sym x.sym).dtNum) :
    ∃ vs, matchPats (rhs.map (fun s => if s.alias then some (gT.sym s.sym).dtNum else none)) es = some vs := by
  induction rhs generalizing es with
  | nil => exact ⟨[], rfl⟩
  | cons x rhs ih =>
    cases es with
    | nil => cases h
    | cons e es =>
      simp only [List.map_cons, List.forall₂_cons] at h
      obtain ⟨vs, hvs⟩ := ih h.2 (fun x hx => hp x (List.mem_cons_of_mem _ hx))
      rw [List.map_cons]
      cases ha : x.alias with
      | false => exact ⟨vs, by simpa [matchPats] using hvs⟩
      | true =>
        refine ⟨e.minor.val :: vs, ?_⟩
        simp only [if_true, matchPats, hp x List.mem_cons_self ha e h.1, hvs, Option.map_some]

/-- The state of a parser between two moves -/
def Sound (s : CSpec ord ds t) (p : Parser V X) : Prop := p.status = .normal ∧ ∃ γ q, Stk s p.stack γ q ∧ Tags s p.stack γ

/-- The panics that cannot be excluded -/
def CSpec.Excused (s : CSpec ord ds t) (w : Panic) : Prop := (w = .pattern ∧ ¬ s.AliasTyped) ∨ (w = .rootType ∧ ¬ s.RootTyped)

theorem Made.safe_reduce (m : Made s dflt) (sem : Sem V X E) {p : Parser V X} (hst : p.status = .normal) {γ : List SymbolId} {q : StateId}
    (hs : Stk s p.stack γ q) (ht : Tags s p.stack γ) {r : RuleId} (hr : (⟨r, (s.g.rhsSyms r).length⟩ : Item) ∈ items (cfgs s.sts q)) :
    (∀ w, reduce t sem p r = .panic w → s.Excused w) ∧
    (∀ p1, reduce t sem p r = .ok p1 () → Sound s p1 ∨ ((s.g.rule r).lhs = s.g.start.getD 0 ∧ ∃ v, p1.status = .accepted v)) := by
  have hql := Path.lt m.auto hs.path
  have hrl := m.auto.item_rule m.inv hql hr
  have hrs : s.gen.gT.rules = s.g.rules := (assignTypes_shape s.gen.assign).2.1
  obtain ⟨rc, hrc, htc, hpl, hcase⟩ := m.reduce_stk sem hs hr
  rcases hcase with ⟨hno, e⟩ | ⟨vs, hvs, hcase⟩
  · refine ⟨fun w hw => ?_, fun p1 hp => by rw [e] at hp; cases hp⟩
    rw [e] at hw; cases hw
    left
    refine ⟨rfl, fun hal => ?_⟩
    obtain ⟨γ0, q0, rfl, hs0, hgo⟩ := m.complete hs hr
    have hused : (s.g.rule r).lhs = s.g.start.getD 0 ∨ ∃ r', r' < s.g.rules.length ∧ (s.g.rule r).lhs ∈ s.g.rhsSyms r' := by
      rcases hgo with ⟨_, _, h⟩ | ⟨k, h⟩
      · exact .inl h
      · exact .inr (h.rhs m.inv m.auto)
    obtain ⟨_, h2⟩ := ht.split
    have hpats := translateCode_pats htc
    obtain ⟨vs, hvs⟩ := matchPats_typed (gT := s.gen.gT) (rhs := (s.g.rule r).rhs) (es := (p.stack.take rc.pats.length).reverse) (by rw [hpl]; exact h2) (by
      intro x hx ha e he
      rcases he with ⟨_, he⟩ | ⟨a, b, h1, h2, h3, h4, h5, h6⟩
      · exact he
      · rw [h6]; exact hal r hrl hused x hx ha a b h1 h2 h3 h4 h5)
    have : rc.pats = (s.g.rule r).rhs.map (fun y => if y.alias then some (s.gen.gT.sym y.sym).dtNum else none) := by rw [hpats]
    rw [← this] at hvs
    rw [hvs] at hno; cases hno
  rcases hcase with ⟨e, x, _, e'⟩ | ⟨v, x, γ0, q0, hrun, rfl, hs0, hcase⟩
  · exact ⟨fun w hw => (by rw [e'] at hw; cases hw), fun p1 hp => by rw [e'] at hp; cases hp⟩
  have htag : rc.lhsDt = s.tag (s.g.rule r).lhs := by rw [translateCode_pats htc]; rfl
  rcases hcase with ⟨rfl, rfl, hl, e⟩ | ⟨k, hk, e⟩
  · rw [e]
    unfold accept
    split
    · rename_i n hn
      split
      · refine ⟨fun w hw => (by cases hw), fun p1 hp => .inr ⟨hl, ?_⟩⟩
        simp only [Res.ok.injEq, and_true] at hp
        subst hp; exact ⟨_, rfl⟩
      · rename_i hne
        refine ⟨fun w hw => ?_, fun p1 hp => by cases hp⟩
        cases hw
        refine .inr ⟨rfl, fun hrt => hne ?_⟩
        rw [htag, hl]; exact hrt n hn
    · refine ⟨fun w hw => (by cases hw), fun p1 hp => .inr ⟨hl, ?_⟩⟩
      simp only [Res.ok.injEq, and_true] at hp
      subst hp; exact ⟨_, rfl⟩
  · rw [e]
    rcases shift_cases t sem { p with stack := p.stack.drop rc.pats.length, extra := x, trace := .reduce r vs :: p.trace } (s.num k) (s.g.sym (s.g.rule r).lhs).index ⟨rc.lhsDt, v⟩ with ⟨_, _, hsh⟩ | ⟨_, hsh⟩
    · rw [hsh]; exact ⟨fun w hw => (by cases hw), fun p1 hp => (by cases hp)⟩
    · rw [hsh]
      refine ⟨fun w hw => (by cases hw), fun p1 hp => .inl ?_⟩
      simp only [Res.ok.injEq, and_true] at hp
      subst hp
      have hkl := (m.inv.lhs r hrl).2.1
      refine ⟨hst, γ0 ++ [(s.g.rule r).lhs], k, .push hs0 hk rfl (.inl ⟨hkl, rfl⟩), .push ?_ (.inl ⟨hkl, htag⟩)⟩
      rw [hpl]; exact ht.split.1

theorem Made.expected_ok (m : Made s dflt) (hA : apart ord ds = true) (hfb : s.g.FbEnds) {q : StateId} (hq : q < s.sts.length) :
    ∃ ex, t.expected (s.num q) = .ok ex := by
  have key : ∀ (l acc : List Nat), (∀ n ∈ l, 0 < n ∧ n < t.numTerminals) → ∃ ex, l.filterAuxM (fun la =>
      (t.findShift (s.num q) la).map (fun a => decide (a < t.nState + t.nRule))) acc = .ok ex := by
    intro l
    induction l with
    | nil => intro acc _; exact ⟨acc, rfl⟩
    | cons n l ih =>
      intro acc hl
      obtain ⟨h0, hn⟩ := hl n List.mem_cons_self
      obtain ⟨a, ha, hk, hi, _⟩ := m.token h0 hn
      obtain ⟨d, hd⟩ := pick_exists (l := s.acts'.getD q []) (dflt := dflt) (hfb a ha)
      have hf := m.tok_lookup hA hq hd ha (by rw [hk]; simp)
      rw [hi] at hf
      simp only [List.filterAuxM, hf, Except.map, bind, Except.bind]
      exact ih _ (fun n hn => hl n (List.mem_cons_of_mem _ hn))
  have key : ∀ l : List Nat, (∀ n ∈ l, 0 < n ∧ n < t.numTerminals) → ∃ ex, l.filterM (fun la =>
      (t.findShift (s.num q) la).map (fun a => decide (a < t.nState + t.nRule))) = .ok ex := by
    intro l hl
    obtain ⟨ex, hex⟩ := key l [] hl
    exact ⟨ex.reverse, by simp only [List.filterM, hex, bind, Except.bind, pure, Except.pure]⟩
  refine key _ ?_
  intro n hn
  obtain ⟨i, hi, rfl⟩ := List.getElem_of_mem hn
  simp only [List.length_drop, List.length_range] at hi
  simp only [List.getElem_drop, List.getElem_range]
  omega

theorem Made.err_facts (m : Made s dflt) (he : t.errorSymbol ≠ 0) : t.errorSymbol = (s.g.sym 1).index ∧ 1 < s.g.syms.length ∧
    (s.g.sym 1).kind = .nonTerminal ∧ (1 : SymbolId) ≠ dflt ∧ t.errorDt = s.tag 1 := by
  refine ⟨?_, m.inv.two, m.inv.err.2, ?_, ?_⟩
  · rcases m.tab.errorSymbol with h | h
    · exact absurd h he
    · rw [h, m.inv.errSym]
  · rintro rfl
    have := m.dname
    rw [m.inv.err.1] at this; cases this
  · rw [s.gen.errorDt, s.gen.shape.errSym, m.inv.errSym]; rfl

/-- Recovery does not panic, and leaves nothing or a stack as before. -/
theorem Made.safe_recover (m : Made s dflt) (hA : apart ord ds = true) (he : t.errorSymbol ≠ 0) (sem : Sem V X E) (major : Nat) (mn : Minor V) (ex : List Nat) :
    ∀ {es : List (Entry V)} {p : Parser V X}, p.status = .normal → (es = [] ∨ ∃ γ q, Stk s es γ q ∧ Tags s es γ) →
    (∀ w, recover t sem major mn ex es p ≠ .panic w) ∧
    (∀ p1, recover t sem major mn ex es p = .ok p1 () → p1.status = .normal ∧ (p1.stack = [] ∨ ∃ γ q, Stk s p1.stack γ q ∧ Tags s p1.stack γ)) := by
  obtain ⟨e1, e2, e3, e4, e5⟩ := m.err_facts he
  intro es
  induction es with
  | nil =>
    intro p hst _
    refine ⟨fun w h => (by cases h), fun p1 h => ?_⟩
    simp only [recover, Res.ok.injEq, and_true] at h
    subst h; exact ⟨hst, .inl rfl⟩
  | cons top rest ih =>
    intro p hst hs
    obtain ⟨γ, q, hs, ht⟩ : ∃ γ q, Stk s (top :: rest) γ q ∧ Tags s (top :: rest) γ := by
      rcases hs with h | h
      · cases h
      · exact h
    have hql := Path.lt m.auto hs.path
    have htop := hs.top m
    unfold recover
    split
    · refine ⟨fun w h => (by cases h), fun p1 h => ?_⟩
      simp only [Res.ok.injEq, and_true] at h
      subst h; exact ⟨hst, .inr ⟨γ, q, hs, ht⟩⟩
    · obtain ⟨c, hc, hk⟩ := m.goto_any hA he hql e2 e3 e4
      rw [htop, e1, hc]
      simp only
      split
      · rename_i hlt
        obtain ⟨k, rfl, htr⟩ := hk hlt
        have hse : ∃ p0, ({ p with stack := top :: rest } : Parser V X) = p0 := ⟨_, rfl⟩
        cases hsx : syntaxError t sem { p with stack := top :: rest } major mn ex with
        | panic w =>
          simp only [syntaxError] at hsx
          split at hsx <;> cases hsx
        | err p1 e => exact ⟨fun w h => (by cases h), fun p1 h => (by cases h)⟩
        | ok p1 v =>
          simp only
          have hp1 : p1.stack = top :: rest ∧ p1.status = .normal ∧ v.tag = t.errorDt := by
            simp only [syntaxError] at hsx
            split at hsx
            · simp only [Res.ok.injEq] at hsx
              obtain ⟨rfl, rfl⟩ := hsx
              exact ⟨rfl, hst, rfl⟩
            · cases hsx
          obtain ⟨p1s, p1n, p1t⟩ := hp1
          rcases shift_cases t sem p1 (s.num k) (s.g.sym 1).index v with ⟨_, _, hsh⟩ | ⟨_, hsh⟩
          · rw [hsh]; exact ⟨fun w hw => (by cases hw), fun p1 hp => (by cases hp)⟩
          · rw [hsh]
            refine ⟨fun w hw => (by cases hw), fun p2 hp => ?_⟩
            simp only [Res.ok.injEq, and_true] at hp
            subst hp
            refine ⟨p1n, .inr ⟨γ ++ [1], k, ?_, ?_⟩⟩
            · simp only [p1s]
              exact .push hs htr rfl (.inl ⟨e3, rfl⟩)
            · simp only [p1s]
              exact .push ht (.inl ⟨e3, by simp only; rw [p1t, e5]⟩)
      · refine ih hst ?_
        cases hs with
        | base => exact .inl rfl
        | push h1 _ _ _ =>
          generalize hγ : _ ++ [_] = γ' at ht
          cases ht with
          | base => simp at hγ
          | push h2 _ =>
            obtain ⟨e1, _⟩ := List.append_inj' hγ rfl
            subst e1
            exact .inr ⟨_, _, h1, h2⟩

theorem Made.safe_onError (m : Made s dflt) (hA : apart ord ds = true) (hfb : s.g.FbEnds) (sem : Sem V X E) {p : Parser V X} (h : Sound s p)
    {top : Entry V} {q : StateId} (hq : q < s.sts.length) (htop : top.state = s.num q) (major : Nat) (mn : Minor V) :
    (∀ w, onError t sem p top major mn ≠ .panic w) ∧ (∀ p1, onError t sem p top major mn = .ok p1 () → major ≠ 0 ∧ Sound s p1) := by
  obtain ⟨hst, γ, q0, hs, ht⟩ := h
  unfold onError
  split
  · simp
  · rename_i h0
    obtain ⟨ex, hex⟩ := m.expected_ok hA hfb hq
    rw [htop, hex]
    simp only
    split
    · rename_i he
      obtain ⟨r1, r2⟩ := m.safe_recover hA he sem major mn ex (es := p.stack) (p := p) hst (.inr ⟨γ, q0, hs, ht⟩)
      cases hr : recover t sem major mn ex p.stack p with
      | panic w => exact absurd hr (r1 w)
      | err p1 e => simp
      | ok p1 u =>
        obtain ⟨h1, h2⟩ := r2 p1 hr
        simp only
        cases hp1 : p1.stack with
        | nil => simp
        | cons a b =>
          refine ⟨by simp, fun p2 hp2 => ⟨h0, ?_⟩⟩
          simp only [Res.ok.injEq, and_true] at hp2
          subst hp2
          rcases h2 with h2 | ⟨γ, q, h2, h3⟩
          · rw [h2] at hp1; cases hp1
          · rw [← hp1]; exact ⟨h1, γ, q, h2, h3⟩
    · split
      · cases hsx : syntaxError t sem p major mn ex with
        | panic w =>
          simp only [syntaxError] at hsx
          split at hsx <;> cases hsx
        | err p1 e => simp
        | ok p1 v =>
          refine ⟨by simp, fun p2 hp2 => ⟨h0, ?_⟩⟩
          simp only [Res.ok.injEq, and_true] at hp2
          subst hp2
          simp only [syntaxError] at hsx
          split at hsx
          · simp only [Res.ok.injEq] at hsx
            obtain ⟨rfl, rfl⟩ := hsx
            exact ⟨hst, γ, q0, hs, ht⟩
          · cases hsx
      · refine ⟨by simp, fun p2 hp2 => ⟨h0, ?_⟩⟩
        simp only [Res.ok.injEq, and_true] at hp2
        subst hp2
        exact ⟨hst, γ, q0, hs, ht⟩

theorem Made.safe_step (m : Made s dflt) (ho : OrdOk ord) (hA : apart ord ds = true) (hfb : s.g.FbEnds) (sem : Sem V X E) {p : Parser V X} (h : Sound s p)
    {a : SymbolId} (ha : a < s.g.syms.length) (hk : (s.g.sym a).kind = .terminal) {mn : Minor V} (hm : a ≠ 0 → mn.tag = s.tag a) :
    (∀ w, step t sem p (s.g.sym a).index mn = .done (.panic w) → s.Excused w) ∧
    (∀ p1, step t sem p (s.g.sym a).index mn = .again p1 → Sound s p1 ∨ (a = 0 ∧ ∃ v, p1.status = .accepted v)) ∧
    (∀ p1, step t sem p (s.g.sym a).index mn = .done (.ok p1 ()) → a ≠ 0 ∧ Sound s p1) := by
  have hsd := h
  obtain ⟨hst, γ, q, hs, ht⟩ := h
  have hql := Path.lt m.auto hs.path
  obtain ⟨top, rest, hd, htop, hcase⟩ := m.step_stk ho hA sem hs ha hk mn
  rcases hcase with ⟨w, hf, e⟩ | ⟨k, Y, b, ha0, hfs, h1, h2, h3, hcase⟩ | ⟨r, b, hfs, h1, h2, hcase⟩ | ⟨_, e⟩
  · obtain ⟨d, hd⟩ := pick_exists (l := s.acts'.getD q []) (dflt := dflt) (hfb a ha)
    rw [m.tok_lookup hA hql hd ha (by rw [hk]; simp)] at hf
    cases hf
  · rcases hcase with ⟨p1, e, _, e'⟩ | ⟨_, e⟩
    · rw [e']; simp
    · rw [e]
      refine ⟨by simp, by simp, fun p1 hp => ⟨ha0, ?_⟩⟩
      simp only [Step.done.injEq, Res.ok.injEq, and_true] at hp
      subst hp
      exact ⟨hst, γ ++ [Y], k, .push hs h3 rfl (.inr ⟨a, b, ha, hk, ha0, rfl, h1, h2⟩), .push ht (.inr ⟨a, b, ha, hk, ha0, h1, h2, hm ha0⟩)⟩
  · have hr := (canReduce_rule m.inv m.auto h1).2.2
    obtain ⟨r1, r2⟩ := m.safe_reduce sem hst hs ht hr
    rcases hcase with ⟨w, hw, e⟩ | ⟨p1, e, _, e'⟩ | ⟨p1, hr, e⟩
    · rw [e]
      refine ⟨fun w' hw' => ?_, by simp, by simp⟩
      simp only [Step.done.injEq, Res.panic.injEq] at hw'
      subst hw'; exact r1 w hw
    · rw [e']; simp
    · rw [e]
      refine ⟨by simp, fun p2 hp => ?_, by simp⟩
      simp only [Step.again.injEq] at hp
      subst hp
      rcases r2 p1 hr with h | ⟨h, h'⟩
      · exact .inl h
      · exact .inr ⟨h2 h, h'⟩
  · rw [e]
    obtain ⟨o1, o2⟩ := m.safe_onError hA hfb sem hsd hql htop (s.g.sym a).index mn
    refine ⟨fun w hw => ?_, by simp, fun p1 hp => ?_⟩
    · simp only [Step.done.injEq] at hw
      exact absurd hw (o1 w)
    · simp only [Step.done.injEq] at hp
      obtain ⟨h1, h2⟩ := o2 p1 hp
      refine ⟨?_, h2⟩
      rintro rfl
      exact h1 m.inv.dollar.2.2

/-- What one call of the parse loop can do -/
theorem Made.safe_loop (m : Made s dflt) (ho : OrdOk ord) (hA : apart ord ds = true) (hfb : s.g.FbEnds) (sem : Sem V X E)
    {a : SymbolId} (ha : a < s.g.syms.length) (hk : (s.g.sym a).kind = .terminal) {mn : Minor V} (hm : a ≠ 0 → mn.tag = s.tag a) :
    ∀ {fuel : Nat} {p : Parser V X}, Sound s p →
    (∀ w, loop t sem (s.g.sym a).index mn fuel p = some (.panic w) → s.Excused w) ∧
    (∀ p1, loop t sem (s.g.sym a).index mn fuel p = some (.ok p1 ()) → (a ≠ 0 ∧ Sound s p1) ∨ (a = 0 ∧ ∃ v, p1.status = .accepted v)) := by
  intro fuel
  induction fuel with
  | zero => intro p _; exact ⟨fun w h => (by cases h), fun p1 h => by cases h⟩
  | succ fuel ih =>
    intro p hp
    obtain ⟨s1, s2, s3⟩ := m.safe_step ho hA hfb sem hp ha hk hm
    simp only [loop, hp.1]
    cases hst : step t sem p (s.g.sym a).index mn with
    | done r =>
      simp only [Option.some.injEq]
      refine ⟨fun w h => s1 w (by rw [hst, h]), fun p1 h => .inl (s3 p1 (by rw [hst, h]))⟩
    | again p1 =>
      simp only
      rcases s2 p1 hst with h | ⟨h, v, hv⟩
      · exact ih h
      · cases fuel with
        | zero => exact ⟨fun w h => (by cases h), fun p1 h => by cases h⟩
        | succ fuel =>
          simp only [loop, hv, Option.some.injEq]
          refine ⟨fun w h => (by cases h), fun p2 h' => .inr ⟨h, v, ?_⟩⟩
          simp only [Res.ok.injEq, and_true] at h'
          subst h'; exact hv

theorem Made.token_tag (m : Made s dflt) {a : SymbolId} (ha : a < s.g.syms.length) (hk : (s.g.sym a).kind = .terminal) :
    t.tokenDt.getD (s.g.sym a).index 0 = s.tag a := by
  obtain ⟨p1, p2⟩ := m.inv.perm a ha
  have hlt := (m.inv.term a ha).1 hk
  rw [s.gen.tokenDt, s.gen.shape.symbols, s.gen.shape.nterm, List.getD_eq_getElem?_getD, List.getElem?_map, List.getElem?_take, if_pos hlt]
  have hl : (s.g.sym a).index < s.g.symbols.length := by rw [m.inv.slen]; exact p1
  rw [getD_of_lt hl] at p2
  rw [List.getElem?_eq_getElem hl, p2]
  rfl

theorem Made.safe_parse (m : Made s dflt) (ho : OrdOk ord) (hA : apart ord ds = true) (hfb : s.g.FbEnds) (sem : Sem V X E) {p : Parser V X} (hp : Sound s p)
    {tok : Tok V} (hv : tok.Valid t sem) (fuel : Nat) :
    (∀ w, parse t sem fuel p tok = some (.panic w) → s.Excused w) ∧
    (∀ p1 e, parse t sem fuel p tok = some (.err p1 e) → p1.status = .failed) ∧
    (∀ p1, parse t sem fuel p tok = some (.ok p1 ()) → Sound s p1) := by
  obtain ⟨a, ha, hk, hi, h0⟩ := m.token hv.pos hv.lt
  have htag := m.token_tag ha hk
  rw [hi] at htag
  obtain ⟨l1, l2⟩ := m.safe_loop ho hA hfb sem ha hk (mn := (t.tokenValue sem tok).2) (fun _ => htag) (fuel := fuel) hp
  rw [hi] at l1 l2
  have hpe : parse t sem fuel p tok = parseToken t sem fuel p tok.major (t.tokenValue sem tok).2 := rfl
  rw [hpe]
  refine ⟨fun w h => ?_, fun p1 e h => ?_, fun p1 h => ?_⟩ <;> rcases parseToken_inv h with ⟨h1, h2⟩ | ⟨_, r', h1, h2⟩
  · exact absurd hp.1 h2
  · rcases h2 with ⟨_, _, _, h2⟩ | ⟨_, h2⟩
    · cases h2
    · subst h2; exact l1 w h1
  · cases h1
  · rcases h2 with ⟨p2, e2, _, h2⟩ | ⟨h3, h2⟩
    · simp only [Res.err.injEq] at h2
      rw [h2.1]
    · exact absurd h2.symm (h3 p1 e)
  · cases h1
  · rcases h2 with ⟨_, _, _, h2⟩ | ⟨_, h2⟩
    · cases h2
    · subst h2
      rcases l2 p1 h1 with h | h
      · exact h.2
      · exact absurd h.1 h0

theorem Made.safe_end (m : Made s dflt) (ho : OrdOk ord) (hA : apart ord ds = true) (hfb : s.g.FbEnds) (sem : Sem V X E) {p : Parser V X} (hp : Sound s p)
    (fuel : Nat) : ∀ w, endOfInput t sem fuel p = some (.panic w) → s.Excused w := by
  have h0 : (0 : SymbolId) < s.g.syms.length := Nat.lt_of_lt_of_le Nat.zero_lt_two m.inv.two
  obtain ⟨l1, l2⟩ := m.safe_loop ho hA hfb sem h0 m.inv.dollar.2.1 (mn := ⟨0, sem.unit⟩) (fun h => absurd rfl h) (fuel := fuel) hp
  rw [m.inv.dollar.2.2] at l1 l2
  intro w h
  unfold endOfInput at h
  rw [Option.map_eq_some_iff] at h
  obtain ⟨r, hr, h⟩ := h
  rcases parseToken_inv hr with ⟨_, h2⟩ | ⟨_, r', h1, h2⟩
  · exact absurd hp.1 h2
  · rcases h2 with ⟨_, _, _, h2⟩ | ⟨_, h2⟩
    · subst h2; simp at h
    · subst h2
      cases r with
      | panic w' =>
        simp only [Res.panic.injEq] at h
        subst h; exact l1 w' h1
      | err p1 e => simp at h
      | ok p1 u =>
        rcases l2 p1 h1 with h' | ⟨_, v, hv⟩
        · exact absurd rfl h'.1
        · simp [hv] at h

theorem Sound.new (_ : Made s dflt) (sem : Sem V X E) (x : X) : Sound s (Parser.new sem x) := ⟨rfl, [], 0, .base rfl rfl, .base⟩

/-- Every parser that can be reached is in a proper state or has failed. -/
theorem Made.reach_sound (m : Made s dflt) (ho : OrdOk ord) (hA : apart ord ds = true) (hfb : s.g.FbEnds) (sem : Sem V X E) {p : Parser V X} (h : Reach t sem p) :
    Sound s p ∨ p.status = .failed := by
  induction h with
  | new x => exact .inl (Sound.new m sem x)
  | extra x _ ih =>
    rcases ih with ⟨h1, γ, q, h2, h3⟩ | h
    · exact .inl ⟨h1, γ, q, h2, h3⟩
    · exact .inr h
  | @parse p p' tok fuel r _ hv hr hp ih =>
    rcases ih with ih | ih
    · obtain ⟨s1, s2, s3⟩ := m.safe_parse ho hA hfb sem ih hv fuel
      cases r with
      | ok p1 u => cases hp; exact .inl (s3 _ hr)
      | err p1 e => cases hp; exact .inr (s2 _ e hr)
      | panic w => cases hp
    · have hpe : parse t sem fuel p tok = some (.panic .afterFailure) := by
        show parseToken t sem fuel p _ _ = _
        unfold parseToken
        rw [ih]
      rw [hpe] at hr
      cases hr; cases hp

end

end Pomelo
