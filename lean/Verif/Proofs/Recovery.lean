import Verif.Spec.Recovery
import Verif.Proofs.Safe
import Verif.Proofs.Root
import Verif.Proofs.RunErrors
import Verif.Proofs.Forms
/-! # Runs with syntax errors, on a row of trees -/

namespace Pomelo

open Spec

variable {V X E : Type}

theorem rfits_cons {ds : List Decl} {names : List SymName} {T : RTree V} {e : RhsElem} {ts : List (RTree V)} {es : List RhsElem}
    (h : RFits ds names [T] [e]) (h' : RFits ds names ts es) : RFits ds names (T :: ts) (e :: es) := by
  cases h with
  | tok h1 h2 h3 _ => exact .tok h1 h2 h3 h'
  | error _ => exact .error h'
  | absent _ => exact .absent h'
  | present h1 _ => exact .present h1 h'
  | rule h1 h2 _ => exact .rule h1 h2 h'

section
variable {ord : List (SymbolId × SymbolId) → List (SymbolId × SymbolId)} {ds : List Decl} {t : Tables} {s : CSpec ord ds t} {dflt : SymbolId}

/-- The tree is one for the symbol `Y`. -/
def TreeFor (b : Bridge ord ds s.g) (P : RTree V × V) (Y : SymbolId) : Prop :=
  (Y < b.gD.syms.length → ∀ e, ElemSym b.gD e Y → RFits ds t.tokenNames [P.1] [e]) ∧ (Y = 1 → IsErr ds P.1)

theorem rfits_row (b : Bridge ord ds s.g) {K : List (RTree V × V)} {δ : List SymbolId} (h : List.Forall₂ (TreeFor b) K δ)
    (hlt : ∀ Y ∈ δ, Y < b.gD.syms.length) {es : List RhsElem} (he : List.Forall₂ (ElemSym b.gD) es δ) : RFits ds t.tokenNames (K.map (·.1)) es := by
  induction h generalizing es with
  | nil => cases he; exact .nil
  | cons h1 _ ih =>
    cases he with
    | cons e1 e2 =>
      exact rfits_cons (h1.1 (hlt _ List.mem_cons_self) _ e1) (ih (fun Y hY => hlt Y (List.mem_cons_of_mem _ hY)) e2)

theorem Made.treeFor_tok (m : Made s dflt) (b : Bridge ord ds s.g) {tok : Tok V} {a c Y : SymbolId} (h1 : a < s.g.syms.length) (h2 : (s.g.sym a).kind = .terminal)
    (h3 : a ≠ 0) (h4 : tok.major = (s.g.sym a).index) (h5 : Stands s.g a c) (h6 : Reads s.g Y c) (v : V) : TreeFor b (.tok tok, v) Y := by
  refine ⟨fun hY e he => ?_, ?_⟩
  · have haD : a < b.gD.syms.length := b.dropped m.inv h1 (by
      intro e
      have hk := m.inv.kinds a h1
      rw [h2, e] at hk; simp [kindOk] at hk)
    have hname : ∃ i, (b.gD.sym a).name = .ident i ∧ (b.gD.sym a).name.isTok = true := by
      have hk := m.inv.kinds a h1
      rw [h2, b.name haD] at hk
      have hd : (b.gD.sym a).name ≠ .dollar := by
        intro e
        exact h3 (b.dinv.names a 0 haD (Nat.lt_of_lt_of_le Nat.zero_lt_two b.dinv.two) (by rw [e, b.dinv.dollar]) (by rw [e]; simp))
      revert hk hd
      cases (b.gD.sym a).name with
      | ident i => cases i <;> simp [kindOk, SymName.isTok]
      | dollar => simp
      | _ => simp [kindOk]
    obtain ⟨i, hi, hti⟩ := hname
    obtain ⟨hc, j, hj, htk⟩ := b.stands_name h5 haD hi
    obtain ⟨c', hc', hj', _, htc⟩ := b.taken_stands htk haD hi
    have hcc : c' = c := b.dinv.names c' c hc' hc (by rw [hj', hj]) (by rw [hj']; simp)
    subst hcc
    refine .tok (i := i) (j := j) ?_ htk ((b.reads_matches hY he hc hj (htc hti)).1 h6) .nil
    rw [h4, m.tokenName h1 h2, b.name haD, hi]
  · rintro rfl
    unfold Reads at h6
    rw [m.inv.err.2] at h6
    exact h6.elim

/-- The row of trees on the stack of a parser -/
structure Row (s : CSpec ord ds t) (b : Bridge ord ds s.g) (sem : Sem V X E) (x0 : X) (toks : List (Tok V)) (p : Parser V X)
    (γ : List SymbolId) (q : StateId) (F : List (RTree V × V)) : Prop where
  stk : Stk s p.stack γ q
  run : Recovery ds sem (decide (t.errorSymbol ≠ 0)) x0 toks F p.extra (rmovesOf (rulesOf ds).length p.trace)
  vals : F.map (·.2) = stackVals p.stack
  trees : List.Forall₂ (TreeFor b) F γ

theorem row_split {b : Bridge ord ds s.g} {es : List (Entry V)} {γ δ : List SymbolId} {q : StateId} {F : List (RTree V × V)} (hs : Stk s es (γ ++ δ) q)
    (hv : F.map (·.2) = stackVals es) (ht : List.Forall₂ (TreeFor b) F (γ ++ δ)) :
    ∃ A K, F = A ++ K ∧ List.Forall₂ (TreeFor b) A γ ∧ List.Forall₂ (TreeFor b) K δ ∧
      A.map (·.2) = stackVals (es.drop δ.length) ∧ K.map (·.2) = (es.take δ.length).reverse.map (·.minor.val) := by
  obtain ⟨A, K, rfl, h1, h2⟩ := forall₂_split ht
  have hl : δ.length < es.length := by rw [hs.length, List.length_append]; omega
  rw [stackVals_split hl, List.map_append] at hv
  obtain ⟨e1, e2⟩ := List.append_inj' hv (by
    rw [List.length_map, List.length_map, List.length_reverse, List.length_take, h2.length_eq]; omega)
  exact ⟨A, K, rfl, h1, h2, e1, e2⟩

theorem rmovesOf_cons (n : Nat) (e : Event V) (log : List (Event V)) : rmovesOf n (e :: log) = rmovesOf n log ++ rmovesOf n [e] := by
  unfold rmovesOf
  rw [List.reverse_cons, List.filterMap_append]; rfl

/-- What a reduction does with the row of trees -/
theorem Made.row_reduce (m : Made s dflt) (ho : OrdOk ord) (b : Bridge ord ds s.g) (sem : Sem V X E) {x0 x' : X} {toks : List (Tok V)}
    {A K : List (RTree V × V)} {γ0 : List SymbolId} {r : RuleId} (hr : r < s.g.rules.length) {x : X} {log : List (Event V)}
    (hrun : Recovery ds sem (decide (t.errorSymbol ≠ 0)) x0 toks (A ++ K) x (rmovesOf (rulesOf ds).length log))
    (hK : List.Forall₂ (TreeFor b) K (s.g.rhsSyms r)) (hA : List.Forall₂ (TreeFor b) A γ0) {v : V} (vs : List V)
    (hv : runCode sem (s.g.rule r).code (select ((s.g.rule r).rhs.map (·.alias)) (K.map (·.2))) x = (.ok v, x')) :
    ∃ T, Recovery ds sem (decide (t.errorSymbol ≠ 0)) x0 toks (A ++ [(T, v)]) x' (rmovesOf (rulesOf ds).length (.reduce r vs :: log)) ∧
      List.Forall₂ (TreeFor b) (A ++ [(T, v)]) (γ0 ++ [(s.g.rule r).lhs]) := by
  have hlog : rmovesOf (rulesOf ds).length (.reduce r vs :: log) = rmovesOf (rulesOf ds).length log ++ (if r < (rulesOf ds).length then [.rule r] else []) := by
    rw [rmovesOf_cons]
    congr 1
    simp only [rmovesOf, List.reverse_singleton, List.filterMap_cons, List.filterMap_nil]
    split <;> simp_all
  rw [hlog]
  by_cases hn : r < (rulesOf ds).length
  · obtain ⟨u, hu⟩ : ∃ u, (rulesOf ds)[r]? = some u := ⟨_, List.getElem?_eq_getElem hn⟩
    obtain ⟨_, w1, w2, w3, w4, w5⟩ := b.written ho hu
    have hval : ruleValue ds sem u (K.map (·.2)) x = runCode sem (s.g.rule r).code (select ((s.g.rule r).rhs.map (·.alias)) (K.map (·.2))) x := by
      unfold ruleValue
      rcases w5 with ⟨n, c1, c2, c3⟩ | ⟨c1, c2, c3, c4⟩ | ⟨c1, c2, c3, c4, _⟩
      · rw [c1, c2, c3]; rfl
      · rw [c1, c2, c3]; rfl
      · rw [c1, c2, c3, c4]; rfl
    rw [if_pos hn]
    refine ⟨.rule r (K.map (·.1)), .rule hrun hu ?_ (by rw [hval, hv]), ?_⟩
    · rw [hK.length_eq, w3.length_eq]
    · refine List.rel_append hA (.cons ⟨fun _ e he => ?_, fun h => .inr ⟨r, _, u, rfl, hu, ?_⟩⟩ .nil)
      · rcases e with ⟨toks, opt, al⟩
        rcases he with ⟨tok, e1, e2, e3⟩ | ⟨tok, symR, e1, e2, e3, e4, e5⟩ | ⟨e1, e2, e3⟩
        · simp only at e1 e2
          rw [w2] at e3
          cases e3
          subst e1 e2
          exact .rule hu (rfits_row b hK w4 w3) .nil
        · obtain ⟨_, _, _, k, _, hn⟩ := b.opt_name e4
          rw [w2] at hn; cases hn
        · rw [w2] at e2; cases e2
      · have := m.inv.err.1
        rw [← h, b.name w1, w2] at this
        injection this
  · rw [if_neg hn, List.append_nil]
    obtain ⟨o, o1, o2, o3⟩ := b.unwritten ho hr (Nat.le_of_not_lt hn)
    obtain ⟨l1, l2, _, k, _, hnm⟩ := b.opt_name o1
    have herr : (s.g.rule r).lhs ≠ 1 := by
      intro e
      have h1 : (s.g.sym 1).name = .ident .error := m.inv.err.1
      have hD : (1 : Nat) < b.gD.syms.length := b.dropped m.inv m.inv.two (by rw [h1]; simp)
      rw [o2] at e
      rw [e] at hnm
      rw [b.name hD, hnm] at h1
      cases h1
    rcases o3 with ⟨o3, o4⟩ | ⟨o3, o4⟩
    · have hK0 : K = [] := by
        have := hK.length_eq
        unfold Grammar.rhsSyms at this
        rw [o3] at this
        exact List.eq_nil_of_length_eq_zero this
      subst hK0
      rw [o4] at hv
      simp only [runCode, Prod.mk.injEq, Except.ok.injEq] at hv
      obtain ⟨rfl, rfl⟩ := hv
      rw [List.append_nil] at hrun
      refine ⟨.absent, .absent hrun, List.rel_append hA (.cons ⟨fun _ e he => ?_, fun h => absurd h herr⟩ .nil)⟩
      rcases e with ⟨toks, opt, al⟩
      rw [o2] at he
      rcases he with ⟨tok, e1, e2, e3⟩ | ⟨tok, symR, e1, e2, e3, e4, e5⟩ | ⟨e1, e2, e3⟩
      · rw [hnm] at e3; cases e3
      · simp only at e1 e2
        subst e1 e2
        exact .absent .nil
      · rw [hnm] at e2; cases e2
    · have hsy : s.g.rhsSyms r = [o.1] := by unfold Grammar.rhsSyms; rw [o3]; rfl
      rw [hsy] at hK
      obtain ⟨⟨T, w⟩, rfl⟩ : ∃ P, K = [P] := by
        match K, hK with
        | [P], _ => exact ⟨P, rfl⟩
      cases hK with
      | cons hT _ =>
        rw [o4, o3] at hv
        simp only [runCode, Prod.mk.injEq, Except.ok.injEq, select, List.map_cons, List.map_nil, List.headD_cons] at hv
        obtain ⟨rfl, rfl⟩ := hv
        refine ⟨.present T, .present hrun, List.rel_append hA (.cons ⟨fun _ e he => ?_, fun h => absurd h herr⟩ .nil)⟩
        rcases e with ⟨toks, opt, al⟩
        rw [o2] at he
        rcases he with ⟨tok, e1, e2, e3⟩ | ⟨tok, symR, e1, e2, e3, e4, e5⟩ | ⟨e1, e2, e3⟩
        · rw [hnm] at e3; cases e3
        · simp only at e1 e2
          subst e1 e2
          have : o = (symR, o.2) := b.opt_inj o1 e4 rfl
          have hsr : o.1 = symR := by rw [this]
          exact .present (hT.1 l1 ⟨[tok], false, false⟩ (.inl ⟨tok, rfl, rfl, by rw [hsr]; exact e5⟩)) .nil
        · rw [hnm] at e2; cases e2

/-- The input `toks` has been taken, possibly with errors, starting with the extra argument `x0`. -/
def RKept (s : CSpec ord ds t) (b : Bridge ord ds s.g) (sem : Sem V X E) (x0 : X) (toks : List (Tok V)) (p : Parser V X) : Prop :=
  p.status = .normal ∧ ∃ γ q F, Row s b sem x0 toks p γ q F

/-- The input `toks` has been accepted, possibly with errors. -/
def Ended (s : CSpec ord ds t) (sem : Sem V X E) (x0 : X) (toks : List (Tok V)) (p : Parser V X) : Prop :=
  ∃ v w T, p.status = .accepted v ∧ IsRTree ds t.tokenNames T ∧
    Recovery ds sem (decide (t.errorSymbol ≠ 0)) x0 toks [(T, w)] p.extra (rmovesOf (rulesOf ds).length p.trace) ∧ v = rootValue ds sem w

theorem RKept.new (b : Bridge ord ds s.g) (sem : Sem V X E) (x : X) : RKept s b sem x [] (Parser.new sem x) :=
  ⟨rfl, [], 0, [], .base rfl rfl, .start, rfl, .nil⟩

theorem Made.rkept_reduce (m : Made s dflt) (ho : OrdOk ord) (b : Bridge ord ds s.g) (sem : Sem V X E) {x0 : X} {toks : List (Tok V)} {p p1 : Parser V X}
    (hp : RKept s b sem x0 toks p) {γ : List SymbolId} {q : StateId} {F : List (RTree V × V)} (hrow : Row s b sem x0 toks p γ q F)
    {r : RuleId} {c : SymbolId} (hcr : s.g.CanReduce s.sts q c r) (h : reduce t sem p r = .ok p1 ()) :
    RKept s b sem x0 toks p1 ∨ ((s.g.rule r).lhs = s.g.start.getD 0 ∧ Ended s sem x0 toks p1) := by
  have hr := (canReduce_rule m.inv m.auto hcr).2.2
  have hql := Path.lt m.auto hrow.stk.path
  have hrl := m.auto.item_rule m.inv hql hr
  obtain ⟨rc, hrc, htc, hpl, hcase⟩ := m.reduce_stk sem hrow.stk hr
  rcases hcase with ⟨_, e⟩ | ⟨vs, hvs, hcase⟩
  · rw [e] at h; cases h
  rcases hcase with ⟨e, x, _, e'⟩ | ⟨v, x, γ0, q0, hrun, rfl, hs0, hcase⟩
  · rw [e'] at h; cases h
  obtain ⟨A, K, rfl, hA, hK, hvA, hvK⟩ := row_split hrow.stk hrow.vals hrow.trees
  have hpats := translateCode_pats htc
  have hrun' : runCode sem (s.g.rule r).code (select ((s.g.rule r).rhs.map (·.alias)) (K.map (·.2))) p.extra = (.ok v, x) := by
    rw [← hrun, matchPats_pick hvs, hpl, ← hvK, hpats]
    simp only [pickArgs_select]
  obtain ⟨T, hR, hT⟩ := m.row_reduce ho b sem hrl hrow.run hK hA vs hrun'
  rcases hcase with ⟨rfl, rfl, hl, e⟩ | ⟨k, hk, e⟩
  · right
    refine ⟨hl, ?_⟩
    have hA0 : A = [] := by cases hA; rfl
    subst hA0
    rw [e] at h
    obtain ⟨st, i, g1, g2, g3, g4, g5⟩ := b.start_name m.inv
    have hl' : (s.g.rule r).lhs = st := by rw [hl, g1]; rfl
    have htree : IsRTree ds t.tokenNames T := by
      refine ⟨i, g4, ?_⟩
      cases hT with
      | cons h1 _ => exact h1.1 (by rw [hl']; exact g2) _ (.inl ⟨i, rfl, rfl, by rw [hl']; exact g3⟩)
    unfold accept at h
    split at h
    · rename_i n hn
      split at h
      · rename_i htag
        simp only [Res.ok.injEq, and_true] at h
        subst h
        refine ⟨v, v, T, rfl, htree, hR, ?_⟩
        rw [← m.root ho b sem v ?_, hn]; rfl
        intro n' hn'
        rw [hn] at hn'
        cases hn'
        rw [hpats] at htag
        rw [← htag, hl]
      · cases h
    · rename_i hn
      simp only [Res.ok.injEq, and_true] at h
      subst h
      refine ⟨sem.unit, v, T, rfl, htree, hR, ?_⟩
      rw [← m.root ho b sem v (by rw [hn]; simp), hn]; rfl
  · left
    rw [e] at h
    rcases shift_cases t sem { p with stack := p.stack.drop rc.pats.length, extra := x, trace := .reduce r vs :: p.trace } (s.num k) (s.g.sym (s.g.rule r).lhs).index ⟨rc.lhsDt, v⟩ with ⟨_, _, hsh⟩ | ⟨_, hsh⟩
    · rw [hsh] at h; cases h
    · rw [hsh] at h
      simp only [Res.ok.injEq, and_true] at h
      subst h
      refine ⟨hp.1, _, k, _, .push hs0 hk rfl (.inl ⟨(m.inv.lhs r hrl).2.1, rfl⟩), hR, ?_, hT⟩
      rw [stackVals_cons (fun hnil => by have := hs0.length; rw [hnil] at this; simp at this), List.map_append, hvA, hpl]
      rfl

/-- Recovery from an error at the token `tok` -/
theorem Made.rkept_recover (m : Made s dflt) (hAp : apart ord ds = true) (he : t.errorSymbol ≠ 0) (b : Bridge ord ds s.g) (sem : Sem V X E) {x0 : X} {toks : List (Tok V)}
    {tok : Tok V} {mn : Minor V} (hb : t.tokenBuild sem tok.major mn = some tok) (ex : List Nat) {p p1 : Parser V X} (hst : p.status = .normal)
    {γ : List SymbolId} {q : StateId} {F : List (RTree V × V)} (hrow : Row s b sem x0 toks p γ q F)
    (h : recover t sem tok.major mn ex p.stack p = .ok p1 ()) (hne : p1.stack ≠ []) :
    RKept s b sem x0 (toks ++ [tok]) { p1 with errorCount := 3, trace := .discard tok.major :: p1.trace } := by
  obtain ⟨e1, e2, e3, e4, e5⟩ := m.err_facts he
  have hdec : decide (t.errorSymbol ≠ 0) = true := by simpa using he
  rcases recover_cases t sem tok.major mn ex p.stack p with ⟨w, hw⟩ | ⟨popped, rest, hsplit, _, hcase⟩
  · rw [hw] at h; cases h
  rcases hcase with ⟨_, hw⟩ | ⟨top, rest', rfl, hcase⟩
  · rw [hw] at h
    simp only [Res.ok.injEq, and_true] at h
    subst h; exact absurd rfl hne
  -- what is left of the stack
  have hlen : popped.length + rest'.length = γ.length := by
    have := hrow.stk.length
    rw [hsplit, List.length_append, List.length_cons] at this
    omega
  obtain ⟨γ0, δ, hγ, hδ⟩ : ∃ γ0 δ, γ = γ0 ++ δ ∧ δ.length = popped.length :=
    ⟨γ.take rest'.length, γ.drop rest'.length, (List.take_append_drop _ _).symm, by rw [List.length_drop]; omega⟩
  subst hγ
  obtain ⟨A, K, rfl, hA, hK, hvA, hvK⟩ := row_split hrow.stk hrow.vals hrow.trees
  obtain ⟨q0, hs0⟩ := hrow.stk.drop
  have hd : p.stack.drop δ.length = top :: rest' := by rw [hsplit, hδ]; simp
  rw [hd] at hs0 hvA
  rcases hcase with ⟨htop, hw⟩ | ⟨_, act, hact, hlt, hcase⟩
  · -- the top is `error`
    rw [hw] at h
    simp only [Res.ok.injEq, and_true] at h
    subst h
    refine ⟨hst, γ0, q0, A, hs0, ?_, hvA, hA⟩
    obtain ⟨A', T, rfl, hT⟩ : ∃ A' T, A = A' ++ [T] ∧ IsErr ds T.1 := by
      cases hs0 with
      | base h1 h2 =>
        rw [h2] at htop
        exact absurd htop.symm he
      | @push _ _ γ1 _ Y _ h1 h2 h3 h4 =>
        obtain ⟨A', B, rfl, hA', hB⟩ := forall₂_split hA
        cases hB with
        | @cons T _ _ _ hT hB =>
          cases hB
          refine ⟨A', T, rfl, hT.2 ?_⟩
          have hperm : ∀ {y : SymbolId}, y < s.g.syms.length → (s.g.sym y).index = (s.g.sym 1).index → y = 1 := by
            intro y hy hi
            have p1 := (m.inv.perm _ hy).2
            have p2 := (m.inv.perm 1 e2).2
            rw [hi] at p1
            exact p1.symm.trans p2
          have hYl : Y < s.g.syms.length := by
            obtain ⟨r, hr, hx⟩ := h2.rhs m.inv m.auto
            exact (m.inv.rhs r hr Y hx).1
          rcases h4 with ⟨_, h5⟩ | ⟨a, c, h5, h6, _, h7, _⟩
          · exact hperm hYl (by rw [← h5, htop, e1])
          · have : a = 1 := hperm h5 (by rw [← h7, htop, e1])
            rw [this, e3] at h6; cases h6
    have := Recovery.absorb (k := tok) hdec hrow.run hT
    rw [rmovesOf_cons]
    exact this
  · rcases hcase with ⟨_, _, _, hw⟩ | ⟨p2, v, hsx, hw⟩
    · rw [hw] at h; cases h
    · have hq0 := Path.lt m.auto hs0.path
      have htop := hs0.top m
      obtain ⟨c, hc, hk⟩ := m.goto_any hAp he hq0 e2 e3 e4
      rw [htop, e1, hc] at hact
      cases hact
      obtain ⟨k, rfl, htr⟩ := hk hlt
      rw [hw] at h
      simp only [syntaxError, hb] at hsx
      rcases hsv : sem.syntaxError (some tok) ex p.extra with ⟨e | w, x'⟩
      · rw [hsv] at hsx; cases hsx
      · rw [hsv] at hsx
        simp only [Res.ok.injEq] at hsx
        obtain ⟨rfl, rfl⟩ := hsx
        rcases shift_cases t sem ({ p with stack := top :: rest', extra := x', trace := .syntaxError (some tok) ex :: p.trace } : Parser V X) (s.num k) t.errorSymbol ⟨t.errorDt, w⟩ with ⟨_, _, hsh⟩ | ⟨_, hsh⟩
        · rw [hsh] at h; cases h
        · rw [hsh] at h
          simp only [Res.ok.injEq, and_true] at h
          subst h
          refine ⟨hst, γ0 ++ [1], k, A ++ [(.error tok ex w, w)], .push hs0 htr rfl (.inl ⟨e3, by rw [e1]⟩), ?_, ?_, ?_⟩
          · have := Recovery.replace hdec hrow.run hsv
            rw [rmovesOf_cons, rmovesOf_cons, List.append_assoc]
            exact this
          · rw [stackVals_cons (by simp), List.map_append, hvA]; rfl
          · refine List.rel_append hA (.cons ⟨fun hl e he => ?_, fun _ => .inl ⟨_, _, _, rfl⟩⟩ .nil)
            have hname : (b.gD.sym 1).name = .ident .error := by rw [← b.name hl]; exact m.inv.err.1
            rcases e with ⟨ts, opt, al⟩
            rcases he with ⟨i, e1, e2, e3⟩ | ⟨i, symR, e1, e2, e3, e4, e5⟩ | ⟨e1, e2, e3⟩
            · simp only at e1 e2
              rw [hname] at e3
              cases e3
              subst e1 e2
              exact .error .nil
            · obtain ⟨_, _, _, k, _, hn⟩ := b.opt_name e4
              rw [hname] at hn; cases hn
            · rw [hname] at e2; cases e2

theorem Made.rkept_onError (m : Made s dflt) (hAp : apart ord ds = true) (b : Bridge ord ds s.g) (sem : Sem V X E) {x0 : X} {toks : List (Tok V)}
    {tok : Tok V} {mn : Minor V} (hb : t.tokenBuild sem tok.major mn = some tok) {p p1 : Parser V X} (hst : p.status = .normal)
    {γ : List SymbolId} {q : StateId} {F : List (RTree V × V)} (hrow : Row s b sem x0 toks p γ q F) {top : Entry V}
    (h : onError t sem p top tok.major mn = .ok p1 ()) : RKept s b sem x0 (toks ++ [tok]) p1 := by
  rcases onError_cases t sem p top tok.major mn with ⟨w, hw, _⟩ | ⟨_, hw⟩ | ⟨ex, _, _, hcase⟩
  · rw [hw] at h; cases h
  · rw [hw] at h; cases h
  rcases hcase with ⟨he, hcase⟩ | ⟨he, _, hcase⟩ | ⟨he, _, hw⟩
  · rcases hcase with ⟨_, _, _, hw⟩ | ⟨_, _, _, hw⟩ | ⟨p2, hr, hne, hw⟩
    · rw [hw] at h; cases h
    · rw [hw] at h; cases h
    · rw [hw] at h
      simp only [Res.ok.injEq, and_true] at h
      subst h
      exact m.rkept_recover hAp he b sem hb ex hst hrow hr hne
  · have hdec : decide (t.errorSymbol ≠ 0) = false := by simpa using he
    rcases hcase with ⟨_, _, _, hw⟩ | ⟨p2, v, hsx, hw⟩
    · rw [hw] at h; cases h
    · rw [hw] at h
      simp only [Res.ok.injEq, and_true] at h
      subst h
      simp only [syntaxError, hb] at hsx
      rcases hsv : sem.syntaxError (some tok) ex p.extra with ⟨e | w, x'⟩
      · rw [hsv] at hsx; cases hsx
      · rw [hsv] at hsx
        simp only [Res.ok.injEq] at hsx
        obtain ⟨rfl, rfl⟩ := hsx
        refine ⟨hst, γ, q, F, hrow.stk, ?_, hrow.vals, hrow.trees⟩
        have := Recovery.report hdec hrow.run hsv
        rw [rmovesOf_cons, rmovesOf_cons, List.append_assoc]
        exact this
  · have hdec : decide (t.errorSymbol ≠ 0) = false := by simpa using he
    rw [hw] at h
    simp only [Res.ok.injEq, and_true] at h
    subst h
    refine ⟨hst, γ, q, F, hrow.stk, ?_, hrow.vals, hrow.trees⟩
    have := Recovery.skip tok hdec hrow.run
    rw [rmovesOf_cons]
    exact this

theorem Made.rkept_step (m : Made s dflt) (ho : OrdOk ord) (hA : apart ord ds = true) (b : Bridge ord ds s.g) (sem : Sem V X E) {x0 : X} {toks : List (Tok V)} {p : Parser V X}
    {a : SymbolId} (h : RKept s b sem x0 toks p) (ha : a < s.g.syms.length) (hk : (s.g.sym a).kind = .terminal) (mn : Minor V)
    (hb : a ≠ 0 → t.tokenBuild sem (s.g.sym a).index mn = some ⟨(s.g.sym a).index, mn.val⟩) :
    (∀ p1, step t sem p (s.g.sym a).index mn = .again p1 → RKept s b sem x0 toks p1 ∨ (a = 0 ∧ Ended s sem x0 toks p1)) ∧
    (∀ p1 u, step t sem p (s.g.sym a).index mn = .done (.ok p1 u) → a ≠ 0 ∧ RKept s b sem x0 (toks ++ [⟨(s.g.sym a).index, mn.val⟩]) p1) := by
  obtain ⟨hst, γ, q, F, hrow⟩ := h
  obtain ⟨top, rest, hd, htop, hcase⟩ := m.step_stk ho hA sem hrow.stk ha hk mn
  rcases hcase with ⟨w, _, e⟩ | ⟨k, Y, c, ha0, hfs, h1, h2, h3, hcase⟩ | ⟨r, c, hfs, h1, h2, hcase⟩ | ⟨_, e⟩
  · rw [e]; exact ⟨by simp, by simp⟩
  · rcases hcase with ⟨p1, e, _, e'⟩ | ⟨_, e⟩
    · rw [e']; exact ⟨by simp, by simp⟩
    · rw [e]
      refine ⟨by simp, ?_⟩
      intro p1 u hp
      simp only [Step.done.injEq, Res.ok.injEq] at hp
      obtain ⟨rfl, _⟩ := hp
      refine ⟨ha0, hst, γ ++ [Y], k, F ++ [(.tok ⟨(s.g.sym a).index, mn.val⟩, mn.val)], .push hrow.stk h3 rfl (.inr ⟨a, c, ha, hk, ha0, rfl, h1, h2⟩), ?_, ?_, ?_⟩
      · have := Recovery.read ⟨(s.g.sym a).index, mn.val⟩ hrow.run
        rw [rmovesOf_cons]
        exact this
      · rw [stackVals_cons (fun e => by rw [hd] at e; cases e), List.map_append, hrow.vals]; rfl
      · exact List.rel_append hrow.trees (.cons (m.treeFor_tok b ha hk ha0 rfl h1 h2 _) .nil)
  · rcases hcase with ⟨w, _, e⟩ | ⟨p1, e, _, e'⟩ | ⟨p1, hr, e⟩
    · rw [e]; exact ⟨by simp, by simp⟩
    · rw [e']; exact ⟨by simp, by simp⟩
    · rw [e]
      refine ⟨?_, by simp⟩
      intro p2 hp
      simp only [Step.again.injEq] at hp
      subst hp
      rcases m.rkept_reduce ho b sem ⟨hst, γ, q, F, hrow⟩ hrow h1 hr with h | ⟨h', h⟩
      · exact .inl h
      · exact .inr ⟨h2 h', h⟩
  · rw [e]
    refine ⟨by simp, ?_⟩
    intro p1 u hp
    simp only [Step.done.injEq] at hp
    by_cases ha0 : a = 0
    · subst ha0
      exfalso
      rw [m.inv.dollar.2.2] at hp
      simp [onError] at hp
    · exact ⟨ha0, m.rkept_onError hA b sem (tok := ⟨(s.g.sym a).index, mn.val⟩) (hb ha0) hst hrow hp⟩

theorem Made.rkept_loop (m : Made s dflt) (ho : OrdOk ord) (hA : apart ord ds = true) (b : Bridge ord ds s.g) (sem : Sem V X E) {x0 : X} {toks : List (Tok V)}
    {a : SymbolId} (ha : a < s.g.syms.length) (hk : (s.g.sym a).kind = .terminal) (mn : Minor V)
    (hb : a ≠ 0 → t.tokenBuild sem (s.g.sym a).index mn = some ⟨(s.g.sym a).index, mn.val⟩) : ∀ {fuel : Nat} {p p1 : Parser V X},
    RKept s b sem x0 toks p → loop t sem (s.g.sym a).index mn fuel p = some (.ok p1 ()) →
    (a ≠ 0 ∧ RKept s b sem x0 (toks ++ [⟨(s.g.sym a).index, mn.val⟩]) p1) ∨ (a = 0 ∧ Ended s sem x0 toks p1) := by
  intro fuel
  induction fuel with
  | zero => intro p p1 _ h; cases h
  | succ fuel ih =>
    intro p p1 hg h
    obtain ⟨g1, g2⟩ := m.rkept_step ho hA b sem hg ha hk mn hb
    simp only [loop, hg.1] at h
    cases hstep : step t sem p (s.g.sym a).index mn with
    | done r =>
      rw [hstep] at h
      simp only [Option.some.injEq] at h
      subst h
      exact .inl (g2 p1 () hstep)
    | again p2 =>
      rw [hstep] at h
      simp only at h
      rcases g1 p2 hstep with h' | ⟨h0, h'⟩
      · exact ih h' h
      · right
        refine ⟨h0, ?_⟩
        obtain ⟨v, w, T, hv, hrest⟩ := h'
        cases fuel with
        | zero => cases h
        | succ fuel =>
          simp only [loop, hv, Option.some.injEq, Res.ok.injEq, and_true] at h
          subst h
          exact ⟨v, w, T, hv, hrest⟩

theorem Made.rkept_parse (m : Made s dflt) (ho : OrdOk ord) (hA : apart ord ds = true) (b : Bridge ord ds s.g) (sem : Sem V X E) {x0 : X} {toks : List (Tok V)}
    {tok : Tok V} (hv : tok.Valid t sem) {fuel : Nat} {p p1 : Parser V X} (hg : RKept s b sem x0 toks p) (h : parse t sem fuel p tok = some (.ok p1 ())) :
    RKept s b sem x0 (toks ++ [tok]) p1 := by
  obtain ⟨a, ha, hk, hi, h0⟩ := m.token hv.pos hv.lt
  rw [parse_eq] at h
  unfold parseToken at h
  rw [hg.1] at h
  simp only at h
  rw [← hi] at h
  have hval := (tokenValue_val hv).2
  have hb := tokenBuild_tokenValue hv
  cases hl : loop t sem (s.g.sym a).index (t.tokenValue sem tok).2 fuel p with
  | none => rw [hl] at h; cases h
  | some r =>
    rw [hl] at h
    cases r with
    | err => simp at h
    | panic => simp at h
    | ok p2 u =>
      simp only [Option.map_some, Option.some.injEq, Res.ok.injEq, and_true] at h
      subst h
      rcases m.rkept_loop ho hA b sem ha hk _ (fun _ => by rw [hi, hval, hb]) hg hl with ⟨_, h⟩ | ⟨h, _⟩
      · rw [hval, hi] at h
        exact h
      · exact absurd h h0

theorem Made.rkept_feed (m : Made s dflt) (ho : OrdOk ord) (hA : apart ord ds = true) (b : Bridge ord ds s.g) (sem : Sem V X E) {x0 : X} {fuel : Nat} : ∀ {toks done : List (Tok V)}
    {p p1 : Parser V X}, (∀ tok ∈ toks, tok.Valid t sem) → RKept s b sem x0 done p → feed t sem fuel p toks = some (.ok p1 ()) →
    RKept s b sem x0 (done ++ toks) p1 := by
  intro toks
  induction toks with
  | nil =>
    intro done p p1 _ hg h
    simp only [feed, Option.some.injEq, Res.ok.injEq, and_true] at h
    subst h; simpa using hg
  | cons tok toks ih =>
    intro done p p1 hv hg h
    rw [feed] at h
    split at h
    · rename_i p2 hp
      have := ih (done := done ++ [tok]) (p := p2) (p1 := p1) (fun x hx => hv x (List.mem_cons_of_mem _ hx)) (m.rkept_parse ho hA b sem (hv tok List.mem_cons_self) hg hp) h
      simpa using this
    · rename_i hne
      exact absurd h (hne _)

theorem Made.rkept_end (m : Made s dflt) (ho : OrdOk ord) (hA : apart ord ds = true) (b : Bridge ord ds s.g) (sem : Sem V X E) {x0 : X} {toks : List (Tok V)}
    {fuel : Nat} {p p1 : Parser V X} {v : V} (hg : RKept s b sem x0 toks p) (h : endOfInput t sem fuel p = some (.ok p1 v)) :
    Ended s sem x0 toks p1 ∧ p1.status = .accepted v := by
  unfold endOfInput at h
  cases hp : parseToken t sem fuel p 0 ⟨0, sem.unit⟩ with
  | none => rw [hp] at h; cases h
  | some r =>
    rw [hp] at h
    cases r with
    | err => simp at h
    | panic => simp at h
    | ok p2 u =>
      simp only [Option.map_some, Option.some.injEq] at h
      split at h
      · rename_i w hw
        cases h
        unfold parseToken at hp
        rw [hg.1] at hp
        simp only at hp
        cases hl : loop t sem 0 ⟨0, sem.unit⟩ fuel p with
        | none => rw [hl] at hp; cases hp
        | some r =>
          rw [hl] at hp
          cases r with
          | err => simp at hp
          | panic => simp at hp
          | ok p3 u =>
            simp only [Option.map_some, Option.some.injEq, Res.ok.injEq, and_true] at hp
            subst hp
            have hz : (0 : SymbolId) < s.g.syms.length := Nat.lt_of_lt_of_le Nat.zero_lt_two m.inv.two
            rw [← m.inv.dollar.2.2] at hl
            rcases m.rkept_loop ho hA b sem hz m.inv.dollar.2.1 _ (fun h => absurd rfl h) hg hl with ⟨h, _⟩ | ⟨_, h⟩
            · exact absurd rfl h
            · exact ⟨h, hw⟩
      · cases h

/-- An input accepted with or without errors has a tree. -/
theorem Made.run_recovery (m : Made s dflt) (ho : OrdOk ord) (hA : apart ord ds = true) (b : Bridge ord ds s.g) (sem : Sem V X E) {x : X} {toks : List (Tok V)}
    (hv : ∀ tok ∈ toks, tok.Valid t sem) {fuel : Nat} {p : Parser V X} {v : V} (h : runAll t sem fuel x toks = some (.ok p v)) :
    ∃ T w, IsRTree ds t.tokenNames T ∧
      Recovery ds sem (decide (t.errorSymbol ≠ 0)) x toks [(T, w)] p.extra (rmovesOf (rulesOf ds).length p.trace) ∧ v = rootValue ds sem w := by
  unfold runAll at h
  split at h
  · cases h
  · rename_i p1 hf
    obtain ⟨⟨v', w, T, h1, h2, h3, h4⟩, h5⟩ := m.rkept_end ho hA b sem (m.rkept_feed ho hA b sem hv (RKept.new b sem x) hf) h
    rw [h1] at h5
    cases h5
    exact ⟨T, w, h2, by simpa using h3, h4⟩
  · cases h
  · cases h

/-- The symbols read are written ones. -/
theorem Made.path_written (m : Made s dflt) (ho : OrdOk ord) (b : Bridge ord ds s.g) {γ : List SymbolId} {q : StateId} (h : s.g.Path s.sts γ q) :
    ∀ Y ∈ γ, Y < b.gD.syms.length := by
  induction h with
  | nil => intro X hX; cases hX
  | snoc _ h2 ih =>
    intro X hX
    rcases List.mem_append.1 hX with h | h
    · exact ih X h
    · simp only [List.mem_singleton] at h
      subst h
      obtain ⟨r, hr, hx⟩ := h2.rhs m.inv m.auto
      by_cases hlt : r < (rulesOf ds).length
      · obtain ⟨_, _, _, _, w4, _⟩ := b.written ho (List.getElem?_eq_getElem hlt)
        exact w4 _ hx
      · obtain ⟨o, o1, _, o3⟩ := b.unwritten ho hr (Nat.le_of_not_lt hlt)
        obtain ⟨l1, _⟩ := b.opt_name o1
        unfold Grammar.rhsSyms at hx
        rcases o3 with ⟨o3, _⟩ | ⟨o3, _⟩
        · rw [o3] at hx; cases hx
        · rw [o3] at hx
          simp only [List.map_cons, List.map_nil, List.mem_singleton] at hx
          rw [hx]; exact l1

/-- The row of trees begins a sentential form. -/
theorem Made.rkept_form (m : Made s dflt) (ho : OrdOk ord) (b : Bridge ord ds s.g) {sem : Sem V X E} {x : X} {toks : List (Tok V)} {p : Parser V X}
    (h : RKept s b sem x toks p) : ∃ F es rest, Recovery ds sem (decide (t.errorSymbol ≠ 0)) x toks F p.extra (rmovesOf (rulesOf ds).length p.trace) ∧
      SentForm ds (es ++ rest) ∧ RFits ds t.tokenNames (F.map (·.1)) es := by
  obtain ⟨_, γ, q, F, hrow⟩ := h
  obtain ⟨δ, hd⟩ := hrow.stk.path.derives m.inv m.auto
  obtain ⟨st, i, g1, g2, g3, g4, _⟩ := b.start_name m.inv
  rw [g1, Option.getD_some] at hd
  obtain ⟨es, e1, e2⟩ := b.expands ho hd (es := [⟨[i], false, false⟩]) (.cons (.inl ⟨i, rfl, rfl, g3⟩) .nil)
  obtain ⟨a, rest, rfl, e3, _⟩ := forall₂_split e2
  exact ⟨F, a, rest, hrow.run, ⟨i, g4, e1⟩, rfits_row b hrow.trees (m.path_written ho b hrow.stk.path) e3⟩

end

end Pomelo
