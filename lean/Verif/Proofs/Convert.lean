import Verif.Proofs.Written
/-! # From trees over the numbered rules to derivation trees, and back -/

namespace Pomelo

open Spec

variable {V X E : Type}

mutual
/-- The derivation tree; the first `n` rules are the written ones. -/
def GTree.toTree (n : Nat) : GTree V → Tree V
  | .leaf tok => .tok tok
  | .node r kids =>
    if r < n then .rule r (GTree.toTrees n kids)
    else match GTree.toTrees n kids with
      | [] => .absent
      | t :: _ => .present t
def GTree.toTrees (n : Nat) : List (GTree V) → List (Tree V)
  | [] => []
  | t :: ts => t.toTree n :: GTree.toTrees n ts
end

/-- What is seen of an action in the written grammar -/
def Act.move? (n : Nat) : Act → Option Move
  | .shift m => some (.read m)
  | .reduce r => if r < n then some (.rule r) else none

theorem movesOf_acts (n : Nat) (log : List (Event V)) : movesOf n log = (actsOfLog log).filterMap (Act.move? n) := by
  unfold movesOf actsOfLog
  rw [← List.filterMap_reverse, List.filterMap_filterMap]
  congr 1
  funext e
  cases e <;> rfl

theorem pickArgs_select {α : Type} (f : α → Bool) (d : α → Nat) : ∀ (l : List α) (vs : List V),
    pickArgs (l.map (fun s => if f s then some (d s) else none)) vs = select (l.map f) vs := by
  intro l
  induction l with
  | nil => intro vs; cases vs <;> rfl
  | cons a l ih =>
    intro vs
    cases vs with
    | nil => cases h : f a <;> simp [pickArgs, select, h]
    | cons v vs => cases h : f a <;> simp [pickArgs, select, h, ih]

section
variable {ord : List (SymbolId × SymbolId) → List (SymbolId × SymbolId)} {ds : List Decl} {t : Tables} {s : CSpec ord ds t} {dflt : SymbolId}

theorem Made.tokenName (m : Made s dflt) {a : SymbolId} (ha : a < s.g.syms.length) (hk : (s.g.sym a).kind = .terminal) :
    t.tokenNames[(s.g.sym a).index]? = some (s.g.sym a).name := by
  have hsh := s.gen.shape
  have h1 := (m.inv.term a ha).1 hk
  obtain ⟨p1, p2⟩ := m.inv.perm a ha
  rw [s.gen.tokenNames, List.getElem?_map, hsh.nterm, hsh.symbols, List.getElem?_take, if_pos h1]
  have hlt : (s.g.sym a).index < s.g.symbols.length := by rw [m.inv.slen]; exact p1
  rw [List.getElem?_eq_getElem hlt]
  rw [getD_of_lt hlt] at p2
  rw [p2]
  simp only [Option.map_some, hsh.name]

theorem Made.evalNode (_ : Made s dflt) (sem : Sem V X E) {r : RuleId} (hr : r < s.g.rules.length) (kids : List (GTree V)) (x : X) :
    GTree.eval t sem (.node r kids) x = match GTree.evals t sem kids x with
      | (.error e, x) => (.error e, x)
      | (.ok vs, x) => runCode sem (s.g.rule r).code (select ((s.g.rule r).rhs.map (·.alias)) vs) x := by
  obtain ⟨rc, h1, h2⟩ := s.ruleCode_get hr
  have h3 := translateCode_pats h2
  have h4 : t.ruleCode.getD r default = rc := by rw [List.getD_eq_getElem?_getD, h1]; rfl
  simp only [GTree.eval, h4]
  rw [h3]
  simp only [pickArgs_select]
  rfl

theorem Made.conv (m : Made s dflt) (ho : OrdOk ord) (b : Bridge ord ds s.g) (sem : Sem V X E) {ts : List (GTree V)} {γ : List SymbolId} (h : s.g.Forest ts γ) :
    Tree.yields (GTree.toTrees (rulesOf ds).length ts) = GTree.yields ts ∧
    Tree.posts (GTree.toTrees (rulesOf ds).length ts) = (GTree.posts ts).filterMap (Act.move? (rulesOf ds).length) ∧
    (∀ x, Tree.values ds sem (GTree.toTrees (rulesOf ds).length ts) x = GTree.evals t sem ts x) ∧
    (∀ es, (∀ X ∈ γ, X < b.gD.syms.length) → List.Forall₂ (ElemSym b.gD) es γ → Spec.Fits ds t.tokenNames (GTree.toTrees (rulesOf ds).length ts) es) := by
  induction h with
  | nil =>
    refine ⟨rfl, rfl, fun _ => rfl, ?_⟩
    intro es _ h
    cases h
    exact .nil
  | @leaf tok a c Y ts γ h1 h2 h3 h4 h5 h6 _ ih =>
    obtain ⟨i1, i2, i3, i4⟩ := ih
    refine ⟨?_, ?_, ?_, ?_⟩
    · simp only [GTree.toTrees, GTree.toTree, Tree.yields, Tree.yield, GTree.yields, GTree.yield, i1]
    · simp only [GTree.toTrees, GTree.toTree, Tree.posts, Tree.post, GTree.posts, GTree.post, i2, List.filterMap_append]
      rfl
    · intro x
      simp only [GTree.toTrees, GTree.toTree, Tree.values, Tree.value, GTree.evals, GTree.eval, i3]
      rcases GTree.evals t sem ts x with ⟨_ | _, _⟩ <;> rfl
    · intro es hlt hes
      cases hes with
      | @cons e _ es _ he hes =>
        have haD : a < b.gD.syms.length := b.dropped m.inv h1 (by
          intro e
          have hk := m.inv.kinds a h1
          rw [h2, e] at hk; simp [kindOk] at hk)
        have hname : ∃ i, (b.gD.sym a).name = .ident i ∧ (b.gD.sym a).name.isTok = true := by
          have hk := m.inv.kinds a h1
          rw [h2, b.name haD] at hk
          have hd : (b.gD.sym a).name ≠ .dollar := by
            intro e
            exact h3 (b.dinv.names a 0 haD (Nat.lt_of_lt_of_le Nat.zero_lt_two b.dinv.two) (by rw [e, b.dinv.dollar]) (by rw [e]; simp))
          revert hk hd
          cases (b.gD.sym a).name with
          | ident i => cases i <;> simp [kindOk, SymName.isTok]
          | dollar => simp
          | _ => simp [kindOk]
        obtain ⟨i, hi, hti⟩ := hname
        obtain ⟨hc, j, hj, htk⟩ := b.stands_name h5 haD hi
        obtain ⟨c', hc', hj', _, htc⟩ := b.taken_stands htk haD hi
        have hcc : c' = c := b.dinv.names c' c hc' hc (by rw [hj', hj]) (by rw [hj']; simp)
        subst hcc
        have hY := hlt Y List.mem_cons_self
        refine .tok (i := i) (j := j) ?_ htk ((b.reads_matches hY he hc hj (htc hti)).1 h6) (i4 es (fun X hX => hlt X (List.mem_cons_of_mem _ hX)) hes)
        rw [h4, m.tokenName h1 h2, b.name haD, hi]
  | @node r kids ts γ h1 h2 _ ihk ih =>
    obtain ⟨k1, k2, k3, k4⟩ := ihk
    obtain ⟨i1, i2, i3, i4⟩ := ih
    by_cases hr : r < (rulesOf ds).length
    · obtain ⟨u, hu⟩ : ∃ u, (rulesOf ds)[r]? = some u := ⟨_, List.getElem?_eq_getElem hr⟩
      obtain ⟨_, w1, w2, w3, w4, w5⟩ := b.written ho hu
      refine ⟨?_, ?_, ?_, ?_⟩
      · simp only [GTree.toTrees, GTree.toTree, hr, if_true, Tree.yields, Tree.yield, GTree.yields, GTree.yield, i1, k1]
      · simp only [GTree.toTrees, GTree.toTree, hr, if_true, Tree.posts, Tree.post, GTree.posts, GTree.post, i2, k2, List.filterMap_append]
        simp [Act.move?, hr]
      · intro x
        simp only [GTree.toTrees, GTree.toTree, hr, if_true, Tree.values, Tree.value, GTree.evals, i3, k3, m.evalNode sem h1, hu]
        rcases GTree.evals t sem kids x with ⟨_ | vs, x1⟩
        · rfl
        · have : ruleValue ds sem u vs x1 = runCode sem (s.g.rule r).code (select ((s.g.rule r).rhs.map (·.alias)) vs) x1 := by
            unfold ruleValue
            rcases w5 with ⟨n, c1, c2, c3⟩ | ⟨c1, c2, c3, c4⟩ | ⟨c1, c2, c3, c4, _⟩
            · rw [c1, c2, c3]; rfl
            · rw [c1, c2, c3]; rfl
            · rw [c1, c2, c3, c4]; rfl
          simp only [this]
          generalize runCode sem _ _ x1 = z
          rcases z with ⟨_ | v, x2⟩
          · rfl
          · simp only
            rcases GTree.evals t sem ts x2 with ⟨_ | _, _⟩ <;> rfl
      · intro es hlt hes
        cases hes with
        | @cons e _ es _ he hes =>
          simp only [GTree.toTrees, GTree.toTree, hr, if_true]
          have hrest := i4 es (fun X hX => hlt X (List.mem_cons_of_mem _ hX)) hes
          rcases e with ⟨toks, opt, al⟩
          rcases he with ⟨tok, e1, e2, e3⟩ | ⟨tok, symR, e1, e2, e3, e4, e5⟩ | ⟨e1, e2, e3⟩
          · simp only at e1 e2
            rw [w2] at e3
            cases e3
            subst e1 e2
            exact .rule hu (k4 u.rhs w4 w3) hrest
          · obtain ⟨_, _, _, k, _, hn⟩ := b.opt_name e4
            rw [w2] at hn; cases hn
          · rw [w2] at e2; cases e2
    · obtain ⟨o, o1, o2, o3⟩ := b.unwritten ho h1 (Nat.le_of_not_lt hr)
      rcases o3 with ⟨o3, o4⟩ | ⟨o3, o4⟩
      · -- nothing
        have hkids : kids = [] := by
          have := h2.length
          unfold Grammar.rhsSyms at this
          rw [o3] at this
          exact List.eq_nil_of_length_eq_zero this
        subst hkids
        refine ⟨?_, ?_, ?_, ?_⟩
        · simp only [GTree.toTrees, GTree.toTree, hr, if_false, Tree.yields, Tree.yield, GTree.yields, GTree.yield, i1]
        · simp only [GTree.toTrees, GTree.toTree, hr, if_false, Tree.posts, Tree.post, GTree.posts, GTree.post, i2, List.filterMap_append]
          simp [Act.move?, hr]
        · intro x
          simp only [GTree.toTrees, GTree.toTree, hr, if_false, Tree.values, Tree.value, GTree.evals, i3, m.evalNode sem h1, o4, runCode]
          rcases GTree.evals t sem ts x with ⟨_ | _, _⟩ <;> rfl
        · intro es hlt hes
          cases hes with
          | @cons e _ es _ he hes =>
            simp only [GTree.toTrees, GTree.toTree, hr, if_false]
            have hrest := i4 es (fun X hX => hlt X (List.mem_cons_of_mem _ hX)) hes
            rcases e with ⟨toks, opt, al⟩
            obtain ⟨_, _, _, k, _, hn⟩ := b.opt_name o1
            rw [o2] at he
            rcases he with ⟨tok, e1, e2, e3⟩ | ⟨tok, symR, e1, e2, e3, e4, e5⟩ | ⟨e1, e2, e3⟩
            · rw [hn] at e3; cases e3
            · simp only at e1 e2
              subst e1 e2
              exact .absent hrest
            · rw [hn] at e2; cases e2
      · -- something
        obtain ⟨k0, rfl⟩ : ∃ k0, kids = [k0] := by
          have := h2.length
          unfold Grammar.rhsSyms at this
          rw [o3] at this
          match kids, this with
          | [k0], _ => exact ⟨k0, rfl⟩
        have hsy : s.g.rhsSyms r = [o.1] := by unfold Grammar.rhsSyms; rw [o3]; rfl
        simp only [GTree.toTrees, Tree.yields, GTree.yields, List.append_nil, Tree.posts, GTree.posts, Tree.values, GTree.evals] at k1 k2 k3
        refine ⟨?_, ?_, ?_, ?_⟩
        · simp only [GTree.toTrees, GTree.toTree, hr, if_false, Tree.yields, Tree.yield, GTree.yields, GTree.yield, i1, k1, List.append_nil]
        · simp only [GTree.toTrees, GTree.toTree, hr, if_false, Tree.posts, Tree.post, GTree.posts, GTree.post, i2, k2, List.filterMap_append, List.append_nil]
          simp [Act.move?, hr]
        · intro x
          simp only [GTree.toTrees, GTree.toTree, hr, if_false, Tree.values, Tree.value, GTree.evals, i3, m.evalNode sem h1, o3, o4, runCode]
          have hk := k3 x
          rcases h5 : (k0.toTree (rulesOf ds).length).value ds sem x with ⟨e | v, x1⟩ <;> rcases h6 : k0.eval t sem x with ⟨e' | v', x1'⟩ <;> rw [h5, h6] at hk
          · simp only [Prod.mk.injEq, Except.error.injEq] at hk
            rw [hk.1, hk.2]
          · simp at hk
          · simp at hk
          · simp only [Prod.mk.injEq, Except.ok.injEq, List.cons.injEq, and_true] at hk
            rw [hk.1, hk.2]
            simp only [select, List.map_cons, List.map_nil, List.headD_cons]
            rcases GTree.evals t sem ts x1' with ⟨_ | _, _⟩ <;> rfl
        · intro es hlt hes
          cases hes with
          | @cons e _ es _ he hes =>
            simp only [GTree.toTrees, GTree.toTree, hr, if_false]
            have hrest := i4 es (fun X hX => hlt X (List.mem_cons_of_mem _ hX)) hes
            rcases e with ⟨toks, opt, al⟩
            obtain ⟨l1, l2, _, k, _, hn⟩ := b.opt_name o1
            rw [o2] at he
            rcases he with ⟨tok, e1, e2, e3⟩ | ⟨tok, symR, e1, e2, e3, e4, e5⟩ | ⟨e1, e2, e3⟩
            · rw [hn] at e3; cases e3
            · simp only at e1 e2
              subst e1 e2
              have : o = (symR, o.2) := b.opt_inj o1 e4 rfl
              have hsr : o.1 = symR := by rw [this]
              refine .present ?_ hrest
              have := k4 [⟨[tok], false, false⟩] (by rw [hsy]; simpa using l1) (by
                rw [hsy]
                exact .cons (.inl ⟨tok, rfl, rfl, by rw [hsr]; exact e5⟩) .nil)
              simpa [GTree.toTrees] using this
            · rw [hn] at e2; cases e2

/-- Every derivation tree is that of a tree over the numbered rules. -/
theorem Made.unconv (m : Made s dflt) (ho : OrdOk ord) (b : Bridge ord ds s.g) {ts : List (Tree V)} {es : List RhsElem} (h : Spec.Fits ds t.tokenNames ts es) :
    (∀ tok ∈ Tree.yields ts, 0 < tok.major) → ∀ γ, (∀ X ∈ γ, X < b.gD.syms.length) → List.Forall₂ (ElemSym b.gD) es γ →
      ∃ gs, s.g.Forest gs γ ∧ GTree.toTrees (rulesOf ds).length gs = ts := by
  induction h with
  | nil => intro _ γ _ h; cases h; exact ⟨[], .nil, rfl⟩
  | @tok tok i j e ts es h1 h2 h3 _ ih =>
    intro hp γ hlt hes
    cases hes with
    | @cons _ Y _ γ he hes =>
      obtain ⟨gs, g1, g2⟩ := ih (fun x hx => hp x (by simp only [Tree.yields, List.mem_append]; exact .inr hx)) γ (fun X hX => hlt X (List.mem_cons_of_mem _ hX)) hes
      have h0 : 0 < tok.major := hp tok (by simp [Tree.yields, Tree.yield])
      have hmaj : tok.major < t.numTerminals := by
        have hl := (List.getElem?_eq_some_iff.1 h1).1
        rw [s.gen.tokenNames, List.length_map, List.length_take] at hl
        rw [s.gen.numTerminals]
        omega
      obtain ⟨a, ha, hk, hi, ha0⟩ := m.token h0 hmaj
      have hna := m.tokenName ha hk
      rw [hi, h1] at hna
      have hna := (Option.some.inj hna).symm
      have haD : a < b.gD.syms.length := b.dropped m.inv ha (by rw [hna]; simp)
      rw [b.name haD] at hna
      have hti : (b.gD.sym a).name.isTok = true := by
        have hkk := m.inv.kinds a ha
        rw [hk, b.name haD, hna] at hkk
        rw [hna]
        cases i <;> simp [kindOk] at hkk ⊢
        rfl
      obtain ⟨c, hc, hj, hst, htc⟩ := b.taken_stands h2 haD hna
      refine ⟨.leaf tok :: gs, .leaf ha hk ha0 hi.symm hst ((b.reads_matches (hlt Y List.mem_cons_self) he hc hj (htc hti)).2 h3) g1, ?_⟩
      simp only [GTree.toTrees, GTree.toTree, g2]
  | @absent i al ts es _ ih =>
    intro hp γ hlt hes
    cases hes with
    | @cons _ Y _ γ he hes =>
      obtain ⟨gs, g1, g2⟩ := ih (fun x hx => hp x (by simp only [Tree.yields, List.mem_append]; exact .inr hx)) γ (fun X hX => hlt X (List.mem_cons_of_mem _ hX)) hes
      rcases he with ⟨tok, e1, e2, e3⟩ | ⟨tok, symR, e1, e2, e3, e4, e5⟩ | ⟨e1, e2, e3⟩
      · cases e2
      · obtain ⟨⟨r, r1, r2, r3, r4, _⟩, _⟩ := b.opt_rules ho e4
        have hsy : s.g.rhsSyms r = [] := by unfold Grammar.rhsSyms; rw [r4]; rfl
        refine ⟨.node r [] :: gs, ?_, ?_⟩
        · have := Grammar.Forest.node (V := V) (g := s.g) r1 (by rw [hsy]; exact .nil) g1
          rwa [r3] at this
        · simp only [GTree.toTrees, GTree.toTree, g2]
          rw [if_neg (Nat.not_lt_of_le r2)]
      · exact absurd rfl (e1 i)
  | @present t0 i al ts es _ _ ihk ih =>
    intro hp γ hlt hes
    cases hes with
    | @cons _ Y _ γ he hes =>
      obtain ⟨gs, g1, g2⟩ := ih (fun x hx => hp x (by simp only [Tree.yields, List.mem_append]; exact .inr hx)) γ (fun X hX => hlt X (List.mem_cons_of_mem _ hX)) hes
      rcases he with ⟨tok, e1, e2, e3⟩ | ⟨tok, symR, e1, e2, e3, e4, e5⟩ | ⟨e1, e2, e3⟩
      · cases e2
      · obtain ⟨_, ⟨r, r1, r2, r3, r4, _⟩⟩ := b.opt_rules ho e4
        have hsy : s.g.rhsSyms r = [symR] := by unfold Grammar.rhsSyms; rw [r4]; rfl
        obtain ⟨ks, k1, k2⟩ := ihk (fun x hx => hp x (by
          simp only [Tree.yields, Tree.yield, List.mem_append, List.append_nil] at hx ⊢; exact .inl hx)) [symR] (by simpa using e3) (.cons (.inl ⟨tok, e1, rfl, e5⟩) .nil)
        refine ⟨.node r ks :: gs, ?_, ?_⟩
        · have := Grammar.Forest.node (V := V) (g := s.g) r1 (by rw [hsy]; exact k1) g1
          rwa [r3] at this
        · simp only [GTree.toTrees, GTree.toTree, g2, k2]
          rw [if_neg (Nat.not_lt_of_le r2)]
      · exact absurd rfl (e1 i)
  | @rule n u kids al ts es hu _ _ ihk ih =>
    intro hp γ hlt hes
    cases hes with
    | @cons _ Y _ γ he hes =>
      obtain ⟨gs, g1, g2⟩ := ih (fun x hx => hp x (by simp only [Tree.yields, List.mem_append]; exact .inr hx)) γ (fun X hX => hlt X (List.mem_cons_of_mem _ hX)) hes
      obtain ⟨w0, w1, w2, w3, w4, _⟩ := b.written ho hu
      rcases he with ⟨tok, e1, e2, e3⟩ | ⟨tok, symR, e1, e2, e3, e4, e5⟩ | ⟨e1, e2, e3⟩
      · obtain ⟨ks, k1, k2⟩ := ihk (fun x hx => hp x (by simp only [Tree.yields, Tree.yield, List.mem_append]; exact .inl hx)) (s.g.rhsSyms n) w4 w3
        simp only [List.cons.injEq, and_true] at e1
        have hYn : Y = (s.g.rule n).lhs := b.dinv.names _ _ (hlt Y List.mem_cons_self) w1 (by rw [e3, w2, e1]) (by rw [e3]; simp)
        refine ⟨.node n ks :: gs, ?_, ?_⟩
        · rw [hYn]; exact .node w0 k1 g1
        · simp only [GTree.toTrees, GTree.toTree, g2, k2]
          rw [if_pos (List.getElem?_eq_some_iff.1 hu).1]
      · cases e2
      · exact absurd rfl (e1 u.lhs)

end

end Pomelo
