import Verif.Proofs.OpWritten
import Verif.Props.Complete
import Verif.Props.Prec
import Verif.Props.Order
import Verif.Props.Shape
import Verif.Proofs.OpNormal
import Verif.Proofs.Expected
import Verif.Proofs.WinsUnique
/-!
# C51: expressions with operators

`Verif/Spec/Operators.lean` has the grammars and the trees that agree with the precedences.
-/

namespace Pomelo

open Spec

variable {ord : List (SymbolId × SymbolId) → List (SymbolId × SymbolId)} {ds : List Decl} {t : Tables} {V X E : Type}

theorem reads_pos {g : Grammar} (hi : GInv g) {r : RuleId} (hr : r < g.rules.length) {Y : SymbolId} (hY : Y ∈ g.rhsSyms r) : ¬ Reads g Y 0 := by
  obtain ⟨h1, h2, _⟩ := hi.rhs r hr Y hY
  unfold Reads
  split
  · rintro rfl; exact h2 hi.dollar.1
  · intro h
    have := (hi.subs Y h1 0 h).2
    rw [hi.dollar.1] at this
    cases this
  · exact id

/-- Precedences of tokens against rules, as declared -/
theorem tokVs_of (ho : OrdOk ord) (hc : compile ord ds = .ok t) (R : Run ord ds) {k : Tok V} {a : SymbolId} {r : RuleId} (ha : a < R.g.syms.length)
    (hk : (R.g.sym a).kind = .terminal) (hm : k.major = (R.g.sym a).index) :
    (TokTighter ds t.tokenNames k r → R.g.TokVs a r .gt) ∧ (TokLooser ds t.tokenNames k r → R.g.TokVs a r .lt) := by
  have hi := (R.cspec hc).ginv ho
  have hn := (R.cspec hc).tokenName hi ha hk
  constructor
  · rintro ⟨i, u, p, p', h1, h2, h3, h4, h5⟩
    rw [hm] at h1
    have := hn.symm.trans h1
    refine ⟨p, p', ?_, ?_, precedenceCmp_gt.2 h5⟩
    · rw [token_precedence ho R ha (Option.some.inj this)]; exact h3
    · rw [C17_rule_precedence ho R.decls R.auto h2]; exact h4
  · rintro ⟨i, u, p, p', h1, h2, h3, h4, h5⟩
    rw [hm] at h1
    have := hn.symm.trans h1
    refine ⟨p, p', ?_, ?_, precedenceCmp_lt.2 h5⟩
    · rw [token_precedence ho R ha (Option.some.inj this)]; exact h3
    · rw [C17_rule_precedence ho R.decls R.auto h2]; exact h4

/-- The moves of a tree that agrees with the precedences win all conflicts. -/
theorem respects_wins (ho : OrdOk ord) (hc : compile ord ds = .ok t)
    (R : Run ord ds) {s e : Ident} (hop : operators ds s e = true) {T : Tree V} (h : IsOwnTree ds t.tokenNames T)
    (hres : Respects ds t.tokenNames T) (hp : ∀ tok ∈ T.yield, 0 < tok.major) :
    ∃ r kids q', R.g.Plain [.node r kids] [R.g.start.getD 0] ∧ GTree.toTrees (rulesOf ds).length [.node r kids] = [T] ∧ (GTree.node r kids).yield = T.yield ∧
      (R.g.rule r).lhs = R.g.start.getD 0 ∧ R.g.Moves R.sts 0 kids 0 (R.g.rhsSyms r) q' ∧ R.g.CanReduce R.sts q' 0 r ∧ R.g.Wins [] kids 0 (R.g.rhsSyms r) ∧
      (∀ r', ReducesOn R.g (R.g.rhsSyms r) 0 r' → r' = r) ∧ ∀ Z, ¬ ShiftsOn R.g (R.g.rhsSyms r) 0 Z := by
  obtain ⟨b⟩ := bridge ho R.decls R.auto
  have hi : GInv R.g := (R.cspec hc).ginv ho
  obtain ⟨n0, D⟩ := operators_opD hop
  obtain ⟨S, eS, G, e1, e2, e3⟩ := b.toBridge0.opG ho hi D
  have ha := automaton_auto ho R.decls R.auto
  obtain ⟨gt, h1, h2, h3⟩ := (R.cspec hc).unconv_root ho h hp
  change R.g.Plain [gt] [R.g.start.getD 0] at h1
  obtain ⟨r, kids, q', rfl, hl, hm, hcr⟩ := h1.root hi ha
  have hN : ∀ r, RuleOf R.g eS r → r < (rulesOf ds).length := by
    intro r hr
    obtain ⟨u, hu, _⟩ := e3 r hr
    exact (List.getElem?_eq_some_iff.1 hu).1
  have hr0 : r < R.g.rules.length := by
    generalize R.g.start.getD 0 = S0 at h1
    cases h1 with
    | node h _ _ => exact h
  have hr : r = n0 := G.only ⟨hr0, by rw [← G.start]; exact hl⟩
  subst hr
  have hk : R.g.Plain kids [eS] := by
    rw [← G.s0rhs]
    generalize R.g.start.getD 0 = S0 at h1
    cases h1 with
    | node _ h _ => exact h
  have hek : (R.g.sym eS).kind = .nonTerminal := by
    have hkk := hi.kinds eS (b.lt_of_gD e1)
    have hnt := D.nt
    rw [b.name e1, e2] at hkk
    revert hkk
    cases hkind : (R.g.sym eS).kind with
    | nonTerminal => intro _; rfl
    | terminal => cases e <;> simp [kindOk, Ident.isTerminal] at hnt ⊢
    | multiTerminal => cases e <;> simp [kindOk, Ident.isTerminal] at hnt ⊢
  have hlen := hk.len
  match kids, hlen with
  | [kid], _ =>
    obtain ⟨r1, kids1, rfl, hr1, hk1, _⟩ := OpG.plain_e hi hek hk
    have hT : T = .rule r [(GTree.node r1 kids1).toTree (rulesOf ds).length] := by
      obtain ⟨_, _, hu, _⟩ := D.root
      rw [toTrees_map] at h2
      simp only [List.map_cons, List.map_nil, List.cons.injEq, and_true] at h2
      rw [← h2, toTree_node (List.getElem?_eq_some_iff.1 hu).1]
      rfl
    have hres1 : Respects ds t.tokenNames ((GTree.node r1 kids1).toTree (rulesOf ds).length) := hres.sub (by rw [hT]; exact .rule (by simp) .refl)
    have hleft : OpG.LeftOk R.g r (rulesOf ds).length ds t.tokenNames ⟨r, 0⟩ (.node r1 kids1) := fun _ h => absurd rfl h
    have h00 : 0 < R.g.syms.length := Nat.lt_of_lt_of_le Nat.zero_lt_two hi.two
    have hright : OpG.RightOk R.g eS (rulesOf ds).length 0 (.node r1 kids1) := by
      intro b' b1 b2 b3 m' Y m1 m2 m3 m4
      exfalso
      have : b' = 0 := hi.index_inj b1 h00 (b3.trans hi.dollar.2.2.symm)
      subst this
      exact reads_pos hi m1.1 (List.mem_of_getElem? m3) m4
    have hW : R.g.Wins [] [.node r1 kids1] 0 [eS] := by
      have := OpG.plain_wins (S := S) (n := 0) hN (fun a1 a2 a3 => (tokVs_of ho hc R a1 a2 a3).1) (fun a1 a2 a3 => (tokVs_of ho hc R a1 a2 a3).2) G hi hk1 (d := 0) (front := [])
        .nil hr1 rfl (Nat.zero_le _) .nil hres1 hleft hright
      rw [← hr1.2]
      refine .node (by rw [nextOf_nil]; simpa using this) ?_ .nil
      intro b' b1 b2 b3
      exact OpG.node_wins hN G hi .nil hr1 hk1 hright b1 b2 b3
    refine ⟨r, _, q', h1, h2, h3, hl, hm, hcr, by rw [G.s0rhs]; exact hW, ?_, ?_⟩
    · rw [G.s0rhs]
      exact fun r' hr' => (G.reduce_after_e (δ := []) .nil hr').1
    · rintro Z ⟨it, a1, a2, a3⟩
      exact reads_pos hi a1.rule (List.mem_of_getElem? a2) a3

/-- The moves of a tree that agrees with the precedences are in the tables. -/
theorem respects_drive (ho : OrdOk ord) (hc : compile ord ds = .ok t) (hA : apart ord ds = true)
    (hw : wildcardOf ds = none) (R : Run ord ds) {s e : Ident} (hop : operators ds s e = true) {dflt : SymbolId} (m : Made (R.cspec hc) dflt) {T : Tree V} (h : IsOwnTree ds t.tokenNames T)
    (hres : Respects ds t.tokenNames T) (hp : ∀ tok ∈ T.yield, 0 < tok.major) :
    ∃ r kids q', R.g.Plain [.node r kids] [R.g.start.getD 0] ∧ GTree.toTrees (rulesOf ds).length [.node r kids] = [T] ∧ (GTree.node r kids).yield = T.yield ∧
      PDrive (R.cspec hc) 0 kids 0 (R.g.rhsSyms r) q' ∧ R.g.CanReduce R.sts q' 0 r ∧ t.findShift ((R.cspec hc).num q') 0 = .ok (t.nState + r) := by
  obtain ⟨b⟩ := bridge ho R.decls R.auto
  have hi : GInv R.g := (R.cspec hc).ginv ho
  have hw' : R.g.wildcard = none := by
    have h1 := b.decl.wildcard
    rw [hw, ← b.wildcard] at h1
    simpa using h1
  obtain ⟨r, kids, q', h1, h2, h3, _, hm, hcr, hW, hu, hs⟩ := respects_wins ho hc R hop h hres hp
  have hpath : R.g.Path R.sts (R.g.rhsSyms r) q' := hm.path (.nil (g := R.g) (sts := R.sts))
  have hlook := m.look_reduce_of ho hA (.of_none hw') hpath hcr hu (fun Z hZ => absurd hZ (hs Z))
  change t.findShift ((R.cspec hc).num q') (R.g.sym 0).index = _ at hlook
  rw [hi.dollar.2.2] at hlook
  exact ⟨r, _, q', h1, h2, h3, m.pdrive_wins ho hA (.of_none hw') hm .nil hW, hcr, hlook⟩

/-- C51: there is at most one tree that agrees with the precedences. -/
theorem C51_unique (ho : OrdOk ord) (hc : compile ord ds = .ok t) {s e : Ident} (hop : operators ds s e = true) {T T' : Tree V}
    (h : IsOwnTree ds t.tokenNames T) (h' : IsOwnTree ds t.tokenNames T') (hres : Respects ds t.tokenNames T) (hres' : Respects ds t.tokenNames T')
    (hp : ∀ tok ∈ T.yield, 0 < tok.major) (hy : T.yield = T'.yield) : T = T' := by
  obtain ⟨R⟩ := run_exists hc
  obtain ⟨b⟩ := bridge ho R.decls R.auto
  obtain ⟨hi, ha, hsp⟩ := R.aspec ho
  obtain ⟨r1, k1, q1, _, a2, a3, a4, a5, a6, a7, a8, _⟩ := respects_wins ho hc R hop h hres hp
  obtain ⟨r2, k2, q2, _, b2, b3, b4, b5, b6, b7, b8, _⟩ := respects_wins ho hc R hop h' hres' (hy ▸ hp)
  have := wins_unique hi ha b.noStart hsp a4 a5 a6 a7 a8 b4 b5 b6 b7 b8 (by
    have := a3.trans (hy.trans b3.symm)
    simpa [GTree.yield] using this)
  rw [this, b2] at a2
  exact (List.cons.inj a2).1.symm

/-- C51: the tokens of a tree that agrees with the precedences are accepted with the value of that tree, unless a block
returns `Err` or the stack is full. -/
theorem C51_respects_partial (ho : OrdOk ord) (hc : compile ord ds = .ok t) (hf : flat ds = true) (hA : apart ord ds = true) (hr : rootOk ds = true)
    (hw : wildcardOf ds = none) {s e : Ident} (hop : operators ds s e = true) (sem : Sem V X E) (x : X) {T : Tree V} (h : IsOwnTree ds t.tokenNames T)
    (hres : Respects ds t.tokenNames T) (hv : ∀ tok ∈ T.yield, tok.Valid t sem) : AcceptsTree ds t sem x T ∨ FailsTree ds t sem x T ∨ OverflowsTree t sem x T := by
  obtain ⟨R⟩ := run_exists hc
  obtain ⟨dflt, m⟩ := (R.cspec hc).made ho hf
  obtain ⟨b⟩ := bridge ho R.decls R.auto
  obtain ⟨r, kids, q', h1, h2, h3, h4, h5, h6⟩ := respects_drive ho hc hA hw R hop m h hres (fun tok ht => (hv tok ht).pos)
  have hw' : R.g.wildcard = none := by
    have h1 := b.decl.wildcard
    rw [hw, ← b.wildcard] at h1
    simpa using h1
  exact m.acceptsTree ho hf b hr (.of_none hw') sem x h1 h2 h3 h4 h5 h6 hv

/-! ## Every sentence has a tree that agrees with the precedences -/

/-- The tokens and operands of rule `n` -/
def OpShape (ds : List Decl) (names : List SymName) (e : Ident) (n : Nat) (sh : List (Option (Tok V))) : Prop :=
  ∃ u, (rulesOf ds)[n]? = some u ∧ u.lhs = e ∧ List.Forall₂ (fun o x => (o = none ∧ operand e x = true) ∨
    (∃ k i, o = some k ∧ operand e x = false ∧ names[k.major]? = some (.ident i) ∧ Matches ds x i)) sh u.rhs

theorem opShape_shaped {names : List SymName} {s e : Ident} {n0 : Nat} (D : OpD ds s e n0) : Norm.Shaped (OpShape (V := V) ds names e) := by
  constructor
  · rintro n l l' ⟨u, hu, he, h⟩
    have key : ∀ d : Nat, (l ++ none :: none :: l')[d]? = some none → ∃ x, u.rhs[d]? = some x ∧ operand e x = true := by
      intro d hd
      rcases forall₂_getElem? h d with ⟨h1, _⟩ | ⟨o, x, h1, h2, h3⟩
      · rw [hd] at h1; cases h1
      · rw [hd] at h1
        cases h1
        rcases h3 with ⟨_, h3⟩ | ⟨_, _, h3, _⟩
        · exact ⟨x, h2, h3⟩
        · cases h3
    obtain ⟨x, hx, ox⟩ := key l.length (by simp)
    obtain ⟨y, hy, oy⟩ := key (l.length + 1) (by simp [List.getElem?_append_right])
    exact spaced_get (D.spaced hu he) hx hy ⟨ox, oy⟩
  · rintro n ⟨u, hu, he, h⟩
    obtain ⟨x, hx, ox⟩ := D.token hu he
    generalize hr : u.rhs = es at h
    cases h with
    | cons h1 h2 =>
      cases h2
      rw [hr] at hx
      rw [List.mem_singleton.1 hx] at ox
      rcases h1 with ⟨_, h1⟩ | ⟨_, _, h1, _⟩
      · rw [ox] at h1; cases h1
      · cases h1

theorem fits_cons {D : List Decl} {names : List SymName} {T : Tree V} {ts : List (Tree V)} {x : RhsElem} {es : List RhsElem} (h : Spec.Fits D names [T] [x])
    (h' : Spec.Fits D names ts es) : Spec.Fits D names (T :: ts) (x :: es) := by
  cases h with
  | tok h1 h2 h3 => exact .tok h1 h2 h3 h'
  | absent => exact .absent h'
  | present h1 => exact .present h1 h'
  | rule h1 h2 => exact .rule h1 h2 h'

theorem operand_eq {e : Ident} {x : RhsElem} (h : operand e x = true) : x = ⟨[e], false, x.alias⟩ := by
  unfold operand at h
  simp only [Bool.and_eq_true, beq_iff_eq, Bool.not_eq_true'] at h
  obtain ⟨toks, opt, al⟩ := x
  simp only at h
  rw [h.1, h.2]

/-- Derivation trees of the expressions as trees of shapes -/
theorem fits_et {names : List SymName} {s e : Ident} {n0 : Nat} (D : OpD ds s e n0) (hcl : isClass ds e = false)
    (hnm : ∀ (n : Nat) (i : Ident), names[n]? = some (.ident i) → i.isTerminal = true) (hlhs : ∀ (n : Nat) (u : URule), (rulesOf ds)[n]? = some u → u.lhs.isTerminal = false)
    {ts : List (Tree V)} {es : List RhsElem} (h : Spec.Fits (ownTokens ds) names ts es) (he : ∀ x ∈ es, operand e x = true ∨ tokenElem x = true) :
    List.Forall₂ (fun T x => (Norm.tokOf T = none ∧ operand e x = true ∧ Norm.ET (OpShape ds names e) T) ∨
      (∃ k i, T = .tok k ∧ operand e x = false ∧ names[k.major]? = some (.ident i) ∧ Matches ds x i)) ts es := by
  induction h with
  | nil => exact .nil
  | @tok k i j x ts es h1 h2 h3 _ ih =>
    cases own_taken h2
    have hm := own_matches.1 h3
    refine .cons (.inr ⟨k, i, rfl, ?_, h1, hm⟩) (ih (fun x hx => he x (List.mem_cons_of_mem _ hx)))
    cases ho : operand e x with
    | false => rfl
    | true =>
      exfalso
      rw [operand_eq ho] at hm
      have : i = e := by
        have := hm.2
        simpa [hcl] using this
      have h4 := hnm _ _ h1
      rw [this, D.nt] at h4
      cases h4
  | @absent i al ts es _ _ =>
    exfalso
    rcases he _ List.mem_cons_self with h | h
    · simp [operand] at h
    · simp [tokenElem] at h
  | @present T i al ts es _ _ _ _ =>
    exfalso
    rcases he _ List.mem_cons_self with h | h
    · simp [operand] at h
    · simp [tokenElem] at h
  | @rule n u kids al ts es h1 _ _ ih1 ih2 =>
    rw [own_rules] at h1
    refine .cons (.inl ⟨rfl, ?_, ?_⟩) (ih2 (fun x hx => he x (List.mem_cons_of_mem _ hx)))
    · rcases he _ List.mem_cons_self with h | h
      · exact h
      · simp [tokenElem, hlhs n u h1] at h
    · have hue : u.lhs = e := by
        rcases he _ List.mem_cons_self with h | h
        · simpa [operand] using h
        · simp [tokenElem, hlhs n u h1] at h
      have := ih1 (D.elems h1 hue)
      have key : ∀ (ks : List (Tree V)) (xs : List RhsElem), List.Forall₂ (fun T x => (Norm.tokOf T = none ∧ operand e x = true ∧ Norm.ET (OpShape ds names e) T) ∨
            (∃ k i, T = .tok k ∧ operand e x = false ∧ names[k.major]? = some (.ident i) ∧ Matches ds x i)) ks xs →
          List.Forall₂ (fun o x => (o = none ∧ operand e x = true) ∨
            (∃ k i, o = some k ∧ operand e x = false ∧ names[k.major]? = some (.ident i) ∧ Matches ds x i)) (ks.map Norm.tokOf) xs ∧
          ∀ T ∈ ks, Norm.tokOf T = none → Norm.ET (OpShape ds names e) T := by
        intro ks xs hh
        induction hh with
        | nil => exact ⟨.nil, by simp⟩
        | cons hd _ ih =>
          rcases hd with ⟨a1, a2, a3⟩ | ⟨k, i, rfl, a2⟩
          · refine ⟨.cons (.inl ⟨a1, a2⟩) ih.1, ?_⟩
            intro T hT hTn
            rcases List.mem_cons.1 hT with rfl | hT
            · exact a3
            · exact ih.2 T hT hTn
          · refine ⟨.cons (.inr ⟨k, i, rfl, a2⟩) ih.1, ?_⟩
            intro T hT hTn
            rcases List.mem_cons.1 hT with rfl | hT
            · cases hTn
            · exact ih.2 T hT hTn
      obtain ⟨k1, k2⟩ := key _ _ this
      exact .mk ⟨u, h1, hue, k1⟩ k2

theorem et_fits {names : List SymName} {e : Ident} {T : Tree V} (h : Norm.ET (OpShape ds names e) T) (al : Bool) : Spec.Fits (ownTokens ds) names [T] [⟨[e], false, al⟩] := by
  induction h generalizing al with
  | @mk n kids h1 h2 ih =>
    obtain ⟨u, hu, rfl, hf⟩ := h1
    refine .rule (by rw [own_rules]; exact hu) ?_ .nil
    generalize u.rhs = xs at hf
    clear hu
    induction kids generalizing xs with
    | nil => cases hf; exact .nil
    | cons T kids ih' =>
      cases hf with
      | @cons _ x _ xs hx hf =>
        refine fits_cons ?_ (ih' (fun T hT => h2 T (List.mem_cons_of_mem _ hT)) (fun T hT => ih T (List.mem_cons_of_mem _ hT)) _ hf)
        rcases hx with ⟨a1, a2⟩ | ⟨k, i, a1, a2, a3, a4⟩
        · rw [operand_eq a2]
          exact ih T List.mem_cons_self a1 _
        · have : T = .tok k := by
            cases T with
            | tok => cases a1; rfl
            | _ => cases a1
          rw [this]
          exact .tok a3 .self (own_matches.2 a4) .nil

theorem viable_whole {g : Grammar} {δ : List SymbolId} {r : RuleId} (h : Viable g δ ⟨r, 0⟩) : Viable g (δ ++ g.rhsSyms r) ⟨r, (g.rhsSyms r).length⟩ := by
  have : ∀ d, d ≤ (g.rhsSyms r).length → Viable g (δ ++ (g.rhsSyms r).take d) ⟨r, d⟩ := by
    intro d
    induction d with
    | zero => intro _; simpa using h
    | succ d ihd =>
      intro hdl
      have e := ihd (Nat.le_of_succ_le hdl)
      have hX : atDot g (⟨r, d⟩ : Item) = some ((g.rhsSyms r)[d]'hdl) := List.getElem?_eq_getElem hdl
      have := Viable.shift e hX
      rwa [List.append_assoc, List.take_append_getElem] at this
  have := this _ (Nat.le_refl _)
  rwa [List.take_length] at this

/-- Of a rule that ends with an operand and an operator, both have precedences. -/
theorem operators_total (ho : OrdOk ord) (hc : compile ord ds = .ok t) (hn : noNonassoc ds = true) {s e : Ident} {n0 : Nat} (D : OpD ds s e n0)
    {m n : Nat} {k k' : Tok V} {sh sh' : List (Option (Tok V))} (hm : OpShape ds t.tokenNames e m (none :: some k :: sh))
    (hn' : OpShape ds t.tokenNames e n (sh' ++ [some k', none])) : TokTighter ds t.tokenNames k n ∨ TokLooser ds t.tokenNames k n := by
  obtain ⟨R⟩ := run_exists hc
  obtain ⟨b⟩ := bridge ho R.decls R.auto
  have hi : GInv R.g := (R.cspec hc).ginv ho
  have ha := automaton_auto ho R.decls R.auto
  obtain ⟨S, eS, G, e1, e2, e3⟩ := b.toBridge0.opG ho hi D
  obtain ⟨u, hu, hue, fu⟩ := hm
  obtain ⟨v, hv, hve, fv⟩ := hn'
  have opS : ∀ {x : RhsElem} {X : SymbolId}, operand e x = true → X < b.gD.syms.length → ElemSym b.gD x X → X = eS := by
    intro x X hx hXl hX
    refine b.same_name hXl e1 ?_ e2
    rw [operand_eq hx] at hX
    rcases hX with ⟨tok, h1, h2, h3⟩ | ⟨tok, symR, h1, h2, _⟩ | ⟨h1, _⟩
    · cases h1; exact h3
    · cases h2
    · exact absurd rfl (h1 e)
  obtain ⟨w1, w2, w3, w4, w5, _⟩ := b.written ho hu
  obtain ⟨z1, z2, z3, z4, z5, _⟩ := b.written ho hv
  have rm : RuleOf R.g eS m := ⟨w1, b.same_name w2 e1 (by rw [w3, hue]) e2⟩
  have rn : RuleOf R.g eS n := ⟨z1, b.same_name z2 e1 (by rw [z3, hve]) e2⟩
  -- the operator
  obtain ⟨Y, γ, i, hrm, hYl, hki, x, hxY, hxi⟩ : ∃ Y γ i, R.g.rhsSyms m = eS :: Y :: γ ∧ Y < b.gD.syms.length ∧ t.tokenNames[k.major]? = some (.ident i) ∧
      ∃ x, ElemSym b.gD x Y ∧ Matches ds x i := by
    generalize u.rhs = us at fu w4
    cases fu with
    | cons f1 fu =>
      cases fu with
      | cons f2 fu =>
        generalize hr : R.g.rhsSyms m = rs at w4 w5
        cases w4 with
        | @cons _ X0 _ _ g1 w4 =>
          cases w4 with
          | @cons _ Y _ γ g2 w4 =>
            rcases f1 with ⟨_, f1⟩ | ⟨_, _, f1, _⟩
            swap
            · cases f1
            rcases f2 with ⟨f2, _⟩ | ⟨k2, i, f2, _, f3, f4⟩
            · cases f2
            cases f2
            refine ⟨Y, γ, i, ?_, w5 Y (by simp), f3, _, g2, f4⟩
            rw [opS f1 (w5 X0 (by simp)) g1]
  obtain ⟨a, a1, a2, a3, a4⟩ := ((R.cspec hc).tokenName_iff hi).1 hki
  have a0 : a ≠ 0 := by
    rintro rfl
    have h5 : (R.g.sym 0).name = .ident i := a4
    rw [hi.dollar.1] at h5
    cases h5
  have hkind : (R.g.sym a).kind = .terminal := a2
  obtain ⟨had, j, hj, hjt⟩ := b.toBridge0.terminal_name hi a1 a2 a0
  have hij : j = i := by
    have h5 : (R.g.sym a).name = .ident i := a4
    rw [b.name had, hj] at h5
    cases h5
    rfl
  subst hij
  have hYa : Reads R.g Y a := (b.reads_matches hYl hxY had hj hjt).2 hxi
  -- the rule that ends with an operand
  obtain ⟨α, hα⟩ : ∃ α, R.g.rhsSyms n = α ++ [eS] := by
    have hl : (sh' ++ [some k', none]).length = v.rhs.length := fv.length_eq
    have hl2 := z4.length_eq
    simp only [List.length_append, List.length_cons, List.length_nil] at hl
    rcases forall₂_getElem? fv (sh'.length + 1) with ⟨h1, _⟩ | ⟨o, x, h1, h2, h3⟩
    · simp [List.getElem?_append_right] at h1
    · have ho : o = none := by simpa [List.getElem?_append_right] using h1.symm
      subst ho
      rcases h3 with ⟨_, h3⟩ | ⟨_, _, h3, _⟩
      swap
      · cases h3
      rcases forall₂_getElem? z4 (sh'.length + 1) with ⟨h4, _⟩ | ⟨x', X, h4, h5, h6⟩
      · rw [h2] at h4; cases h4
      · rw [h2] at h4
        cases h4
        rw [opS h3 (z5 X (List.mem_of_getElem? h5)) h6] at h5
        refine ⟨(R.g.rhsSyms n).take (sh'.length + 1), ?_⟩
        have h7 : (R.g.rhsSyms n).take (sh'.length + 1 + 1) = R.g.rhsSyms n := List.take_of_length_le (by rw [← hl2]; omega)
        rw [List.take_add_one, h5] at h7
        exact h7.symm
  have v0 : Viable R.g [] ⟨n0, 0⟩ := .start (by rw [G.start]; exact G.root)
  have v1 : Viable R.g [] ⟨n, 0⟩ := .close v0 (A := eS) (by unfold atDot; rw [G.s0rhs]; rfl) rn
  have v2 := viable_whole v1
  have hsh := shiftsOn_open v2 hα rm hrm hYa
  have htok : IsToken R.g a := ⟨a1, a2⟩
  have hred := reducesOn_open (b.noStart n rn.1) (by rw [b.start]; rfl) v2 (by rw [hα]; simp) rn rm hrm hYa htok
  obtain ⟨q, hq⟩ := viable_path hi ha v2
  obtain ⟨p, p', p1, p2, _⟩ := C14_losers ho R ((R.stateOf_path ho v2).2 hq) hsh hred
  rw [token_precedence ho R a1 a4] at p1
  rw [C17_rule_precedence ho R.decls R.auto hv] at p2
  rcases Nat.lt_trichotomy p.level p'.level with h | h | h
  · exact .inr ⟨_, v, p, p', hki, hv, p1, p2, .inl h⟩
  · cases has : p.assoc with
    | left => exact .inr ⟨_, v, p, p', hki, hv, p1, p2, .inr ⟨h, has⟩⟩
    | right => exact .inl ⟨_, v, p, p', hki, hv, p1, p2, .inr ⟨h, has⟩⟩
    | none => exact absurd has (noNonassoc_prec hn p1)
  · exact .inl ⟨_, v, p, p', hki, hv, p1, p2, .inl h⟩

/-- C51: every sentence has a tree that agrees with the precedences. -/
theorem C51_exists (ho : OrdOk ord) (hc : compile ord ds = .ok t) (hn : noNonassoc ds = true) {s e : Ident} (hop : operators ds s e = true) {T : Tree V}
    (h : IsOwnTree ds t.tokenNames T) : ∃ T' : Tree V, IsOwnTree ds t.tokenNames T' ∧ T'.yield = T.yield ∧ Respects ds t.tokenNames T' := by
  obtain ⟨R⟩ := run_exists hc
  obtain ⟨b⟩ := bridge ho R.decls R.auto
  have hi : GInv R.g := (R.cspec hc).ginv ho
  obtain ⟨n0, D⟩ := operators_opD hop
  obtain ⟨S, eS, G, e1, e2, e3⟩ := b.toBridge0.opG ho hi D
  have hnm : ∀ (n : Nat) (i : Ident), t.tokenNames[n]? = some (.ident i) → i.isTerminal = true := by
    intro n i hni
    obtain ⟨a, a1, a2, _, a4⟩ := ((R.cspec hc).tokenName_iff hi).1 hni
    have a0 : a ≠ 0 := by
      rintro rfl
      have h5 : (R.g.sym 0).name = .ident i := a4
      rw [hi.dollar.1] at h5
      cases h5
    obtain ⟨had, j, hj, hjt⟩ := b.toBridge0.terminal_name hi a1 a2 a0
    have h5 : (R.g.sym a).name = .ident i := a4
    rw [b.name had, hj] at h5
    cases h5
    rw [hj] at hjt
    cases i <;> first | rfl | cases hjt
  have hlhs : ∀ (n : Nat) (u : URule), (rulesOf ds)[n]? = some u → u.lhs.isTerminal = false := by
    intro n u hu
    obtain ⟨w1, w2, w3, _⟩ := b.written ho hu
    have hk := hi.kinds _ (b.lt_of_gD w2)
    rw [(hi.lhs n w1).2.1, b.name w2, w3] at hk
    cases hl : u.lhs <;> rw [hl] at hk <;> first | rfl | cases hk
  have hcl : ∀ (x : SymbolId) (i : Ident), x < b.gD.syms.length → (b.gD.sym x).name = .ident i → i.isTerminal = false → isClass ds i = false := by
    intro x i hx hn hnt
    cases hc : isClass ds i with
    | false => rfl
    | true =>
      exfalso
      have hk := b.dinv.kinds x hx
      rw [(b.decl.sym b.dinv hx hn).2.1.2 hc, hn] at hk
      cases i <;> simp [kindOk, Ident.isTerminal] at hnt hk
  obtain ⟨u0, x0, r1, r2, r3, r4⟩ := D.root
  have hs0 : isClass ds s = false := by
    obtain ⟨_, w2, w3, _⟩ := b.written ho r1
    rw [r2] at w3
    exact hcl _ _ w2 w3 (r2 ▸ hlhs _ _ r1)
  obtain ⟨i, hs, hf⟩ := h
  rw [own_startOf, D.start] at hs
  cases hs
  generalize hes : (⟨[s], false, false⟩ : RhsElem) = es at hf
  cases hf with
  | @tok k i j x ts es h1 h2 h3 _ =>
    exfalso
    cases own_taken h2
    have := (own_matches.1 h3)
    rw [← hes] at this
    have h4 : i = s := by simpa [hs0] using this.2
    have h5 := hnm _ _ h1
    rw [h4, ← r2, hlhs _ _ r1] at h5
    cases h5
  | absent => cases hes
  | present => cases hes
  | @rule n u kids al ts es h1 h2 h3 =>
    cases hes
    cases h3
    rw [own_rules] at h1
    cases D.only h1 rfl
    rw [r1] at h1
    cases h1
    rw [r3] at h2
    have hk := fits_et D (hcl _ _ e1 e2 D.nt) hnm hlhs h2 (by
      intro x hx
      rw [List.mem_singleton.1 hx]
      exact .inl r4)
    cases hk with
    | @cons T0 _ _ _ hk hnil =>
      cases hnil
      rcases hk with ⟨_, _, hT⟩ | ⟨_, _, _, h5, _⟩
      swap
      · rw [r4] at h5; cases h5
      obtain ⟨T1, ⟨g1, g2⟩, g3⟩ := Norm.normal (Lo := TokLooser ds t.tokenNames) (Ti := TokTighter ds t.tokenNames) (opShape_shaped D)
        (fun hm hn' => operators_total ho hc hn D hm hn') hT
      refine ⟨.rule n0 [T1], ⟨u0.lhs, by rw [own_startOf]; exact D.start, .rule (by rw [own_rules]; exact r1) ?_ .nil⟩, ?_, ?_⟩
      · rw [r3, operand_eq r4]
        exact et_fits g1 _
      · simp only [Tree.yield, Tree.yields, g3]
      · have := Norm.resp_rule (n := n0) (kids := [T1]) (Lo := TokLooser ds t.tokenNames) (Ti := TokTighter ds t.tokenNames) (by
          intro L k rest h6; cases h6) (by
          intro front k' R h6
          have := congrArg List.length h6
          simp at this) (by
          intro T hT
          rw [List.mem_singleton.1 hT]
          exact g2)
        exact ⟨this.left, this.right⟩

/-- C51 in full -/
def C51_statement : Prop :=
  ∀ (ord : List (SymbolId × SymbolId) → List (SymbolId × SymbolId)), OrdOk ord → ∀ (ds : List Decl) (t : Tables), compile ord ds = .ok t →
    noNonassoc ds = true → ∀ (s e : Ident), operators ds s e = true → ∀ (sem : Sem Int (List Nat) Unit) (x : List Nat) (T : Tree Int), IsOwnTree ds t.tokenNames T →
      (∀ tok ∈ T.yield, tok.Valid t sem) →
      ∃ T' : Tree Int, (IsOwnTree ds t.tokenNames T' ∧ T'.yield = T.yield ∧ Respects ds t.tokenNames T') ∧
        (∀ T'' : Tree Int, IsOwnTree ds t.tokenNames T'' → T''.yield = T.yield → Respects ds t.tokenNames T'' → T'' = T') ∧
        (AcceptsTree ds t sem x T' ∨ FailsTree ds t sem x T' ∨ OverflowsTree t sem x T')

/-- C51: every sentence has exactly one tree that agrees with the precedences, and is accepted with the value of that
tree, unless a block returns `Err` or the stack is full.
Missing: wildcards, and grammars where `flat`, `apart` or `rootOk` fail; without `rootOk` it is false, see `C51_false`. -/
theorem C51_partial (ho : OrdOk ord) (hc : compile ord ds = .ok t) (hf : flat ds = true) (hA : apart ord ds = true) (hr : rootOk ds = true)
    (hw : wildcardOf ds = none) (hn : noNonassoc ds = true) {s e : Ident} (hop : operators ds s e = true) (sem : Sem V X E) (x : X) {T : Tree V} (h : IsOwnTree ds t.tokenNames T)
    (hv : ∀ tok ∈ T.yield, tok.Valid t sem) :
    ∃ T' : Tree V, (IsOwnTree ds t.tokenNames T' ∧ T'.yield = T.yield ∧ Respects ds t.tokenNames T') ∧
      (∀ T'' : Tree V, IsOwnTree ds t.tokenNames T'' → T''.yield = T.yield → Respects ds t.tokenNames T'' → T'' = T') ∧
      (AcceptsTree ds t sem x T' ∨ FailsTree ds t sem x T' ∨ OverflowsTree t sem x T') := by
  obtain ⟨T', h1, h2, h3⟩ := C51_exists ho hc hn hop h
  have hv' : ∀ tok ∈ T'.yield, tok.Valid t sem := h2 ▸ hv
  refine ⟨T', ⟨h1, h2, h3⟩, ?_, C51_respects_partial ho hc hf hA hr hw hop sem x h1 h3 hv'⟩
  intro T'' g1 g2 g3
  exact (C51_unique ho hc hop h1 g1 h3 g3 (fun tok ht => (hv' tok ht).pos) (h2.trans g2.symm)).symm

/-! ## Examples -/

namespace Opex
open Tests (U L s r)
open Examples

/-- `%type Num i; %type s i; %type e i; %right Quest; %left Plus Dash; %left Star; %right Neg; %token_class Add Plus Dash;
s ::= e; e ::= e(A) Add e(B) { 0 }; e ::= e(A) Star e(B) { 1 }; e ::= e(A) Quest e(B) Colon e(C) { 2 };
e ::= [Neg] Plus e(A) { 3 }; e ::= LP e RP; e ::= Num`;
numbers: Num 1, Quest 2, Plus 3, Dash 4, Star 5, Neg 6, Colon 7, LP 8, RP 9 -/
def sums : List Decl :=
  [ .type false (U 1) (some (.named 0)), .type false (L 0) (some (.named 0)), .type false (L 1) (some (.named 0))
  , .assoc .right [U 6], .assoc .left [U 2, U 9], .assoc .left [U 3], .assoc .right [U 8]
  , .tokenClass (U 10) [U 2, U 9]
  , r (L 0) [s (L 1)]
  , r (L 1) [s (L 1) true, s (U 10), s (L 1) true] (some 0), r (L 1) [s (L 1) true, s (U 3), s (L 1) true] (some 1)
  , r (L 1) [s (L 1) true, s (U 6), s (L 1) true, s (U 7), s (L 1) true] (some 2)
  , r (L 1) [s (U 2), s (L 1) true] (some 3) (some (U 8)), r (L 1) [s (U 4), s (L 1), s (U 5)], r (L 1) [s (U 1)] ]

/-- Its tokens by number -/
def names : List SymName :=
  [.dollar, .ident (U 1), .ident (U 6), .ident (U 2), .ident (U 9), .ident (U 3), .ident (U 8), .ident (U 7), .ident (U 4), .ident (U 5)]

theorem sums_names : (tablesOf sums).tokenNames = names := by decide +kernel

/-- The written rules -/
def rule0 : URule := ⟨L 0, [⟨[L 1], false, false⟩], none, none⟩
def rule1 : URule := ⟨L 1, [⟨[L 1], false, true⟩, ⟨[U 10], false, false⟩, ⟨[L 1], false, true⟩], some 0, none⟩
def rule2 : URule := ⟨L 1, [⟨[L 1], false, true⟩, ⟨[U 3], false, false⟩, ⟨[L 1], false, true⟩], some 1, none⟩
def rule3 : URule := ⟨L 1, [⟨[L 1], false, true⟩, ⟨[U 6], false, false⟩, ⟨[L 1], false, true⟩, ⟨[U 7], false, false⟩, ⟨[L 1], false, true⟩], some 2, none⟩
def rule4 : URule := ⟨L 1, [⟨[U 2], false, false⟩, ⟨[L 1], false, true⟩], some 3, some (U 8)⟩
def rule6 : URule := ⟨L 1, [⟨[U 1], false, false⟩], none, none⟩

/-- A number -/
def num (v : Int) : Tree Int := .rule 6 [.tok ⟨1, v⟩]
/-- Sum, product, choice and sign -/
def add (a b : Tree Int) : Tree Int := .rule 1 [a, .tok ⟨4, 0⟩, b]
def mul (a b : Tree Int) : Tree Int := .rule 2 [a, .tok ⟨5, 0⟩, b]
def ite (a b c : Tree Int) : Tree Int := .rule 3 [a, .tok ⟨2, 0⟩, b, .tok ⟨7, 0⟩, c]
def sign (a : Tree Int) : Tree Int := .rule 4 [.tok ⟨3, 0⟩, a]

/-- A tree of an expression -/
def IsE (T : Tree Int) : Prop := ∀ al, Spec.Fits (ownTokens sums) names [T] [⟨[L 1], false, al⟩]

theorem isE_num (v : Int) : IsE (num v) := fun _ => .rule (u := rule6) (by rfl) (.tok (i := U 1) (j := U 1) (by rfl) .self ⟨rfl, rfl⟩ .nil) .nil
theorem isE_add {a b : Tree Int} (ha : IsE a) (hb : IsE b) : IsE (add a b) := fun _ =>
  .rule (u := rule1) (by rfl) (fits_cons (ha _) (.tok (i := U 9) (j := U 9) (by rfl) .self (show _ ∧ _ from ⟨rfl, by decide⟩) (hb _))) .nil
theorem isE_mul {a b : Tree Int} (ha : IsE a) (hb : IsE b) : IsE (mul a b) := fun _ =>
  .rule (u := rule2) (by rfl) (fits_cons (ha _) (.tok (i := U 3) (j := U 3) (by rfl) .self ⟨rfl, rfl⟩ (hb _))) .nil
theorem isE_ite {a b c : Tree Int} (ha : IsE a) (hb : IsE b) (hc : IsE c) : IsE (ite a b c) := fun _ =>
  .rule (u := rule3) (by rfl) (fits_cons (ha _) (.tok (i := U 6) (j := U 6) (by rfl) .self ⟨rfl, rfl⟩ (fits_cons (hb _)
    (.tok (i := U 7) (j := U 7) (by rfl) .self ⟨rfl, rfl⟩ (hc _))))) .nil
theorem isE_sign {a : Tree Int} (ha : IsE a) : IsE (sign a) := fun _ =>
  .rule (u := rule4) (by rfl) (.tok (i := U 2) (j := U 2) (by rfl) .self ⟨rfl, rfl⟩ (ha _)) .nil
theorem isE_root {a : Tree Int} (ha : IsE a) : IsOwnTree sums (tablesOf sums).tokenNames (.rule 0 [a]) := by
  rw [sums_names]
  exact ⟨L 0, by decide, .rule (u := rule0) (by rfl) (ha _) .nil⟩

/-- Some tree of `+ 2 - 3 * 4 ? 5 : 6 ? 7 : 8`, at odds with all precedences -/
def odd : Tree Int := .rule 0 [ite (sign (mul (add (num 2) (num 3)) (ite (num 4) (num 5) (num 6)))) (num 7) (num 8)]
/-- The tree that agrees with the precedences -/
def even : Tree Int := .rule 0 [ite (add (sign (num 2)) (mul (num 3) (num 4))) (num 5) (ite (num 6) (num 7) (num 8))]

theorem odd_ok : IsOwnTree sums (tablesOf sums).tokenNames odd :=
  isE_root (isE_ite (isE_sign (isE_mul (isE_add (isE_num _) (isE_num _)) (isE_ite (isE_num _) (isE_num _) (isE_num _)))) (isE_num _) (isE_num _))
theorem even_ok : IsOwnTree sums (tablesOf sums).tokenNames even :=
  isE_root (isE_ite (isE_add (isE_sign (isE_num _)) (isE_mul (isE_num _) (isE_num _))) (isE_num _) (isE_ite (isE_num _) (isE_num _) (isE_num _)))

theorem odd_valid (sem : Sem Int X E) (h : sem.unit = 0) : ∀ tok ∈ odd.yield, tok.Valid (tablesOf sums) sem := by
  intro tok ht
  have := List.all_eq_true.1 (by decide +kernel : odd.yield.all (fun tok => 0 < tok.major && tok.major < (tablesOf sums).numTerminals &&
    ((tablesOf sums).tokenDt.getD tok.major 0 != 0 || tok.val == 0)) = true) tok ht
  simp only [Bool.and_eq_true, decide_eq_true_eq, Bool.or_eq_true, bne_iff_ne, beq_iff_eq] at this
  exact ⟨this.1.1, this.1.2, fun h0 => by rw [h]; exact this.2.resolve_left (fun hn => hn h0)⟩

-- all hypotheses of `C51_partial` are met, with a class, a sign, a choice and `%right`
example (sem : Sem Int X E) (h : sem.unit = 0) (x : X) :
    ∃ T' : Tree Int, (IsOwnTree sums (tablesOf sums).tokenNames T' ∧ T'.yield = odd.yield ∧ Respects sums (tablesOf sums).tokenNames T') ∧
      (∀ T'' : Tree Int, IsOwnTree sums (tablesOf sums).tokenNames T'' → T''.yield = odd.yield → Respects sums (tablesOf sums).tokenNames T'' → T'' = T') ∧
      (AcceptsTree sums (tablesOf sums) sem x T' ∨ FailsTree sums (tablesOf sums) sem x T' ∨ OverflowsTree (tablesOf sums) sem x T') :=
  C51_partial OrdOk.id (compiles_iff (by decide +kernel)) (by decide +kernel) (by decide +kernel) (by decide +kernel) (by decide) (by decide)
    (by decide +kernel : operators sums (L 0) (L 1) = true) sem x odd_ok (odd_valid sem h)

theorem right_inv {n r : Nat} {kids : List (Tree Int)} (h : OnRight (.rule n kids) r) :
    ∃ front k T, kids = front ++ [.tok k, T] ∧ (r = n ∨ OnRight T r) := by
  cases h with
  | here => exact ⟨_, _, _, rfl, .inl rfl⟩
  | down h => exact ⟨_, _, _, rfl, .inr h⟩

theorem left_inv {n : Nat} {j : Tok Int} {kids : List (Tree Int)} (h : OnLeft (.rule n kids) j) : ∃ T k rest, kids = T :: .tok k :: rest ∧ (j = k ∨ OnLeft T j) := by
  cases h with
  | here => exact ⟨_, _, _, rfl, .inl rfl⟩
  | down h => exact ⟨_, _, _, rfl, .inr h⟩

/-- The last two of a list -/
theorem last_two {α : Type} {l front : List α} {x y x' y' : α} (h : l ++ [x, y] = front ++ [x', y']) : x = x' ∧ y = y' := by
  have := (List.append_inj' h rfl).2
  simpa using this

theorem right_num {v : Int} {r : Nat} : ¬ OnRight (num v) r := fun h => by
  obtain ⟨front, k, T, h1, _⟩ := right_inv h
  have := congrArg List.length h1
  simp at this
theorem left_num {v : Int} {j : Tok Int} : ¬ OnLeft (num v) j := fun h => by
  obtain ⟨T, k, rest, h1, _⟩ := left_inv h
  cases h1
theorem right_two {n r : Nat} {l : List (Tree Int)} {k : Tok Int} {b : Tree Int} (h : OnRight (.rule n (l ++ [.tok k, b])) r) : r = n ∨ OnRight b r := by
  obtain ⟨front, k, T, h1, h2⟩ := right_inv h
  rw [(last_two h1).2]
  exact h2
theorem left_two {n : Nat} {j k : Tok Int} {a : Tree Int} {rest : List (Tree Int)} (h : OnLeft (.rule n (a :: .tok k :: rest)) j) : j = k ∨ OnLeft a j := by
  obtain ⟨T, k', rest', h1, h2⟩ := left_inv h
  cases h1
  exact h2
theorem left_sign {j : Tok Int} {a : Tree Int} : ¬ OnLeft (sign a) j := fun h => by
  cases h

/-- Trees that agree with the precedences -/
def Ok (T : Tree Int) : Prop := Norm.Resp (TokLooser sums names) (TokTighter sums names) T

theorem ok_num (v : Int) : Ok (num v) := Norm.resp_rule (by intro L k rest h; cases h) (by
  intro front k R h
  have := congrArg List.length h
  simp at this) (by
  intro T hT
  rw [List.mem_singleton.1 hT]
  exact Norm.resp_tok _)
theorem ok_bin {n : Nat} {a b : Tree Int} {k : Tok Int} (ha : Ok a) (hb : Ok b) (h1 : ∀ r, OnRight a r → TokLooser sums names k r)
    (h2 : ∀ j, OnLeft b j → TokTighter sums names j n) : Ok (.rule n [a, .tok k, b]) :=
  Norm.resp_rule (by intro L k' rest h; cases h; exact h1) (by
    intro front k' R h j hj
    rw [← (last_two (l := [a]) h).2] at hj
    exact h2 j hj) (by
    intro T hT
    simp only [List.mem_cons, List.not_mem_nil, or_false] at hT
    rcases hT with rfl | rfl | rfl
    · exact ha
    · exact Norm.resp_tok _
    · exact hb)
theorem ok_ite {a b c : Tree Int} (ha : Ok a) (hb : Ok b) (hc : Ok c) (h1 : ∀ r, OnRight a r → TokLooser sums names ⟨2, 0⟩ r)
    (h2 : ∀ j, OnLeft c j → TokTighter sums names j 3) : Ok (ite a b c) :=
  Norm.resp_rule (by intro L k' rest h; cases h; exact h1) (by
    intro front k' R h j hj
    rw [← (last_two (l := [a, .tok ⟨2, 0⟩, b]) h).2] at hj
    exact h2 j hj) (by
    intro T hT
    simp only [List.mem_cons, List.not_mem_nil, or_false] at hT
    rcases hT with rfl | rfl | rfl | rfl | rfl
    · exact ha
    · exact Norm.resp_tok _
    · exact hb
    · exact Norm.resp_tok _
    · exact hc)
theorem ok_sign {a : Tree Int} (ha : Ok a) (h2 : ∀ j, OnLeft a j → TokTighter sums names j 4) : Ok (sign a) :=
  Norm.resp_rule (by intro L k' rest h; cases h; intro r h; cases h) (by
    intro front k' R h j hj
    rw [← (last_two (l := []) h).2] at hj
    exact h2 j hj) (by
    intro T hT
    simp only [List.mem_cons, List.not_mem_nil, or_false] at hT
    rcases hT with rfl | rfl
    · exact Norm.resp_tok _
    · exact ha)

/-- `Quest` is looser than all rules but its own, for which it is tighter; `Dash` is looser than the sign. -/
theorem quest_add : TokLooser sums names (⟨2, 0⟩ : Tok Int) 1 := ⟨U 6, rule1, ⟨1, .right⟩, ⟨2, .left⟩, by rfl, by rfl, by decide, by decide, .inl (by decide)⟩
theorem quest_mul : TokLooser sums names (⟨2, 0⟩ : Tok Int) 2 := ⟨U 6, rule2, ⟨1, .right⟩, ⟨3, .left⟩, by rfl, by rfl, by decide, by decide, .inl (by decide)⟩
theorem quest_ite : TokTighter sums names (⟨2, 0⟩ : Tok Int) 3 := ⟨U 6, rule3, ⟨1, .right⟩, ⟨1, .right⟩, by rfl, by rfl, by decide, by decide, .inr (by decide)⟩
theorem dash_sign : TokLooser sums names (⟨4, 0⟩ : Tok Int) 4 := ⟨U 9, rule4, ⟨2, .left⟩, ⟨4, .right⟩, by rfl, by rfl, by decide, by decide, .inl (by decide)⟩
theorem star_add : TokTighter sums names (⟨5, 0⟩ : Tok Int) 1 := ⟨U 3, rule1, ⟨3, .left⟩, ⟨2, .left⟩, by rfl, by rfl, by decide, by decide, .inl (by decide)⟩

theorem even_respects : Respects sums (tablesOf sums).tokenNames even := by
  have h6 : Ok (ite (num 6) (num 7) (num 8)) := ok_ite (ok_num _) (ok_num _) (ok_num _) (fun _ h => absurd h right_num) (fun _ h => absurd h left_num)
  have h2 : Ok (sign (num 2)) := ok_sign (ok_num _) (fun _ h => absurd h left_num)
  have h3 : Ok (mul (num 3) (num 4)) := ok_bin (ok_num _) (ok_num _) (fun _ h => absurd h right_num) (fun _ h => absurd h left_num)
  have h23 : Ok (add (sign (num 2)) (mul (num 3) (num 4))) := by
    refine ok_bin h2 h3 (fun r h => ?_) (fun j h => ?_)
    · rcases right_two (l := []) h with rfl | h
      · exact dash_sign
      · exact absurd h right_num
    · rcases left_two h with rfl | h
      · exact star_add
      · exact absurd h left_num
  have h : Ok even := Norm.resp_rule (by intro L k rest h; cases h) (by
      intro front k R h
      have := congrArg List.length h
      simp at this) (by
      intro T hT
      rw [List.mem_singleton.1 hT]
      refine ok_ite h23 (ok_num _) h6 (fun r h => ?_) (fun j h => ?_)
      · rcases right_two (l := [_]) h with rfl | h
        · exact quest_add
        · rcases right_two (l := [_]) h with rfl | h
          · exact quest_mul
          · exact absurd h right_num
      · rcases left_two h with rfl | h
        · exact quest_ite
        · exact absurd h left_num)
  rw [sums_names]
  exact ⟨h.left, h.right⟩

-- the two have the same tokens; only one of them agrees with the precedences
example : odd.yield = even.yield := by rfl
example : ¬ Respects sums (tablesOf sums).tokenNames odd := by
  intro h
  have := C51_unique OrdOk.id (compiles_iff (by decide +kernel)) (by decide +kernel : operators sums (L 0) (L 1) = true) odd_ok even_ok h even_respects
    (fun tok ht => (odd_valid Tests.logSem rfl tok ht).pos) rfl
  have h1 := congrArg Tree.post this
  revert h1
  decide

-- all hypotheses of `C51_respects_partial` and `C51_exists` are met
example (sem : Sem Int X E) (h : sem.unit = 0) (x : X) :
    AcceptsTree sums (tablesOf sums) sem x even ∨ FailsTree sums (tablesOf sums) sem x even ∨ OverflowsTree (tablesOf sums) sem x even :=
  C51_respects_partial OrdOk.id (compiles_iff (by decide +kernel)) (by decide +kernel) (by decide +kernel) (by decide +kernel) (by decide)
    (by decide +kernel : operators sums (L 0) (L 1) = true) sem x even_ok even_respects (odd_valid sem h)
example : ∃ T' : Tree Int, IsOwnTree sums (tablesOf sums).tokenNames T' ∧ T'.yield = odd.yield ∧ Respects sums (tablesOf sums).tokenNames T' :=
  C51_exists OrdOk.id (compiles_iff (by decide +kernel)) (by decide) (by decide +kernel : operators sums (L 0) (L 1) = true) odd_ok

/-- Blocks that compute -/
def calcSem : Sem Int (List Nat) Unit :=
  Tests.sem (fun n vs x => (.ok (match n, vs with
    | 0, [a, b] => a + b
    | 1, [a, b] => a * b
    | 2, [a, b, c] => if a > 0 then b else c
    | 3, [a] => -a
    | _, _ => 0), x)) (fun _ _ x => (.ok 0, x))

/-- The value of a run -/
def valueOf (ds : List Decl) (toks : List (Tok Int)) : Option Int :=
  match runAll (tablesOf ds) calcSem 1000 [] toks with
  | some (.ok _ v) => some v
  | _ => none

-- `(-2) + (3 * 4) > 0`, so 5
example : valueOf sums even.yield = some 5 := by decide +kernel

/-- `%nonassoc Lt; s ::= e; e ::= e Lt e; e ::= Num`; numbers: Lt 1, Num 2 -/
def less : List Decl := [.assoc .none [U 1], r (L 0) [s (L 1)], r (L 1) [s (L 1), s (U 1), s (L 1)], r (L 1) [s (U 2)]]

/-- The run ends well and has no syntax errors. -/
def smooth (ds : List Decl) (toks : List (Tok Int)) : Bool :=
  match runAll (tablesOf ds) Tests.logSem 1000 [] toks with
  | some (.ok p _) => onlyMoves p.trace
  | _ => false

-- with `%nonassoc` there are sentences with syntax errors: of `Num Lt Num` and `Num Lt Num Lt Num` the second
example : operators less (L 0) (L 1) = true ∧ compiles less = true ∧ apart id less = true ∧ noNonassoc less = false ∧
    smooth less [⟨2, 0⟩, ⟨1, 0⟩, ⟨2, 0⟩] = true ∧ smooth less [⟨2, 0⟩, ⟨1, 0⟩, ⟨2, 0⟩, ⟨1, 0⟩, ⟨2, 0⟩] = false := by decide +kernel

/-- `%type Num (); %left Plus; s ::= e; e ::= e Plus e { 0 }; e ::= Num`; numbers: Num 1, Plus 2 -/
def units : List Decl :=
  [.type false (U 2) (some .unit), .assoc .left [U 1], r (L 0) [s (L 1)], r (L 1) [s (L 1), s (U 1), s (L 1)] (some 0), r (L 1) [s (U 2)]]

theorem units_names : (tablesOf units).tokenNames = [.dollar, .ident (U 2), .ident (U 1)] := by decide +kernel

/-- The tree of `Num` -/
def unitsTree : Tree Int := .rule 0 [.rule 2 [.tok ⟨1, 0⟩]]

theorem unitsTree_ok : IsOwnTree units (tablesOf units).tokenNames unitsTree := by
  rw [units_names]
  exact ⟨L 0, by decide, .rule (u := ⟨L 0, [⟨[L 1], false, false⟩], none, none⟩) (by rfl)
    (.rule (u := ⟨L 1, [⟨[U 2], false, false⟩], none, none⟩) (by rfl) (.tok (i := U 2) (j := U 2) (by rfl) .self ⟨rfl, rfl⟩ .nil) .nil) .nil⟩

end Opex

open Opex in
/-- C51 fails where the start symbol has no type and a token has the type `()`: the parser panics at the end. -/
theorem C51_false : ¬ C51_statement := by
  intro h
  obtain ⟨T', ⟨_, h2, _⟩, _, h3⟩ := h id OrdOk.id units _ (Examples.compiles_iff (by decide +kernel)) (by decide) (Tests.L 0) (Tests.L 1) (by decide +kernel) Tests.logSem [] unitsTree
    unitsTree_ok (by intro tok ht; exact Examples.validB_iff (List.all_eq_true.1 (by decide +kernel : unitsTree.yield.all (Examples.validB _ _) = true) tok ht))
  exact Complex.runPanics_iff (by rw [h2]; decide +kernel) h3

end Pomelo
