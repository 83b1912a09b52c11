import Verif.Proofs.EmbedDrive
import Verif.Props.Unread
import Verif.Props.Complete
import Verif.Props.Order
import Verif.Proofs.OpWritten
import Verif.Spec.Tokens
/-! # Declarations that say the same give parsers that accept the same -/

namespace Pomelo
open Spec

variable {ord ord' : List (SymbolId × SymbolId) → List (SymbolId × SymbolId)} {ds ds' : List Decl} {t t' : Tables} {V X E : Type}

theorem LikeDecls.stackSize (h : LikeDecls ds ds') : stackSizeOf ds' = stackSizeOf ds := by
  have h1 := congrArg Glob.stackLimit h.glob
  rw [glob_stackLimit, glob_stackLimit] at h1
  exact h1.symm

theorem SaysSame.rootValue (h : SaysSame ds ds') (sem : Sem V X E) : Spec.rootValue ds sem = Spec.rootValue ds' sem := by
  funext v; unfold Spec.rootValue; rw [h.startOf, h.type, h.dflt]

theorem bridge_fallback {g : Grammar} (b : Bridge0 ord ds g) {a : SymbolId} {i : Ident} (ha : a < b.gD.syms.length) (hn : (b.gD.sym a).name = .ident i)
    (hf : fallbackOf ds i = none) : (g.sym a).fallback = none := by
  rw [b.fallback ha]
  have := (b.decl.sym b.dinv ha hn).2.2.2.1
  rw [hf] at this
  cases hh : (b.gD.sym a).fallback with
  | none => rfl
  | some x => rw [hh] at this; cases this

/-- What the parser of `ds` accepts, the parser of `ds'` accepts, for a suitable order of the optional symbols. -/
theorem like_accepts2 (ho : OrdOk ord) (hc : compile ord ds = .ok t) (hl : LikeDecls ds ds') (hf : flat ds = true) (hf' : flat ds' = true)
    (hA : apart ord ds = true) (hA' : ∀ ord', OrdOk ord' → apart ord' ds' = true) (hr : rootOk ds' = true) (hw : wildcardOf ds = none)
    {g0' : Grammar} (h0' : newFromDecls ds' = .ok g0') (hex : ∀ ord', OrdOk ord' → ∃ t', compile ord' ds' = .ok t') :
    ∃ ord2 t2, OrdOk ord2 ∧ compile ord2 ds' = .ok t2 ∧ ∀ {ρ : Nat → Nat}, SameTokens t.tokenNames t2.tokenNames ρ →
      ∀ {V X E : Type} (sem : Sem V X E) {x : X} {toks : List (Tok V)} {p : Parser V X} {v : V},
        (∀ tok ∈ toks, ∀ i, t.tokenNames[tok.major]? = some (.ident i) → fallbackOf ds i = none) → AcceptedRun t sem x toks p v →
        ∃ p', AcceptedRun t2 sem x (toks.map (Tok.swap ρ)) p' v ∧ p'.extra = p.extra := by
  obtain ⟨R⟩ := run_exists hc
  obtain ⟨b⟩ := bridge ho R.decls R.auto
  obtain ⟨gD', hp', _, _, _, _⟩ := newFromDecls_spec h0'
  have pr := pair_of b.parsed hp' hl
  obtain ⟨ord2, ho2, hopt⟩ := opt_order ho pr b.parsed hp'
  obtain ⟨t2, hc2⟩ := hex ord2 ho2
  refine ⟨ord2, t2, ho2, hc2, ?_⟩
  intro ρ hρ V X E sem x toks p v hF h
  obtain ⟨R'⟩ := run_exists hc2
  obtain ⟨b'⟩ := bridge ho2 R'.decls R'.auto
  have hgD : b'.gD = gD' := by
    have := b'.parsed
    rw [hp'] at this
    exact (Except.ok.inj this).symm
  let e : Embed R.g R'.g := embedOf ho ho2 b.toBridge0 b'.toBridge0 hl (by rw [hgD]; exact hopt)
  have hsame := alike hl R.decls R'.decls
  obtain ⟨dflt, mm⟩ := (R.cspec hc).made ho hf
  obtain ⟨dflt', mm'⟩ := (R'.cspec hc2).made ho2 hf'
  have hi : GInv R.g := mm.inv
  have hau : Auto R.g R.sts := mm.auto
  have hi' : GInv R'.g := mm'.inv
  have hau' : Auto R'.g R'.sts := mm'.auto
  have hwild : R.g.wildcard = none := by
    have h1 := b.decl.wildcard
    rw [hw, ← b.wildcard] at h1
    simpa using h1
  have hwild' : R'.g.wildcard = none := by
    have h1 := b'.decl.wildcard
    rw [← hsame.wild, hw, ← b'.wildcard] at h1
    simpa using h1
  -- corresponding tokens have the same name
  have named : ∀ {a c}, e.rel a c → (R.g.sym a).kind = .terminal → (a = 0 ∧ c = 0) ∨ ∃ i, a < b.gD.syms.length ∧ c < b'.gD.syms.length ∧
      (b.gD.sym a).name = .ident i ∧ (b'.gD.sym c).name = .ident i := by
    intro a c hr hk
    by_cases h0 : a = 0
    · subst h0
      exact .inl ⟨rfl, e.fn hr e.dollar⟩
    · right
      obtain ⟨_, i, hia, _⟩ := b.toBridge0.terminal_name hi (e.lt hr).1 hk h0
      have hr : Corr b.gD b'.gD a c := hr
      cases hr with
      | dollar => exact absurd rfl h0
      | named h1 h2 h3 h4 => exact ⟨_, h1, h2, h3, h4⟩
      | optional h1 _ _ _ => obtain ⟨_, _, _, _, e⟩ := b.dinv.opt h1; rw [hia] at e; cases e
      | compound _ _ _ _ h5 _ => rw [hia] at h5; cases h5
  have index : ∀ {a c}, e.rel a c → (R.g.sym a).kind = .terminal → (R'.g.sym c).index = ρ (R.g.sym a).index := by
    intro a c hr hk
    have hk' : (R'.g.sym c).kind = .terminal := by rw [e.kind hr]; exact hk
    have h1 := hρ _ _ ((R.cspec hc).tokenName hi (e.lt hr).1 hk)
    obtain ⟨y, y1, y2, y3, y4⟩ := ((R'.cspec hc2).tokenName_iff hi').1 h1
    have y1 : y < R'.g.syms.length := y1
    have y2 : (R'.g.sym y).kind = .terminal := y2
    have y4 : (R'.g.sym y).name = (R.g.sym a).name := y4
    suffices hyc : y = c by rw [← hyc]; exact y3
    rcases named hr hk with ⟨rfl, rfl⟩ | ⟨i, n1, n2, n3, n4⟩
    · apply Classical.byContradiction
      intro hne
      obtain ⟨g1, i, g2, _⟩ := b'.toBridge0.terminal_name hi' y1 y2 hne
      rw [hi.dollar.1, b'.name g1, g2] at y4
      cases y4
    · rw [b.name n1, n3] at y4
      have hy0 : y ≠ 0 := by
        rintro rfl
        rw [hi'.dollar.1] at y4; cases y4
      obtain ⟨g1, j, g2, _⟩ := b'.toBridge0.terminal_name hi' y1 y2 hy0
      rw [b'.name g1] at y4
      exact b'.dinv.ident_inj g1 n2 y4 n4
  have hzero : ρ 0 = 0 := by
    have := index e.dollar hi.dollar.2.1
    rw [hi.dollar.2.2, hi'.dollar.2.2] at this
    exact this.symm
  let F : Nat → Prop := fun n => ∀ i, t.tokenNames[n]? = some (.ident i) → fallbackOf ds i = none
  have dollarFb : ∀ {ord ds} {g : Grammar} (b : Bridge ord ds g), (g.sym 0).fallback = none := by
    intro ord ds g b
    have h0 : (0 : Nat) < b.gD.syms.length := Nat.lt_of_lt_of_le Nat.zero_lt_two b.dinv.two
    rw [b.fallback h0]
    cases hh : (b.gD.sym 0).fallback with
    | none => rfl
    | some f =>
      have := (b.dinv.fb 0 h0 f hh).2.2
      rw [b.dinv.dollar] at this; cases this
  have hFb : ∀ {a c}, e.rel a c → (R.g.sym a).kind = .terminal → F (R.g.sym a).index →
      (R.g.sym a).fallback = none ∧ (R'.g.sym c).fallback = none ∧ (R'.g.sym c).index = ρ (R.g.sym a).index := by
    intro a c hr hk hFa
    have hidx := index hr hk
    rcases named hr hk with ⟨rfl, rfl⟩ | ⟨i, n1, n2, n3, n4⟩
    · exact ⟨dollarFb b, dollarFb b', hidx⟩
    · have hfi : fallbackOf ds i = none := by
        apply hFa
        exact ((R.cspec hc).tokenName hi (e.lt hr).1 hk).trans (congrArg some ((b.name n1).trans n3))
      exact ⟨bridge_fallback b.toBridge0 n1 n3 hfi, bridge_fallback b'.toBridge0 n2 n4 (by rw [← hl.fallback]; exact hfi), hidx⟩
  have h0 : ∀ {a c}, e.rel a c → a ≠ 0 → c ≠ 0 := by
    rintro a c hr ha rfl
    exact ha (e.inj hr e.dollar)
  obtain ⟨r, kids, q, c, hlhs, hD, hR0, hF0, hT⟩ := accepted_drive_start ho hA mm b sem h
  have hlhs : (R.g.rule r).lhs = R.g.start.getD 0 := hlhs
  have hrl : r < R.g.rules.length := (canReduce_rule hi hau hR0).1
  have hy : (GTree.node r kids).yield = toks := by
    have hFo : R.g.Forest [GTree.node r kids] [(R.g.rule r).lhs] := .node hrl (hD.forest mm.inv mm.auto) .nil
    obtain ⟨c1, _⟩ := mm.conv ho b sem hFo
    simp only [GTree.toTrees, Tree.yields, GTree.yields, List.append_nil] at c1
    rw [← c1]; exact hT.yield
  have hyk : GTree.yields kids = toks := hy
  have hFt : ∀ tok ∈ GTree.yields kids, F tok.major := by rw [hyk]; exact hF
  -- the tree of the one parser
  have hPD : PDrive (R.cspec hc) 0 kids 0 (R.g.rhsSyms r) q := by
    refine hD.pdrive hwild ?_
    intro tok htok a ha hk h0 hmaj
    obtain ⟨haD, i, hia, _⟩ := b.toBridge0.terminal_name hi ha hk h0
    refine bridge_fallback b.toBridge0 haD hia (hFt tok htok i ?_)
    rw [hmaj]
    exact ((R.cspec hc).tokenName hi ha hk).trans (congrArg some ((b.name haD).trans hia))
  have hPl : R.g.Plain [GTree.node r kids] [R.g.start.getD 0] := by
    rw [← hlhs]
    exact .node hrl (hPD.plain mm.inv mm.auto) .nil
  obtain ⟨r2, kids2, q2, e1, e2, e3, e4⟩ := hPl.root hi hau
  cases e1
  obtain ⟨rfl, γ', q', i1, i2, i3⟩ := drive_transfer ho ho2 hc hc2 hf hf' hA (hA' ord2 ho2) hwild hwild' e hFb h0 e3 hPD e.mate_zero hFt (by
    intro i hi0
    obtain ⟨_, _, _, _, _, _, h⟩ := (R.cspec hc).tokenSym ho hi0
    exact absurd rfl h)
  have hγ' : γ' = R'.g.rhsSyms r := forall₂_fn (R := e.rel) (fun h k => e.fn h k) i1 (e.rhs r hrl)
  subst hγ'
  rw [hzero] at i3
  obtain ⟨z, z1, z2⟩ := e.canReduce hi hi' hau hau' i2 e4
  have hz : z = 0 := e.fn z1 e.dollar
  subst hz
  have hlt : q < R.sts.length ∧ q' < R'.sts.length := by
    obtain ⟨_, _, _, m1, m2⟩ := i2
    exact ⟨Path.lt hau m1, Path.lt hau' m2⟩
  have two : (0 : Nat) < R.g.syms.length := Nat.lt_of_lt_of_le Nat.zero_lt_two hi.two
  have two' : (0 : Nat) < R'.g.syms.length := Nat.lt_of_lt_of_le Nat.zero_lt_two hi'.two
  have hlook : t2.findShift (R'.row q') 0 = .ok (t2.nState + r) := by
    have hown := (R.look_own ho hc hf hA hwild hlt.1 (a := 0) ⟨two, hi.dollar.2.1⟩ (dollarFb b)).2 r e4 (by rw [hi.dollar.2.2]; exact hF0)
    obtain ⟨d', hd', hown'⟩ := own_mate ho ho2 e i2 e.dollar hi.dollar.2.1 hown
    cases hd' with
    | reduce _ =>
      have hl := R'.own_look ho2 hc2 hf' (hA' ord2 ho2) hwild' hlt.2 (a := 0) ⟨two', hi'.dollar.2.1⟩ (dollarFb b') hown' (n := R'.sts.length + r) rfl
      rw [hi'.dollar.2.2, ← (R'.sizes ho2 hc2).1] at hl
      exact hl
  have hvalid : ∀ tok ∈ toks, (tok.swap ρ).Valid t2 sem := by
    intro tok htok
    obtain ⟨v1, v2, v3⟩ := h.valid tok htok
    obtain ⟨i, hn⟩ : ∃ i, t.tokenNames[tok.major]? = some (.ident i) := by
      have hlt : tok.major < R.g.numTerminals := by
        have := v2
        rw [(R.cspec hc).gen.numTerminals, (R.cspec hc).gen.shape.nterm] at this
        exact this
      obtain ⟨g1, g2⟩ := hi.index tok.major (Nat.lt_trans (Nat.lt_of_lt_of_le hlt hi.nterm.2.1) hi.nterm.2.2)
      have hk := (hi.term _ g1).2 (by rw [g2]; exact hlt)
      obtain ⟨haD, i, hia, _⟩ := b.toBridge0.terminal_name hi g1 hk (by
        intro h0
        rw [h0, hi.dollar.2.2] at g2
        exact absurd g2.symm (Nat.ne_of_gt v1))
      refine ⟨i, ?_⟩
      have := ((R.cspec hc).tokenName hi g1 hk).trans (congrArg some ((b.name haD).trans hia))
      change t.tokenNames[(R.g.sym (R.g.symbols.getD tok.major 0)).index]? = _ at this
      rw [g2] at this
      exact this
    have hn' := hρ _ _ hn
    obtain ⟨_, _, _, _, _, k1, k2⟩ := (R'.cspec hc2).tokenSym ho2 hn'
    refine ⟨Nat.pos_of_ne_zero k2, k1, ?_⟩
    intro hz
    apply v3
    have t1 := ((R.cspec hc).tokenTag ho hn).1
    have t1' := ((R'.cspec hc2).tokenTag ho2 hn').1
    rw [t1]
    change t2.tokenDt.getD (ρ tok.major) 0 = 0 at hz
    rw [hz, ← hsame.plainType] at t1'
    cases hpt : plainType ds i with
    | none => rfl
    | some ty => rw [hpt] at t1'; cases t1'
  have hlhs' : (R'.g.rule r).lhs = R'.g.start.getD 0 := by
    have := e.lhs r hrl
    rw [hlhs] at this
    exact e.fn this e.start
  have hPl' : R'.g.Plain [GTree.node r (GTree.swaps ρ kids)] [R'.g.start.getD 0] := by
    rw [← hlhs']
    exact .node (canReduce_rule hi' hau' z2).1 (i3.plain mm'.inv mm'.auto) .nil
  have hTree : GTree.toTree (rulesOf ds').length (.node r (GTree.swaps ρ kids)) = Tree.swap ρ (GTree.toTree (rulesOf ds).length (.node r kids)) := by
    rw [← hsame.rules]
    exact GTree.toTree_swap ρ _ (.node r kids)
  have hyield : (Tree.swap ρ (GTree.toTree (rulesOf ds).length (.node r kids))).yield = toks.map (Tok.swap ρ) := by
    rw [Tree.yield_swap, hT.yield]
  have := mm'.acceptsTree_room ho2 hf' b' hr (CSpec.AliasW.of_none hwild') sem x (T := Tree.swap ρ (GTree.toTree (rulesOf ds).length (.node r kids))) hPl'
    (by simp only [GTree.toTrees]; rw [hTree]) (by
      rw [hyield, ← hy]
      exact GTree.yield_swap ρ (.node r kids)) i3 z2 hlook (by
      rw [hyield]
      intro tok htok
      obtain ⟨k, hk, rfl⟩ := List.mem_map.1 htok
      exact hvalid k hk)
  obtain ⟨w, w1, w2⟩ := hT.value
  have hroom : HasRoom ds' (Tree.swap ρ (GTree.toTree (rulesOf ds).length (.node r kids))) := by
    have := hT.room
    unfold HasRoom at this ⊢
    rw [Tree.height_swap, hl.stackSize]
    exact this
  rcases this with ⟨⟨v', p', fuel, a1, a2, a3⟩, _⟩ | ⟨er, p', fuel, a1, _, _⟩ | ⟨_, a1⟩
  · rw [Tree.value_swap hsame, w1] at a1
    simp only [Prod.mk.injEq, Except.ok.injEq] at a1
    obtain ⟨rfl, a1⟩ := a1
    rw [hyield, ← hsame.rootValue, ← w2] at a2
    refine ⟨p', ⟨?_, ⟨fuel, a2⟩, ?_⟩, ?_⟩
    · intro tok htok
      obtain ⟨k, hk, rfl⟩ := List.mem_map.1 htok
      exact hvalid k hk
    · intro n hn
      unfold onlyMoves at a3
      have := List.all_eq_true.1 a3 _ hn
      cases this
    · exact a1.symm
  · rw [Tree.value_swap hsame, w1] at a1
    cases a1
  · exact absurd hroom a1

end Pomelo
