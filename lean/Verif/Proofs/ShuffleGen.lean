import Verif.Proofs.ShuffleDecl
import Verif.Proofs.EmbedGen
import Verif.Proofs.Yields
import Verif.Proofs.Rows
/-! # Declarations with the rules in another order are accepted or refused together -/

namespace Pomelo
open Spec

variable {ord ord' : List (SymbolId × SymbolId) → List (SymbolId × SymbolId)} {ds ds' : List Decl} {g g' : Grammar}

theorem LikeRules.rulesOf (h : LikeRules ds ds') : (Spec.rulesOf ds).Perm (Spec.rulesOf ds') := by
  have := h.rules
  rw [filterMap_rule?, filterMap_rule?] at this
  have k := this.map (fun x => (⟨x.1, x.2.1, x.2.2.1, x.2.2.2⟩ : URule))
  rw [List.map_map, List.map_map] at k
  simpa [Function.comp_def] using k

/-- The functions of the declarations by which the macro decides, but for the order of the rules -/
structure SaysLike (ds ds' : List Decl) : Prop where
  type : typeOf ds = typeOf ds'
  fallback : fallbackOf ds = fallbackOf ds'
  multi : isClass ds = isClass ds'
  subs : classMembers ds = classMembers ds'
  rules : (rulesOf ds).Perm (rulesOf ds')
  wild : wildcardOf ds = wildcardOf ds'
  start : startDirective ds = startDirective ds'
  dflt : defaultTypeOf ds = defaultTypeOf ds'
  extra : extraTokenOf ds = extraTokenOf ds'
  token : tokenItemOf ds = tokenItemOf ds'
  parser : parserItemOf ds = parserItemOf ds'
  root : startOf ds = startOf ds'

theorem shuffled_alike (hl : LikeRules ds ds') {g0 g0' : Grammar} (h0 : newFromDecls ds = .ok g0) (h0' : newFromDecls ds' = .ok g0') : SaysLike ds ds' := by
  have G := given_decls h0
  have G' := given_decls h0'
  obtain ⟨gD, hp, _, _, _, rfl⟩ := newFromDecls_spec h0
  obtain ⟨gD', hp', _, _, _, rfl⟩ := newFromDecls_spec h0'
  obtain ⟨σ, τ, hm⟩ := hl.moves
  have p := Sh.pair_of hp hp' hl hm
  have hg := p.glob
  refine ⟨funext hl.type, funext hl.fallback, funext hl.multi, funext hl.subs, hl.rulesOf, ?_, ?_, ?_, ?_, ?_, ?_, hl.root⟩
  · exact map_ident_inj (p.decl.wildcard.symm.trans ((congrArg Glob.wildcard hg).trans p.decl'.wildcard))
  · exact map_ident_inj (p.decl.start.symm.trans ((congrArg Glob.start hg).trans p.decl'.start))
  · exact p.decl.defaultType.symm.trans ((congrArg Glob.defaultType hg).trans p.decl'.defaultType)
  · exact p.decl.extraToken.symm.trans ((congrArg Glob.extraToken hg).trans p.decl'.extraToken)
  · exact G.tokenEnum.symm.trans ((congrArg Glob.tokenEnum hg).trans G'.tokenEnum)
  · exact G.parserStruct.symm.trans ((congrArg Glob.parserStruct hg).trans G'.parserStruct)

namespace SaysLike

theorem typedSym (h : SaysLike ds ds') : Spec.typedSym ds = Spec.typedSym ds' := by
  funext i; unfold Spec.typedSym; rw [h.type, h.multi, h.extra]

theorem typedElem (h : SaysLike ds ds') : Spec.typedElem ds = Spec.typedElem ds' := by
  funext e; unfold Spec.typedElem; rw [h.typedSym]

theorem mem (h : SaysLike ds ds') (u : URule) : u ∈ rulesOf ds ↔ u ∈ rulesOf ds' := h.rules.mem_iff

theorem all (h : SaysLike ds ds') (f : URule → Bool) : (rulesOf ds).all f = (rulesOf ds').all f := by
  rw [Bool.eq_iff_iff, List.all_eq_true, List.all_eq_true]
  simp only [h.mem]

theorem ownType (h : SaysLike ds ds') : Spec.ownType ds = Spec.ownType ds' := by
  funext i; unfold Spec.ownType; rw [h.type, h.multi, h.extra]

theorem plainType (h : SaysLike ds ds') : Spec.plainType ds = Spec.plainType ds' := by
  funext i; unfold Spec.plainType; rw [h.wild, h.ownType, h.dflt]

theorem firstType (h : SaysLike ds ds') : Spec.firstType ds = Spec.firstType ds' := by
  funext i; unfold Spec.firstType; rw [h.plainType, h.dflt]

theorem tokenType (h : SaysLike ds ds') : Spec.tokenType ds = Spec.tokenType ds' := by
  funext i; unfold Spec.tokenType; rw [h.wild, h.multi, h.subs, h.firstType, h.plainType]

theorem valueType (h : SaysLike ds ds') : Spec.valueType ds = Spec.valueType ds' := by
  funext e; unfold Spec.valueType; rw [h.tokenType, h.firstType]

theorem bound (h : SaysLike ds ds') : Spec.bound ds = Spec.bound ds' := by
  funext u e; unfold Spec.bound; rw [h.typedSym, h.typedElem]

theorem elemTokens (h : SaysLike ds ds') : Spec.elemTokens ds = Spec.elemTokens ds' := by
  funext e; unfold Spec.elemTokens; rw [h.multi, h.subs]

theorem uncoded (h : SaysLike ds ds') : Uncoded ds ↔ Uncoded ds' := by
  unfold Uncoded; simp only [h.mem, h.typedSym, h.typedElem]

theorem startUsed (h : SaysLike ds ds') : StartUsed ds ↔ StartUsed ds' := by
  unfold StartUsed; simp only [h.mem, h.root]

theorem reached (h : SaysLike ds ds') {i : Ident} (hr : Reached ds i) : Reached ds' i := by
  induction hr with
  | start hs => exact .start (h.root ▸ hs)
  | elem hu _ he ht ih => exact .elem ((h.mem _).1 hu) ih he ht

theorem symm (h : SaysLike ds ds') : SaysLike ds' ds :=
  ⟨h.type.symm, h.fallback.symm, h.multi.symm, h.subs.symm, h.rules.symm, h.wild.symm, h.start.symm, h.dflt.symm, h.extra.symm, h.token.symm, h.parser.symm, h.root.symm⟩

theorem missing' (h : SaysLike ds ds') : Missing ds → Missing ds' := by
  rintro ⟨u, hu, hr, e, he, i, h1, h2, h3, h4⟩
  exact ⟨u, (h.mem _).1 hu, h.reached hr, e, he, i, h1, h2, h3, fun v hv => h4 v ((h.mem _).2 hv)⟩

theorem missing (h : SaysLike ds ds') : Missing ds ↔ Missing ds' := ⟨h.missing', h.symm.missing'⟩

theorem wildTyped (h : SaysLike ds ds') : WildTyped ds ↔ WildTyped ds' := by unfold WildTyped; rw [h.wild, h.ownType]

theorem tokenFull (h : SaysLike ds ds') : TokenFull ds ↔ TokenFull ds' := by unfold TokenFull; rw [h.token]

theorem parserFull (h : SaysLike ds ds') : ParserFull ds ↔ ParserFull ds' := by unfold ParserFull; rw [h.parser]

theorem paramMissing (h : SaysLike ds ds') : ParamMissing ds ↔ ParamMissing ds' := by unfold ParamMissing; rw [h.token, h.parser]

theorem fallbackTyped (h : SaysLike ds ds') : FallbackTyped ds ↔ FallbackTyped ds' := by unfold FallbackTyped; rw [h.fallback, h.tokenType]

theorem mixed (h : SaysLike ds ds') : Mixed ds ↔ Mixed ds' := by unfold Mixed; simp only [h.mem, h.bound, h.elemTokens, h.tokenType, h.valueType]

theorem wildUsed (h : SaysLike ds ds') : WildUsed ds ↔ WildUsed ds' := by unfold WildUsed; simp only [h.mem, h.bound, h.wild]

theorem written (h : SaysLike ds ds') : Spec.written ds = Spec.written ds' := by unfold Spec.written; exact h.all _

theorem flat' (h : SaysLike ds ds') : Spec.flat ds = true ↔ Spec.flat ds' = true := by
  rw [SaysSame.flat_iff, SaysSame.flat_iff, h.multi, h.subs, h.all]

end SaysLike

/-- A class of the one grammar that makes the macro panic is one of the other. -/
theorem shuffled_class (b : Bridge ord ds g) (b' : Bridge ord' ds' g') (hi' : GInv g') (hl : LikeRules ds ds') (hw : written ds' = true) {y : SymbolId}
    (hy : y < g'.syms.length) (hyw : g'.wildcard ≠ some y) (hk : (g'.sym y).kind = .multiTerminal) (hbad : (g'.sym y).subs = [] ∨ (g'.sym y).subs.head? = some y) :
    ∃ x, x < g.syms.length ∧ g.wildcard ≠ some x ∧ (g.sym x).kind = .multiTerminal ∧ ((g.sym x).subs = [] ∨ (g.sym x).subs.head? = some x) := by
  obtain ⟨σ, τ, hm⟩ := hl.moves
  have p := Sh.pair_of b.parsed b'.parsed hl hm
  obtain ⟨hy', hk', hsub, hn⟩ := b'.multi hi' hy hk
  rcases hn with hn | ⟨i, hn, hc⟩
  · exfalso
    have hal : AnonLen (fun n => n ≠ 0) b'.gD := by
      refine AnonLen.initial.parseDecls ?_ DInv.initial b'.parsed
      apply elemLen_of
      intro u hu e he _
      unfold written at hw
      have := List.all_eq_true.1 (List.all_eq_true.1 hw u hu) e he
      simpa using this
    have h5 := hal y hy' hn
    rw [hsub] at hbad
    rcases hbad with h | h
    · exact h5 (by rw [h]; rfl)
    · have h6 := (b'.dinv.subs y hy' y (List.mem_of_mem_head? h)).2
      rw [hn] at h6; cases h6
  · have hc' : isClass ds i = true := by rw [hl.multi]; exact hc
    obtain ⟨x, hx, hnx⟩ : ∃ x, x < b.gD.syms.length ∧ (b.gD.sym x).name = .ident i := by
      apply Classical.byContradiction
      intro hno
      have := obs_blank p.hd (i := i) fun s hs h => hno ⟨s, hs, h⟩
      have h2 := p.decl.multi i
      rw [this, hc'] at h2
      cases h2
    have hcor : Sh.Corr σ b.gD b'.gD x y := .named hx hy' hnx hn
    have e1 : (g.sym x).kind = (b.gD.sym x).kind := congrArg (·.2.1) (b.keep x hx)
    have e2 : (g.sym x).subs = (b.gD.sym x).subs := congrArg (·.2.2.1) (b.keep x hx)
    refine ⟨x, b.lt_of_gD hx, ?_, ?_, ?_⟩
    · intro hw
      apply hyw
      rw [b.wildcard] at hw
      rw [b'.wildcard]
      have hg := congrArg Glob.wildcard p.glob
      change b.gD.wildcard.map (fun s => (b.gD.sym s).name) = b'.gD.wildcard.map (fun s => (b'.gD.sym s).name) at hg
      rw [hw] at hg
      cases hw' : b'.gD.wildcard with
      | none => rw [hw'] at hg; cases hg
      | some w =>
        rw [hw'] at hg
        simp only [Option.map_some, Option.some.injEq] at hg
        rw [p.hd'.ident_inj (p.hd'.wild w hw').1 hy' (hg.symm.trans hnx) hn]
    · rw [e1, ← p.kind hcor]; exact hk'
    · rw [e2]
      have hs := p.subs hcor
      rw [hsub] at hbad
      rcases hbad with h | h
      · rw [h] at hs
        left
        exact List.forall₂_nil_right_iff.1 hs
      · right
        cases hs' : (b'.gD.sym y).subs with
        | nil => rw [hs'] at h; cases h
        | cons z l =>
          rw [hs'] at h hs
          cases h
          generalize (b.gD.sym x).subs = l0 at hs
          cases hs with
          | cons h1 _ =>
            rw [(h1.symm hm.bij.left).fn p.hd' p.hd p.once' (hcor.symm hm.bij.left)]
            rfl

/-- With the rules in another order the declarations are accepted too, if there are no conflicts. -/
theorem shuffled_compile (ho : OrdOk ord) (ho' : OrdOk ord') (hl : LikeRules ds ds') (hf : flat ds = true) (hw : written ds = true)
    (hs : noSelfFallback ds' = true) {g0' : Grammar} (h0' : newFromDecls ds' = .ok g0') {t : Tables} (hc : compile ord ds = .ok t) (R : Run ord ds)
    (hn : NoClash R.g) : ∃ t', compile ord' ds' = .ok t' := by
  let s := R.cspec hc
  have hn : NoClash s.g := hn
  have hA := shuffled_alike hl s.decls h0'
  have hi := GInv.automaton s.decls ho s.auto
  have ha := automaton_auto ho s.decls s.auto
  obtain ⟨b⟩ := bridge ho s.decls s.auto
  obtain ⟨gD', hp', _, _, _, _⟩ := newFromDecls_spec h0'
  obtain ⟨σ, τ, hm⟩ := hl.moves
  have p := Sh.pair_of b.parsed hp' hl hm
  obtain ⟨ord2, ho2, hopt⟩ := Sh.opt_order ho p b.parsed hp'
  suffices h : ∃ t', compile ord2 ds' = .ok t' from other_order ho2 ho' h.choose_spec
  obtain ⟨g', sts', h'⟩ : ∃ g' sts', g0'.automaton ord2 = .ok (g', sts') := by
    cases stage s.decls ho with
    | uncoded _ h => rw [s.auto] at h; cases h
    | startUsed _ _ h => rw [s.auto] at h; cases h
    | missing _ _ _ h => rw [s.auto] at h; cases h
    | ok n1 n2 n3 _ =>
      cases stage h0' ho2 with
      | uncoded k _ => exact absurd (hA.uncoded.2 k) n1
      | startUsed _ k _ => exact absurd (hA.startUsed.2 k) n2
      | missing _ _ k _ => exact absurd (hA.missing.2 k) n3
      | ok _ _ _ h => exact ⟨_, _, h⟩
  have hi' := GInv.automaton h0' ho2 h'
  have ha' := automaton_auto ho2 h0' h'
  obtain ⟨b'⟩ := bridge ho2 h0' h'
  have hgD : b'.gD = gD' := by
    have := b'.parsed
    rw [hp'] at this
    exact (Except.ok.inj this).symm
  have E : Shuf s.g g' := Sh.shufOf ho ho2 b.toBridge0 b'.toBridge0 hl hm (by rw [hgD]; exact hopt)
  have hn' : NoClash g' := E.noClash hi hi' hn
  have hone : ∀ γ a, ¬ ReadTwice g' γ a := by
    intro γ a hu
    obtain ⟨γ', a', hu'⟩ := E.symm.readTwice hu
    have hu' : Unsettled s.g γ' a' := by
      rcases hu' with ⟨X, Y, k1, k2, k3⟩ | ⟨X, k1, k2⟩
      · exact .shiftShift k1 k2 k3
      · exact .repeated k1 k2
    obtain ⟨r, r', _, _, k1, k2, k3, _⟩ := findActions_good hi ha b.levels b.noStart s.actions hu'
    exact k3 (hn.reduceReduce k1 k2)
  obtain ⟨acts2, h2⟩ : ∃ acts2, g'.findActions sts' = .ok (acts2, 0) := by
    cases h2 : g'.findActions sts' with
    | error e =>
      exfalso
      rcases findActions_err h2 with rfl | ⟨rfl, q, hq, h3⟩
      · obtain ⟨r, hr, h3⟩ := findActions_never hi' ha' h2
        obtain ⟨γ, a, h4⟩ := E.reducible hi hi' (findActions_turn hi ha s.actions (E.τlt r hr))
        rw [E.right] at h4
        cases h3 γ a h4 with
        | shift k _ => exact hn'.shiftReduce k h4
        | rule k1 k2 _ => exact k2 (hn'.reduceReduce k1 h4)
      · obtain ⟨γ, a, h4⟩ := selfShift_unsettled hi' ha' hq h3
        exact hone γ a h4
    | ok x =>
      obtain ⟨acts2, n⟩ := x
      rcases Nat.eq_zero_or_pos n with rfl | hpos
      · exact ⟨acts2, rfl⟩
      · exfalso
        obtain ⟨γ, a, hu⟩ := findActions_bad hi' ha' h2 hpos
        cases hu with
        | shiftShift k1 k2 k3 => exact hone γ a (.inl ⟨_, _, k1, k2, k3⟩)
        | repeated k1 k2 => exact hone γ a (.inr ⟨_, k1, k2⟩)
        | shiftReduce k1 k2 _ => exact hn'.shiftReduce k1 k2
        | reduceReduce k1 k2 k3 _ => exact k3 (hn'.reduceReduce k1 k2)
  obtain ⟨acts2', h3⟩ : ∃ acts2', g'.compressTables acts2 = .ok acts2' := by
    cases h3 : g'.compressTables acts2 with
    | ok a => exact ⟨a, rfl⟩
    | error e => exact absurd (b'.fbEnds hi' hs) (compressTables_err hi' h3).2
  obtain ⟨dflt, u⟩ := upto ho2 h0' h' h2 h3
  obtain ⟨t', ht⟩ : ∃ t', g'.generate (g'.resortStates acts2') = .ok t' := by
    cases ht : g'.generate (g'.resortStates acts2') with
    | ok t' => exact ⟨t', rfl⟩
    | error e =>
      exfalso
      have hgen : s.g.generate (s.g.resortStates s.acts') = .ok t := by
        have := hc
        unfold compile at this
        simp only [s.decls, bind, Except.bind] at this
        unfold Grammar.build at this
        simp only [s.auto, s.actions, s.compress, bind, Except.bind, Nat.lt_irrefl, gt_iff_lt, if_false] at this
        exact this
      obtain ⟨k1, ⟨k2, k3, k4⟩, k5, k6⟩ := (generate_causes ho b.toBridge0 (given s.decls s.auto) hi _).ok hgen
      obtain ⟨k6, k7⟩ := k6 hf
      have hf' := hA.flat'.1 hf
      rcases (generate_causes ho2 b'.toBridge0 (given h0' h') hi' _).err ht with
        ⟨_, h4⟩ | rfl | ⟨_, (⟨_, h4⟩ | ⟨_, _, h4⟩ | ⟨_, _, _, h4⟩) | ⟨_, h4⟩ | ⟨_, h4⟩ | ⟨_, h4⟩⟩
      · exact k1 (hA.wildTyped.2 h4)
      · obtain ⟨e, he⟩ := u.panic ht
        obtain ⟨y, hy, y1, y2, y3⟩ := assignTypes_err2 he
        have hyl : y < g'.syms.length := by
          obtain ⟨i, hii, rfl⟩ := List.getElem_of_mem hy
          have := (hi'.index i (hi'.slen ▸ hii)).1
          rw [getD_of_lt hii] at this
          exact this
        obtain ⟨x, x1, x2, x3, x4⟩ := shuffled_class b b' hi' hl (by rw [← hA.written]; exact hw) hyl y1 y2 y3
        have hx : x ∈ s.g.symbols := hi.mem_symbols x1
        have := assignTypes_ok s.gen.assign x hx x2 x3
        rcases x4 with h | h
        · exact this.1 h
        · exact this.2 h
      · exact k2 (hA.tokenFull.2 h4)
      · exact k3 (hA.parserFull.2 h4)
      · exact k4 (hA.paramMissing.2 h4)
      · exact k6 (hA.fallbackTyped.2 (h4 hf'))
      · exact k7 (hA.mixed.2 (h4 hf'))
      · exact k5 (hA.wildUsed.2 h4)
  refine ⟨t', ?_⟩
  unfold compile
  simp only [h0', bind, Except.bind]
  unfold Grammar.build
  simp only [h', h2, h3, bind, Except.bind, Nat.lt_irrefl, gt_iff_lt, if_false]
  exact ht

end Pomelo
