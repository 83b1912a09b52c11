import Verif.Proofs.EmbedDecl
import Verif.Proofs.GenCauses
import Verif.Proofs.MacroPanics
import Verif.Proofs.TwinGen
/-! # Declarations that say the same are accepted or refused together -/

namespace Pomelo
open Spec

variable {ord ord' : List (SymbolId × SymbolId) → List (SymbolId × SymbolId)} {ds ds' : List Decl} {g g' : Grammar}

/-! ## Functions of the declarations -/

/-- The functions of the declarations by which the macro decides -/
structure SaysSame (ds ds' : List Decl) : Prop where
  type : typeOf ds = typeOf ds'
  fallback : fallbackOf ds = fallbackOf ds'
  multi : isClass ds = isClass ds'
  subs : classMembers ds = classMembers ds'
  rules : rulesOf ds = rulesOf ds'
  wild : wildcardOf ds = wildcardOf ds'
  start : startDirective ds = startDirective ds'
  dflt : defaultTypeOf ds = defaultTypeOf ds'
  extra : extraTokenOf ds = extraTokenOf ds'
  token : tokenItemOf ds = tokenItemOf ds'
  parser : parserItemOf ds = parserItemOf ds'

theorem map_ident_inj {a b : Option Ident} (h : a.map SymName.ident = b.map SymName.ident) : a = b := by
  cases a <;> cases b <;> first | rfl | cases h; rfl | cases h

theorem alike (hl : LikeDecls ds ds') {g0 g0' : Grammar} (h0 : newFromDecls ds = .ok g0) (h0' : newFromDecls ds' = .ok g0') : SaysSame ds ds' := by
  have G := given_decls h0
  have G' := given_decls h0'
  obtain ⟨gD, hp, _, _, _, rfl⟩ := newFromDecls_spec h0
  obtain ⟨gD', hp', _, _, _, rfl⟩ := newFromDecls_spec h0'
  have p := pair_of hp hp' hl
  have hg := p.glob
  refine ⟨funext hl.type, funext hl.fallback, funext hl.multi, funext hl.subs, hl.rulesOf, ?_, ?_, ?_, ?_, ?_, ?_⟩
  · exact map_ident_inj (p.decl.wildcard.symm.trans ((congrArg Glob.wildcard hg).trans p.decl'.wildcard))
  · exact map_ident_inj (p.decl.start.symm.trans ((congrArg Glob.start hg).trans p.decl'.start))
  · exact p.decl.defaultType.symm.trans ((congrArg Glob.defaultType hg).trans p.decl'.defaultType)
  · exact p.decl.extraToken.symm.trans ((congrArg Glob.extraToken hg).trans p.decl'.extraToken)
  · exact G.tokenEnum.symm.trans ((congrArg Glob.tokenEnum hg).trans G'.tokenEnum)
  · exact G.parserStruct.symm.trans ((congrArg Glob.parserStruct hg).trans G'.parserStruct)

namespace SaysSame

theorem typedSym (h : SaysSame ds ds') : Spec.typedSym ds = Spec.typedSym ds' := by
  funext i; unfold Spec.typedSym; rw [h.type, h.multi, h.extra]

theorem typedElem (h : SaysSame ds ds') : Spec.typedElem ds = Spec.typedElem ds' := by
  funext e; unfold Spec.typedElem; rw [h.typedSym]

theorem startOf (h : SaysSame ds ds') : Spec.startOf ds = Spec.startOf ds' := by
  unfold Spec.startOf; rw [h.start, h.rules]

theorem ownType (h : SaysSame ds ds') : Spec.ownType ds = Spec.ownType ds' := by
  funext i; unfold Spec.ownType; rw [h.type, h.multi, h.extra]

theorem plainType (h : SaysSame ds ds') : Spec.plainType ds = Spec.plainType ds' := by
  funext i; unfold Spec.plainType; rw [h.wild, h.ownType, h.dflt]

theorem firstType (h : SaysSame ds ds') : Spec.firstType ds = Spec.firstType ds' := by
  funext i; unfold Spec.firstType; rw [h.plainType, h.dflt]

theorem tokenType (h : SaysSame ds ds') : Spec.tokenType ds = Spec.tokenType ds' := by
  funext i; unfold Spec.tokenType; rw [h.wild, h.multi, h.subs, h.firstType, h.plainType]

theorem valueType (h : SaysSame ds ds') : Spec.valueType ds = Spec.valueType ds' := by
  funext e; unfold Spec.valueType; rw [h.tokenType, h.firstType]

theorem bound (h : SaysSame ds ds') : Spec.bound ds = Spec.bound ds' := by
  funext u e; unfold Spec.bound; rw [h.typedSym, h.typedElem]

theorem elemTokens (h : SaysSame ds ds') : Spec.elemTokens ds = Spec.elemTokens ds' := by
  funext e; unfold Spec.elemTokens; rw [h.multi, h.subs]

theorem uncoded (h : SaysSame ds ds') : Uncoded ds ↔ Uncoded ds' := by
  unfold Uncoded; rw [h.rules, h.typedSym, h.typedElem]

theorem startUsed (h : SaysSame ds ds') : StartUsed ds ↔ StartUsed ds' := by
  unfold StartUsed; rw [h.rules, h.startOf]

theorem reached (h : SaysSame ds ds') {i : Ident} (hr : Reached ds i) : Reached ds' i := by
  induction hr with
  | start hs => exact .start (h.startOf ▸ hs)
  | elem hu _ he ht ih => exact .elem (h.rules ▸ hu) ih he ht

theorem symm (h : SaysSame ds ds') : SaysSame ds' ds :=
  ⟨h.type.symm, h.fallback.symm, h.multi.symm, h.subs.symm, h.rules.symm, h.wild.symm, h.start.symm, h.dflt.symm, h.extra.symm, h.token.symm, h.parser.symm⟩

theorem missing' (h : SaysSame ds ds') : Missing ds → Missing ds' := by
  rintro ⟨u, hu, hr, e, he, i, h1, h2, h3, h4⟩
  exact ⟨u, h.rules ▸ hu, h.reached hr, e, he, i, h1, h2, h3, fun v hv => h4 v (h.rules ▸ hv)⟩

theorem missing (h : SaysSame ds ds') : Missing ds ↔ Missing ds' := ⟨h.missing', h.symm.missing'⟩

theorem wildTyped (h : SaysSame ds ds') : WildTyped ds ↔ WildTyped ds' := by unfold WildTyped; rw [h.wild, h.ownType]

theorem tokenFull (h : SaysSame ds ds') : TokenFull ds ↔ TokenFull ds' := by unfold TokenFull; rw [h.token]

theorem parserFull (h : SaysSame ds ds') : ParserFull ds ↔ ParserFull ds' := by unfold ParserFull; rw [h.parser]

theorem paramMissing (h : SaysSame ds ds') : ParamMissing ds ↔ ParamMissing ds' := by unfold ParamMissing; rw [h.token, h.parser]

theorem fallbackTyped (h : SaysSame ds ds') : FallbackTyped ds ↔ FallbackTyped ds' := by unfold FallbackTyped; rw [h.fallback, h.tokenType]

theorem mixed (h : SaysSame ds ds') : Mixed ds ↔ Mixed ds' := by unfold Mixed; rw [h.rules, h.bound, h.elemTokens, h.tokenType, h.valueType]

theorem wildUsed (h : SaysSame ds ds') : WildUsed ds ↔ WildUsed ds' := by unfold WildUsed; rw [h.rules, h.bound, h.wild]

theorem written (h : SaysSame ds ds') : Spec.written ds = Spec.written ds' := by unfold Spec.written; rw [h.rules]

theorem mem_classMembers {i j : Ident} : j ∈ classMembers ds i ↔ ∃ ids, Decl.tokenClass i ids ∈ ds ∧ j ∈ ids := by
  unfold classMembers
  rw [List.mem_flatMap]
  constructor
  · rintro ⟨d, hd, h⟩
    split at h
    · rename_i tk ids
      split at h
      · rename_i he; subst he; exact ⟨ids, hd, h⟩
      · cases h
    · cases h
  · rintro ⟨ids, h1, h2⟩
    exact ⟨_, h1, by simp [h2]⟩

theorem flat_iff : flat ds = true ↔ (∀ i, ∀ j ∈ classMembers ds i, isClass ds j = false) ∧
    (rulesOf ds).all (fun u => u.rhs.all (fun e => match e.toks with
      | [_] => true
      | toks => toks.all (fun i => !isClass ds i))) = true := by
  unfold flat
  rw [Bool.and_eq_true]
  refine and_congr_left' ?_
  rw [List.all_eq_true]
  constructor
  · intro h i j hj
    obtain ⟨ids, h1, h2⟩ := mem_classMembers.1 hj
    have := List.all_eq_true.1 (h _ h1) j h2
    simpa using this
  · intro h d hd
    split
    · rename_i i ids
      rw [List.all_eq_true]
      intro j hj
      rw [h i j (mem_classMembers.2 ⟨ids, hd, hj⟩)]; rfl
    · rfl

theorem flat' (h : SaysSame ds ds') : Spec.flat ds = true ↔ Spec.flat ds' = true := by
  rw [flat_iff, flat_iff, h.multi, h.subs, h.rules]

end SaysSame

/-! ## The numbers of the types -/

theorem finalType_ok {g : Grammar} {s : SymbolId} {t : Option Ty} (h : g.finalType s = .ok t) (hk : (g.sym s).kind = .multiTerminal) :
    (g.sym s).subs ≠ [] ∧ (g.sym s).subs.head? ≠ some s := by
  unfold Grammar.finalType at h
  simp only [hk] at h
  cases hs : (g.sym s).subs with
  | nil => rw [hs] at h; cases h
  | cons f l =>
    rw [hs] at h
    simp only at h
    refine ⟨by simp, ?_⟩
    intro he
    simp only [List.head?_cons, Option.some.injEq] at he
    rw [if_pos he] at h
    cases h

theorem assignTypes_ok : ∀ {ss : List SymbolId} {g : Grammar} {ts : List Ty} {p : Grammar × List Ty}, g.assignTypes ts ss = .ok p → ∀ s ∈ ss,
    g.wildcard ≠ some s → (g.sym s).kind = .multiTerminal → (g.sym s).subs ≠ [] ∧ (g.sym s).subs.head? ≠ some s := by
  intro ss
  induction ss with
  | nil => intro g ts p _ s hs; cases hs
  | cons x ss ih =>
    intro g ts p h s hs hw hk
    unfold Grammar.assignTypes at h
    have step : ∀ {f : Symbol → Symbol} {ts}, (∀ b, (f b).kind = b.kind) → (∀ b, (f b).subs = b.subs) → (g.modifySym x f).assignTypes ts ss = .ok p → s ∈ ss →
        (g.sym s).subs ≠ [] ∧ (g.sym s).subs.head? ≠ some s := by
      intro f ts hf1 hf2 h hs
      have := ih h s hs hw (by rw [proj_modifySym (·.kind) hf1]; exact hk)
      rwa [proj_modifySym (·.subs) hf2] at this
    split at h
    · rename_i hx
      rcases List.mem_cons.1 hs with rfl | hs
      · exact absurd hx hw
      · exact ih h s hs hw hk
    · split at h
      · cases h
      · rename_i h1
        rcases List.mem_cons.1 hs with rfl | hs
        · exact finalType_ok h1 hk
        · exact step (by exact fun _ => rfl) (by exact fun _ => rfl) h hs
      · rename_i t h1
        rcases List.mem_cons.1 hs with rfl | hs
        · exact finalType_ok h1 hk
        · exact step (by exact fun _ => rfl) (by exact fun _ => rfl) h hs

theorem assignTypes_err2 : ∀ {ss : List SymbolId} {g : Grammar} {ts : List Ty} {e : GErr}, g.assignTypes ts ss = .error e →
    ∃ s ∈ ss, g.wildcard ≠ some s ∧ (g.sym s).kind = .multiTerminal ∧ ((g.sym s).subs = [] ∨ (g.sym s).subs.head? = some s) := by
  intro ss
  induction ss with
  | nil => intro g ts e h; cases h
  | cons s ss ih =>
    intro g ts e h
    unfold Grammar.assignTypes at h
    split at h
    · obtain ⟨x, hx, h2⟩ := ih h
      exact ⟨x, List.mem_cons_of_mem _ hx, h2⟩
    · rename_i hw
      split at h
      · rename_i h1
        cases h
        exact ⟨s, by simp, hw, (finalType_err h1).2⟩
      · obtain ⟨x, hx, h0, h2⟩ := ih h
        refine ⟨x, List.mem_cons_of_mem _ hx, h0, ?_⟩
        rwa [proj_modifySym (·.kind) (by exact fun _ => rfl), proj_modifySym (·.subs) (by exact fun _ => rfl)] at h2
      · obtain ⟨x, hx, h0, h2⟩ := ih h
        refine ⟨x, List.mem_cons_of_mem _ hx, h0, ?_⟩
        rwa [proj_modifySym (·.kind) (by exact fun _ => rfl), proj_modifySym (·.subs) (by exact fun _ => rfl)] at h2

theorem Upto.panic {sts : List LState} {acts acts' : List (List Action)} {dflt : SymbolId} (u : Upto ord ds g sts acts acts' dflt)
    (h : g.generate (g.resortStates acts') = .error .panic) : ∃ e, g.assignTypes [] g.symbols = .error e := by
  cases hT : g.assignTypes [] g.symbols with
  | error e => exact ⟨e, rfl⟩
  | ok x =>
    exfalso
    obtain ⟨gT, types⟩ := x
    obtain ⟨p, hp, k1, k2⟩ := u.packs
    have hsh := (assignTypes_shape hT).1
    unfold Grammar.generate at h
    rw [ite_eq_iff] at h
    rcases h with ⟨_, h⟩ | ⟨_, h⟩
    · cases h
    · rw [hT] at h
      simp only at h
      split at h
      · rename_i h1
        cases h
        exact absurd rfl (checkItems_err h1).2.2
      · rw [hsh.pack, hp] at h
        simp only at h
        split at h
        · split at h
          · rename_i h1
            cases h
            have := fallbackTable_err h1
            cases this
          · split at h
            · rename_i h1
              cases h
              obtain ⟨r, _, hr⟩ := mapM_except_err h1
              exact absurd rfl (translateCode_err hr).2.2
            · cases h
        · rename_i hno
          obtain ⟨sh, e1⟩ := Option.ne_none_iff_exists'.1 k1
          obtain ⟨rd, e2⟩ := Option.ne_none_iff_exists'.1 k2
          exact hno _ _ e1 e2

/-- A class of the one grammar that makes the macro panic is one of the other. -/
theorem bad_class (b : Bridge ord ds g) (b' : Bridge ord' ds' g') (hi' : GInv g') (hl : LikeDecls ds ds') (hw : written ds' = true) {y : SymbolId}
    (hy : y < g'.syms.length) (hyw : g'.wildcard ≠ some y) (hk : (g'.sym y).kind = .multiTerminal) (hbad : (g'.sym y).subs = [] ∨ (g'.sym y).subs.head? = some y) :
    ∃ x, x < g.syms.length ∧ g.wildcard ≠ some x ∧ (g.sym x).kind = .multiTerminal ∧ ((g.sym x).subs = [] ∨ (g.sym x).subs.head? = some x) := by
  have p := pair_of b.parsed b'.parsed hl
  obtain ⟨hy', hk', hsub, hn⟩ := b'.multi hi' hy hk
  rcases hn with hn | ⟨i, hn, hc⟩
  · exfalso
    have hal : AnonLen (fun n => n ≠ 0) b'.gD := by
      refine AnonLen.initial.parseDecls ?_ DInv.initial b'.parsed
      apply elemLen_of
      intro u hu e he _
      unfold written at hw
      have := List.all_eq_true.1 (List.all_eq_true.1 hw u hu) e he
      simpa using this
    have h5 := hal y hy' hn
    rw [hsub] at hbad
    rcases hbad with h | h
    · exact h5 (by rw [h]; rfl)
    · have h6 := (b'.dinv.subs y hy' y (List.mem_of_mem_head? h)).2
      rw [hn] at h6; cases h6
  · have hc' : isClass ds i = true := by rw [hl.multi]; exact hc
    obtain ⟨x, hx, hnx⟩ : ∃ x, x < b.gD.syms.length ∧ (b.gD.sym x).name = .ident i := by
      apply Classical.byContradiction
      intro hno
      have := obs_blank p.hd (i := i) fun s hs h => hno ⟨s, hs, h⟩
      have h2 := p.decl.multi i
      rw [this, hc'] at h2
      cases h2
    have hcor : Corr b.gD b'.gD x y := .named hx hy' hnx hn
    have e1 : (g.sym x).kind = (b.gD.sym x).kind := congrArg (·.2.1) (b.keep x hx)
    have e2 : (g.sym x).subs = (b.gD.sym x).subs := congrArg (·.2.2.1) (b.keep x hx)
    refine ⟨x, b.lt_of_gD hx, ?_, ?_, ?_⟩
    · intro hw
      apply hyw
      rw [b.wildcard] at hw
      rw [b'.wildcard]
      have hg := congrArg Glob.wildcard p.glob
      change b.gD.wildcard.map (fun s => (b.gD.sym s).name) = b'.gD.wildcard.map (fun s => (b'.gD.sym s).name) at hg
      rw [hw] at hg
      cases hw' : b'.gD.wildcard with
      | none => rw [hw'] at hg; cases hg
      | some w =>
        rw [hw'] at hg
        simp only [Option.map_some, Option.some.injEq] at hg
        rw [p.hd'.ident_inj (p.hd'.wild w hw').1 hy' (hg.symm.trans hnx) hn]
    · rw [e1, ← p.kind hcor]; exact hk'
    · rw [e2]
      have hs := p.subs hcor
      rw [hsub] at hbad
      rcases hbad with h | h
      · rw [h] at hs
        left
        exact List.forall₂_nil_right_iff.1 hs
      · right
        cases hs' : (b'.gD.sym y).subs with
        | nil => rw [hs'] at h; cases h
        | cons z l =>
          rw [hs'] at h hs
          cases h
          generalize (b.gD.sym x).subs = l0 at hs
          cases hs with
          | cons h1 _ =>
            rw [h1.symm.fn p.hd' p.hd p.once' hcor.symm]
            rfl

/-- Declarations that say the same are accepted if the others are. -/
theorem like_compile (ho : OrdOk ord) (ho' : OrdOk ord') (hl : LikeDecls ds ds') (hf : flat ds = true) (hw : written ds = true)
    (hs : noSelfFallback ds' = true) {g0' : Grammar} (h0' : newFromDecls ds' = .ok g0') {t : Tables} (hc : compile ord ds = .ok t) :
    ∃ t', compile ord' ds' = .ok t' := by
  obtain ⟨s⟩ := compile_cspec hc
  have hA := alike hl s.decls h0'
  have hi := GInv.automaton s.decls ho s.auto
  have ha := automaton_auto ho s.decls s.auto
  obtain ⟨b⟩ := bridge ho s.decls s.auto
  obtain ⟨gD', hp', _, _, _, _⟩ := newFromDecls_spec h0'
  have p := pair_of b.parsed hp' hl
  obtain ⟨ord2, ho2, hopt⟩ := opt_order ho p b.parsed hp'
  suffices h : ∃ t', compile ord2 ds' = .ok t' from other_order ho2 ho' h.choose_spec
  obtain ⟨g', sts', h'⟩ : ∃ g' sts', g0'.automaton ord2 = .ok (g', sts') := by
    cases stage s.decls ho with
    | uncoded _ h => rw [s.auto] at h; cases h
    | startUsed _ _ h => rw [s.auto] at h; cases h
    | missing _ _ _ h => rw [s.auto] at h; cases h
    | ok n1 n2 n3 _ =>
      cases stage h0' ho2 with
      | uncoded k _ => exact absurd (hA.uncoded.2 k) n1
      | startUsed _ k _ => exact absurd (hA.startUsed.2 k) n2
      | missing _ _ k _ => exact absurd (hA.missing.2 k) n3
      | ok _ _ _ h => exact ⟨_, _, h⟩
  have hi' := GInv.automaton h0' ho2 h'
  have ha' := automaton_auto ho2 h0' h'
  obtain ⟨b'⟩ := bridge ho2 h0' h'
  have hgD : b'.gD = gD' := by
    have := b'.parsed
    rw [hp'] at this
    exact (Except.ok.inj this).symm
  have E : Embed s.g g' := embedOf ho ho2 b.toBridge0 b'.toBridge0 hl (by rw [hgD]; exact hopt)
  obtain ⟨acts2, h2⟩ := E.findActions hi hi' ha ha' b.levels b.noStart b'.noStart s.actions
  obtain ⟨acts2', h3⟩ : ∃ acts2', g'.compressTables acts2 = .ok acts2' := by
    cases h3 : g'.compressTables acts2 with
    | ok a => exact ⟨a, rfl⟩
    | error e => exact absurd (b'.fbEnds hi' hs) (compressTables_err hi' h3).2
  obtain ⟨dflt, u⟩ := upto ho2 h0' h' h2 h3
  obtain ⟨t', ht⟩ : ∃ t', g'.generate (g'.resortStates acts2') = .ok t' := by
    cases ht : g'.generate (g'.resortStates acts2') with
    | ok t' => exact ⟨t', rfl⟩
    | error e =>
      exfalso
      have hgen : s.g.generate (s.g.resortStates s.acts') = .ok t := by
        have := hc
        unfold compile at this
        simp only [s.decls, bind, Except.bind] at this
        unfold Grammar.build at this
        simp only [s.auto, s.actions, s.compress, bind, Except.bind, Nat.lt_irrefl, gt_iff_lt, if_false] at this
        exact this
      obtain ⟨k1, ⟨k2, k3, k4⟩, k5, k6⟩ := (generate_causes ho b.toBridge0 (given s.decls s.auto) hi _).ok hgen
      obtain ⟨k6, k7⟩ := k6 hf
      have hf' := hA.flat'.1 hf
      rcases (generate_causes ho2 b'.toBridge0 (given h0' h') hi' _).err ht with
        ⟨_, h4⟩ | rfl | ⟨_, (⟨_, h4⟩ | ⟨_, _, h4⟩ | ⟨_, _, _, h4⟩) | ⟨_, h4⟩ | ⟨_, h4⟩ | ⟨_, h4⟩⟩
      · exact k1 (hA.wildTyped.2 h4)
      · obtain ⟨e, he⟩ := u.panic ht
        obtain ⟨y, hy, y1, y2, y3⟩ := assignTypes_err2 he
        have hyl : y < g'.syms.length := by
          obtain ⟨i, hii, rfl⟩ := List.getElem_of_mem hy
          have := (hi'.index i (hi'.slen ▸ hii)).1
          rw [getD_of_lt hii] at this
          exact this
        obtain ⟨x, x1, x2, x3, x4⟩ := bad_class b b' hi' hl (by rw [← hA.written]; exact hw) hyl y1 y2 y3
        have hx : x ∈ s.g.symbols := hi.mem_symbols x1
        have := assignTypes_ok s.gen.assign x hx x2 x3
        rcases x4 with h | h
        · exact this.1 h
        · exact this.2 h
      · exact k2 (hA.tokenFull.2 h4)
      · exact k3 (hA.parserFull.2 h4)
      · exact k4 (hA.paramMissing.2 h4)
      · exact k6 (hA.fallbackTyped.2 (h4 hf'))
      · exact k7 (hA.mixed.2 (h4 hf'))
      · exact k5 (hA.wildUsed.2 h4)
  refine ⟨t', ?_⟩
  unfold compile
  simp only [h0', bind, Except.bind]
  unfold Grammar.build
  simp only [h', h2, h3, bind, Except.bind, Nat.lt_irrefl, gt_iff_lt, if_false]
  exact ht

end Pomelo
