import Verif.Proofs.Ends
/-! # The errors of the phases of the macro -/

namespace Pomelo

open Spec

/-- An error message, not a panic or a loop -/
def GErr.Plain (e : GErr) : Prop := e ≠ .fuel ∧ e ≠ .hang ∧ e ≠ .panic

instance (e : GErr) : Decidable e.Plain := by unfold GErr.Plain; infer_instance

theorem declTokens_err {e : GErr} : ∀ {ids : List Ident} {g : Grammar} {e' : GErr}, g.declTokens e ids = .error e' → e' = e := by
  intro ids
  induction ids with
  | nil => intro g e' h; cases h
  | cons id ids ih =>
    intro g e' h
    unfold Grammar.declTokens at h
    split at h
    · cases h; rfl
    · simp only at h
      split at h
      · cases h
      · rename_i e1 h1
        cases h
        exact ih h1

theorem declAssoc_err {p : Precedence} : ∀ {ids : List Ident} {g : Grammar} {e' : GErr}, g.declAssoc p ids = .error e' → e'.Plain := by
  intro ids
  induction ids with
  | nil => intro g e' h; cases h
  | cons id ids ih =>
    intro g e' h
    unfold Grammar.declAssoc at h
    split at h
    · cases h; decide
    · simp only at h
      split at h
      · cases h; decide
      · exact ih h

theorem declClass_err {tk : SymbolId} : ∀ {ids : List Ident} {g : Grammar} {e' : GErr}, g.declClass tk ids = .error e' → e'.Plain := by
  intro ids
  induction ids with
  | nil => intro g e' h; cases h
  | cons id ids ih =>
    intro g e' h
    unfold Grammar.declClass at h
    split at h
    · cases h; decide
    · exact ih h

theorem setFallbacks_err {fb : SymbolId} : ∀ {ss : List SymbolId} {g : Grammar} {e' : GErr}, g.setFallbacks fb ss = .error e' → e'.Plain := by
  intro ids
  induction ids with
  | nil => intro g e' h; cases h
  | cons id ids ih =>
    intro g e' h
    unfold Grammar.setFallbacks at h
    split at h
    · cases h; decide
    · exact ih h

theorem declElem_err {g : Grammar} {x : RhsElem} {e' : GErr} (h : g.declElem x = .error e') : e'.Plain := by
  unfold Grammar.declElem at h
  split at h
  · simp only at h
    split at h
    · cases h; decide
    · split at h
      · split at h <;> cases h
      · cases h
  · simp only at h
    split at h
    · rename_i e1 h1
      cases h
      rw [declTokens_err h1]; decide
    · cases h

theorem declRhs_err : ∀ {es : List RhsElem} {g : Grammar} {e' : GErr}, g.declRhs es = .error e' → e'.Plain := by
  intro es
  induction es with
  | nil => intro g e' h; cases h
  | cons x es ih =>
    intro g e' h
    unfold Grammar.declRhs at h
    split at h
    · rename_i h1
      cases h
      exact declElem_err h1
    · split at h
      · rename_i h1
        cases h
        exact ih h1
      · cases h

theorem fallbackWalk_err {g : Grammar} {ss : List SymbolId} : ∀ {fuel : Nat} {s : SymbolId} {e' : GErr},
    g.fallbackWalk ss fuel s = .error e' → e' = .hang ∨ e'.Plain := by
  intro fuel
  induction fuel with
  | zero => intro s e' h; cases h; exact .inl rfl
  | succ n ih =>
    intro s e' h
    unfold Grammar.fallbackWalk at h
    split at h
    · cases h
    · split at h
      · cases h; exact .inr (by decide)
      · exact ih h

theorem parseOneDecl_err {g : Grammar} {d : Decl} {e : GErr} (h : g.parseOneDecl d = .error e) : e.Plain ∨
    (e = .hang ∧ ∃ fb ids g1 ss, d = .fallback fb ids ∧ g.declTokens .fallbackNotToken ids = .ok (g1, ss) ∧ fb.isTerminal = true ∧
      (g1.symbolNew (.ident fb) .terminal).1.fallbackWalk ss ((g1.symbolNew (.ident fb) .terminal).1.syms.length + 1)
        (g1.symbolNew (.ident fb) .terminal).2 = .error .hang) := by
  unfold Grammar.parseOneDecl at h
  cases d with
  | fallback fb ids =>
    simp only at h
    split at h
    · rename_i h1
      cases h
      rw [declTokens_err h1]; exact .inl (by decide)
    · rename_i g1 ss h1
      split at h
      · cases h; exact .inl (by decide)
      · rename_i h2
        split at h
        · rename_i h3
          cases h
          rcases fallbackWalk_err h3 with rfl | h4
          · exact .inr ⟨rfl, fb, ids, g1, ss, rfl, h1, by simpa using h2, h3⟩
          · exact .inl h4
        · exact .inl (setFallbacks_err h)
  | assoc a ids => exact .inl (declAssoc_err h)
  | rule lhs rhs action prec =>
    left
    simp only at h
    split at h
    · cases h; decide
    · split at h
      · rename_i h1
        cases h
        exact declRhs_err h1
      · split at h
        · cases h
        · split at h
          · cases h; decide
          · cases h
  | tokenClass tk ids =>
    left
    simp only at h
    split at h
    · cases h; decide
    · exact declClass_err h
  | type attrs id ty =>
    left
    simp only at h
    split at h
    · rename_i h1
      cases h
      split at h1
      · cases h1
      · split at h1
        · split at h1
          · cases h1; decide
          · cases h1
        · cases h1; decide
    · split at h
      · cases h; decide
      · cases h
  | _ =>
    left
    simp only at h
    repeat' split at h
    all_goals first
      | cases h; done
      | (cases h; decide)

/-- The chains of fallbacks among the symbols of a grammar -/
theorem ends_sym {g : Grammar} (h : DInv g) {F : Ident → Option Ident} (hF : ∀ i, (g.obs i).fallback = (F i).map SymName.ident) {i : Ident}
    (he : Ends F i) : ∀ {s : SymbolId}, s < g.syms.length → (g.sym s).name = .ident i → Ends (fun s => (g.sym s).fallback) s := by
  induction he with
  | @stop i hi =>
    intro s hs hn
    have hob : (g.obs i).fallback = (g.sym s).fallback.map (fun m => (g.sym m).name) := by
      rw [obs_of_name h hs hn]; rfl
    rw [hF i, hi] at hob
    exact .stop (Option.map_eq_none_iff.1 hob.symm)
  | @next i j hi _ ih =>
    intro s hs hn
    have hob : (g.obs i).fallback = (g.sym s).fallback.map (fun m => (g.sym m).name) := by
      rw [obs_of_name h hs hn]; rfl
    rw [hF i, hi] at hob
    obtain ⟨f, hf, hf2⟩ := Option.map_eq_some_iff.1 hob.symm
    exact .next hf (ih (h.fb s hs f hf).1 hf2)

theorem sym_fallback_lt {g : Grammar} (h : ∀ s, s < g.syms.length → ∀ f, (g.sym s).fallback = some f → f < g.syms.length) :
    ∀ a b, (g.sym a).fallback = some b → b < g.syms.length := by
  intro a b hab
  by_cases ha : a < g.syms.length
  · exact h a ha b hab
  · unfold Grammar.sym at hab
    rw [List.getD_eq_getElem?_getD, List.getElem?_eq_none (Nat.le_of_not_lt ha)] at hab
    cases hab

/-- The declarations are read without a panic, and without end only if some token is its own fallback. -/
theorem parseDecls_err : ∀ {ds : List Decl} {e : GErr}, Grammar.initial.parseDecls ds = .error e →
    e.Plain ∨ (e = .hang ∧ noSelfFallback ds = false) := by
  have key : ∀ (es : List Decl) (ds : List Decl) (g : Grammar) (e : GErr), Grammar.initial.parseDecls ds = .ok g → g.parseDecls es = .error e →
      e.Plain ∨ (e = .hang ∧ noSelfFallback (ds ++ es) = false) := by
    intro es
    induction es with
    | nil => intro ds g e _ h; cases h
    | cons d es ih =>
      intro ds g e hg h
      rw [Grammar.parseDecls] at h
      split at h
      · rename_i e1 h1
        cases h
        rcases parseOneDecl_err h1 with h2 | ⟨rfl, fb, ids, g1, ss, rfl, h3, h4, h5⟩
        · exact .inl h2
        · refine .inr ⟨rfl, ?_⟩
          by_contra hn
          have hn1 : noSelfFallback ds = true := by
            rw [Bool.not_eq_false] at hn
            unfold noSelfFallback at hn ⊢
            rw [List.all_append, Bool.and_eq_true] at hn
            exact hn.1
          have hinv := (DInv.initial.parseDecls hg).1
          obtain ⟨i1, i2, i3, i4⟩ := hinv.declTokens h3
          have hid : (!fb.isTerminal) ≠ true := by simp [h4]
          obtain ⟨j1, j2, j3, j4, _⟩ := i1.symbolNew (askOk_upper hid)
          have hobs : ∀ i, ((g1.symbolNew (.ident fb) .terminal).1.obs i).fallback = (fallbackOf ds i).map SymName.ident := by
            intro i
            rw [obs_symbolNew' i1 (askOk_upper hid) (by simp), obs_declTokens hinv h3, (declared hg).fallback i]
          have he := ends_sym j1 hobs (fallbacks_end hg hn1 fb) j3 j4
          obtain ⟨k, hk⟩ := endsIn_of_ends he
          have hlt := hk.lt (sym_fallback_lt (fun s hs f hf => (j1.fb s hs f hf).1)) j3
          exact fallbackWalk_ends hk (Nat.lt_succ_of_lt hlt) h5
      · rename_i g1 h1
        have h2 : Grammar.initial.parseDecls (ds ++ [d]) = .ok g1 := by
          have : ∀ (ds : List Decl) (g0 : Grammar), g0.parseDecls ds = .ok g → g0.parseDecls (ds ++ [d]) = .ok g1 := by
            intro ds
            induction ds with
            | nil => intro g0 h0; cases h0; rw [List.nil_append, Grammar.parseDecls, h1]; rfl
            | cons x xs ih =>
              intro g0 h0
              rw [Grammar.parseDecls] at h0
              rw [List.cons_append, Grammar.parseDecls]
              split at h0
              · cases h0
              · exact ih _ h0
          exact this ds _ hg
        have := ih (ds ++ [d]) g1 e h2 h
        rwa [List.append_assoc, List.singleton_append] at this
  intro ds e h
  exact key ds [] _ e rfl h

theorem newFromDecls_err {ds : List Decl} {e : GErr} (h : newFromDecls ds = .error e) : e.Plain ∨ (e = .hang ∧ noSelfFallback ds = false) := by
  unfold newFromDecls at h
  split at h
  · rename_i h1
    cases h
    exact parseDecls_err h1
  · simp only at h
    split at h
    · cases h; exact .inl (by decide)
    · cases h

/-! ## The automaton -/

theorem mapM_except_err {α β ε : Type} {f : α → Except ε β} : ∀ {l : List α} {e : ε}, l.mapM f = .error e → ∃ a ∈ l, f a = .error e := by
  intro l
  induction l with
  | nil => intro e h; rw [List.mapM_nil] at h; cases h
  | cons a l ih =>
    intro e h
    rw [List.mapM_cons] at h
    simp only [bind, Except.bind, pure, Except.pure] at h
    split at h
    · rename_i h1
      cases h
      exact ⟨a, by simp, h1⟩
    · split at h
      · rename_i h1
        cases h
        obtain ⟨b, hb, hb2⟩ := ih h1
        exact ⟨b, List.mem_cons_of_mem _ hb, hb2⟩
      · cases h

theorem normalizeRules_err {g : Grammar} {e : GErr} (h : g.normalizeRules = .error e) : e = .typedNoCode := by
  unfold Grammar.normalizeRules at h
  split at h
  · rename_i h1
    cases h
    obtain ⟨r, _, hr⟩ := mapM_except_err h1
    unfold Grammar.normalizeRule at hr
    split at hr
    · split at hr
      · cases hr
      · cases hr; rfl
    · cases hr
  · cases h

theorem closureLoop_err {g : Grammar} {sid : StateId} : ∀ {fuel i : Nat} {cur : List Cfg} {e : GErr}, g.closureLoop sid fuel i cur = .error e →
    e = .fuel ∨ e = .noRulesFor := by
  intro fuel
  induction fuel with
  | zero => intro i cur e h; cases h; exact .inl rfl
  | succ n ih =>
    intro i cur e h
    unfold Grammar.closureLoop at h
    split at h
    · cases h
    · split at h
      · rename_i h1
        cases h
        unfold Grammar.closeItem at h1
        split at h1
        · cases h1
        · split at h1
          · split at h1
            · cases h1; exact .inr rfl
            · cases h1
          · cases h1
      · exact ih h

theorem shiftsLoop_err {g : Grammar} {get} (hg : ∀ sts cur e, get sts cur = .error e → e = .fuel ∨ e = .noRulesFor) {sid : StateId} :
    ∀ {fuel : Nat} {sts : List LState} {p : List Cfg} {aps : List Action} {e : GErr}, g.shiftsLoop get sid fuel sts p aps = .error e →
    e = .fuel ∨ e = .noRulesFor := by
  intro fuel
  induction fuel with
  | zero => intro sts p aps e h; cases h
  | succ n ih =>
    intro sts p aps e h
    unfold Grammar.shiftsLoop at h
    split at h
    · cases h
    · split at h
      · exact ih h
      · split at h
        · rename_i h1
          cases h
          exact hg _ _ _ h1
        · exact ih h

theorem getState_err {g : Grammar} : ∀ {fuel : Nat} {sts : List LState} {cur : List Cfg} {e : GErr}, g.getState fuel sts cur = .error e →
    e = .fuel ∨ e = .noRulesFor := by
  intro fuel
  induction fuel with
  | zero => intro sts cur e h; cases h; exact .inl rfl
  | succ n ih =>
    intro sts cur e h
    unfold Grammar.getState at h
    simp only at h
    split at h
    · cases h
    · split at h
      · rename_i h1
        cases h
        exact closureLoop_err h1
      · split at h
        · rename_i h1
          cases h
          exact shiftsLoop_err (fun _ _ _ => ih) h1
        · cases h

theorem first_exact {gD : Grammar} (hd : DInv gD) (hne : gD.rules ≠ []) {ord} (ho : OrdOk ord) {gN gF : Grammar}
    (hnorm : ((gD.pushSym { name := .dflt, kind := .nonTerminal }).prepare ord).findRulePrecedences.normalizeRules = .ok gN) :
    (∃ gF, gN.findFirstSets = .ok gF) ∧ (gN.findFirstSets = .ok gF → FirstExact (gF.markStart (gF.start.getD 0)) ∧
      ∀ x, ((gF.markStart (gF.start.getD 0)).sym x).firstSet ≠ [] → ((gF.markStart (gF.start.getD 0)).sym x).kind = .nonTerminal) := by
  have hgi := GInv.prepare hd hne ho
  have hN := (findRulePrecedences_shape _).trans (normalizeRules_shape hnorm)
  have hgN := hgi.shape hN
  obtain ⟨rulesN, heN, _⟩ := normalizeRules_spec hnorm
  have hfr : Fresh gN := by
    intro x
    have hx : gN.sym x = ((gD.pushSym { name := .dflt, kind := .nonTerminal }).prepare ord).sym x := by
      rw [heN]; rfl
    rw [hx]
    have h1 := proj_addOptionals (fun b => (b.firstSet, b.lambda)) (fun _ _ => rfl) (fun _ _ => rfl)
      (g := ((gD.pushSym { name := .dflt, kind := .nonTerminal }).indexed.addExtraToken)) (ord := ord) x
    rw [proj_addExtraToken (fun b => (b.firstSet, b.lambda)) (fun _ _ => rfl), proj_indexed (fun b => (b.firstSet, b.lambda)) (fun _ _ => rfl)] at h1
    rw [← prepare_eq] at h1
    have h2 : ((gD.pushSym { name := .dflt, kind := .nonTerminal }).sym x).firstSet = [] ∧
        ((gD.pushSym { name := .dflt, kind := .nonTerminal }).sym x).lambda = false := by
      by_cases hx : x < gD.syms.length
      · rw [sym_pushSym_lt hx]; exact hd.plain x hx
      · unfold Grammar.sym Grammar.pushSym
        by_cases he : x = gD.syms.length
        · subst he; simp [List.getD_eq_getElem?_getD]
        · have : gD.syms.length + 1 ≤ x := Nat.lt_of_le_of_ne (Nat.le_of_not_lt hx) (Ne.symm he)
          simp only [List.getD_eq_getElem?_getD]
          rw [List.getElem?_eq_none (by simpa using this)]
          exact ⟨rfl, rfl⟩
    have h3 := congrArg Prod.fst h1
    have h4 := congrArg Prod.snd h1
    simp only at h3 h4
    rw [h3, h4]; exact h2
  refine ⟨findFirstSets_ends hgN hfr, ?_⟩
  intro hfirst
  obtain ⟨h1, h2⟩ := findFirstSets_exact hfr (fun r hr => (hgN.lhs r hr).2.1) hfirst
  have hm := markStart_shape gF (gF.start.getD 0)
  have hs : (gF.markStart (gF.start.getD 0)).syms = gF.syms := (markStart_rules _ _).1
  clear hfr heN hgN hN
  have hsym : ∀ x, (gF.markStart (gF.start.getD 0)).sym x = gF.sym x := by
    intro x; unfold Grammar.sym; rw [hs]
  have hm' := hm
  have hin : ∀ xs n, (gF.markStart (gF.start.getD 0)).InFollow xs n ↔ gF.InFollow xs n := by
    intro xs n
    induction xs with
    | nil => exact Iff.rfl
    | cons x xs ih => unfold Grammar.InFollow Grammar.heads; simp only [hsym, ih]
  refine ⟨⟨?_, ?_, ⟨?_, ?_⟩⟩, ?_⟩
  · intro x; rw [hsym, hm'.derives]; exact h1.lam x
  · intro x; rw [hsym, hm'.begins]; exact h1.fst x
  · intro r; rw [hm'.rlen, hm'.rhs, hm'.lhs]; simp only [hsym]; exact h1.closed.lam r
  · intro r; rw [hm'.rlen, hm'.rhs, hm'.lhs]; unfold Grammar.heads; simp only [hsym, hin]; exact h1.closed.fst r
  · intro x; rw [hsym]; exact h2 x

/-- The automaton is built without a panic and in finitely many steps. -/
theorem automaton_err {ds : List Decl} {g0 : Grammar} (h0 : newFromDecls ds = .ok g0) {ord} (ho : OrdOk ord) {e : GErr}
    (h : g0.automaton ord = .error e) : e = .typedNoCode ∨ e = .startOnRhs ∨ e = .noRulesFor := by
  obtain ⟨gD, _, hd, _, hne, rfl⟩ := newFromDecls_spec h0
  unfold Grammar.automaton at h
  simp only [bind, Except.bind, pure, Except.pure] at h
  split at h
  · rename_i h1
    cases h
    exact .inl (normalizeRules_err h1)
  · rename_i gN hN
    obtain ⟨⟨gF', hF'⟩, hex⟩ := first_exact hd hne ho (gF := (match gN.findFirstSets with | .ok x => x | .error _ => gN)) hN
    rw [hF'] at h hex
    simp only at h hex
    obtain ⟨hfe, hfk⟩ := hex trivial
    have hsh : Shape _ (gF'.markStart (gF'.start.getD 0)) :=
      (((findRulePrecedences_shape _).trans (normalizeRules_shape hN)).trans (findFirstSets_shape hF')).trans (markStart_shape _ _)
    have hi := (GInv.prepare hd hne ho).shape hsh
    have hshF : Shape gF' (gF'.markStart (gF'.start.getD 0)) := markStart_shape _ _
    unfold Grammar.findStates at h
    simp only at h
    generalize gF'.markStart (gF'.start.getD 0) = gM at *
    have hst : gF'.start.getD 0 = gM.start.getD 0 := by rw [hshF.start]
    have hcur := startBasis_ok (g := gF') (g' := gM) (sp := gF'.start.getD 0) (by
      rw [← hshF.kind, hst]; exact hi.start_kind.1)
    rw [← hshF.rules] at hcur
    split at h
    · rename_i h1
      split at h1
      · cases h1; cases h; exact .inr (.inl rfl)
      · split at h1
        · rename_i e1 h2
          cases h1
          cases h
          rcases getState_err h2 with rfl | rfl
          · exfalso
            refine (getState_enough hi _ [] _ ⟨by simp, by simp, by simp⟩ ⟨hcur.nodup, ?_⟩ (by simp)).1 h2
            intro c hc
            rcases hcur.src with ⟨_, h3, _⟩ | ⟨p, _, hp, _⟩
            · obtain ⟨r, hr, rfl⟩ := (h3 c).1 hc
              exact ⟨rules_lt hi hr, Nat.zero_le _⟩
            · exact absurd hp (Nat.not_lt_zero _)
          · exact .inr (.inr rfl)
        · cases h1
    · rename_i x h1
      split at h1
      · cases h1
      · split at h1
        · cases h1
        · rename_i sts k h2
          cases h1
          simp only at h
          obtain ⟨sts', h3⟩ := follow_ends hi hfe hfk (by rw [← hst]; exact hcur) h2
          rw [h3] at h
          cases h

/-! ## The tables -/

theorem findActions_err {g : Grammar} {sts : List LState} {e : GErr} (h : g.findActions sts = .error e) :
    e = .cannotReduce ∨ (e = .panic ∧ ∃ q, q < sts.length ∧ selfShift q (g.rawActions q (sts.getD q default)) = true) := by
  unfold Grammar.findActions at h
  split at h
  · rename_i hs
    cases h
    refine .inr ⟨rfl, ?_⟩
    obtain ⟨⟨st, q⟩, hm, hs⟩ := List.any_eq_true.1 hs
    rw [List.mem_zipIdx_iff_getElem?] at hm
    obtain ⟨hq, e⟩ := List.getElem?_eq_some_iff.1 hm
    simp only at hq e hs
    refine ⟨q, hq, ?_⟩
    rw [List.getD_eq_getElem?_getD, List.getElem?_eq_getElem hq, e]
    exact hs
  · simp only at h
    split at h
    · cases h
    · cases h; exact .inl rfl

theorem filterM_except_err {α ε : Type} {f : α → Except ε Bool} {l : List α} {e : ε} (h : l.filterM f = .error e) : ∃ a ∈ l, f a = .error e := by
  unfold List.filterM at h
  have key : ∀ (l acc : List α), List.filterAuxM f l acc = .error e → ∃ a ∈ l, f a = .error e := by
    intro l
    induction l with
    | nil => intro acc h; cases h
    | cons a l ih =>
      intro acc h
      unfold List.filterAuxM at h
      simp only [bind, Except.bind] at h
      split at h
      · rename_i h1
        cases h
        exact ⟨a, by simp, h1⟩
      · obtain ⟨b, hb, hb2⟩ := ih _ h
        exact ⟨b, List.mem_cons_of_mem _ hb, hb2⟩
  cases h2 : List.filterAuxM f l [] with
  | error e2 => rw [h2] at h; cases h; exact key l [] h2
  | ok x => rw [h2] at h; cases h

theorem fallbackDiffers_err {g : Grammar} {acts : List Action} {d : Detail} : ∀ {fuel : Nat} {s : SymbolId} {e : GErr},
    g.fallbackDiffers acts d fuel s = .error e → e = .hang := by
  intro fuel
  induction fuel with
  | zero => intro s e h; cases h; rfl
  | succ n ih =>
    intro s e h
    unfold Grammar.fallbackDiffers at h
    split at h
    · cases h
    · split at h
      · split at h
        · exact ih h
        · cases h
      · exact ih h

/-- The tables are compressed in finitely many steps unless the fallbacks of the tokens run in a circle. -/
theorem compressTables_err {g : Grammar} (hi : GInv g) {acts : List (List Action)} {e : GErr} (h : g.compressTables acts = .error e) :
    e = .hang ∧ ¬ g.FbEnds := by
  unfold Grammar.compressTables at h
  split at h
  · rename_i h1
    exfalso
    obtain ⟨d, d1, d2, d3⟩ := hi.dflt
    unfold Grammar.symbolFind at h1
    rw [List.find?_eq_none] at h1
    obtain ⟨d4, d5⟩ := hi.perm d d1
    have hm : d ∈ g.symbols := by
      rw [← d5, getD_of_lt (by rw [hi.slen]; exact d4)]
      exact List.getElem_mem _
    have := h1 d hm
    simp [d2] at this
  · rename_i dflt hd
    obtain ⟨l, _, hl⟩ := mapM_except_err h
    unfold Grammar.compressState at hl
    split at hl
    · rename_i h1
      cases hl
      unfold Grammar.ignoredActions at h1
      split at h1
      · cases h2 : List.filterM (fun a => g.fallbackDiffers l a.detail (g.syms.length + 1) a.la) l with
        | ok x => rw [h2] at h1; cases h1
        | error e2 =>
          rw [h2] at h1
          cases h1
          obtain ⟨a, ha, hf⟩ := filterM_except_err h2
          refine ⟨fallbackDiffers_err hf, ?_⟩
          intro hfe
          have : ∃ k, EndsIn (fun s => (g.sym s).fallback) a.la k ∧ k < g.syms.length + 1 := by
            by_cases hlt : a.la < g.syms.length
            · obtain ⟨k, hk⟩ := endsIn_of_ends (hfe a.la hlt)
              exact ⟨k, hk, Nat.lt_succ_of_lt (hk.lt (sym_fallback_lt (fun s hs f hf => (hi.fb s hs f hf).1)) hlt)⟩
            · refine ⟨0, .stop ?_, Nat.succ_pos _⟩
              show (g.sym a.la).fallback = none
              unfold Grammar.sym
              rw [List.getD_eq_getElem?_getD, List.getElem?_eq_none (Nat.le_of_not_lt hlt)]
              rfl
          obtain ⟨k, hk, hk2⟩ := this
          obtain ⟨b, hb⟩ := fallbackDiffers_ends (acts := l) (d := a.detail) hk hk2
          rw [hf] at hb
          cases hb
      · cases h1
    · simp only at hl
      split at hl
      · split at hl <;> cases hl
      · cases hl

theorem fallbackTable_err {g : Grammar} {e : GErr} (h : g.fallbackTable = .error e) : e = .fallbackType := by
  unfold Grammar.fallbackTable at h
  obtain ⟨p, _, hp⟩ := mapM_except_err h
  split at hp
  · cases hp
  · split at hp
    · cases hp
    · cases hp; rfl

theorem translateCode_err {g : Grammar} {r : Rule} {e : GErr} (h : g.translateCode r = .error e) : e.Plain := by
  unfold Grammar.translateCode at h
  split at h
  · cases h; decide
  · split at h
    · cases h; decide
    · cases h

theorem finalType_err {g : Grammar} {s : SymbolId} {e : GErr} (h : g.finalType s = .error e) : e = .panic ∧ (g.sym s).kind = .multiTerminal ∧
    ((g.sym s).subs = [] ∨ (g.sym s).subs.head? = some s) := by
  unfold Grammar.finalType at h
  simp only at h
  cases hk : (g.sym s).kind with
  | multiTerminal =>
    rw [hk] at h
    simp only at h
    cases hs : (g.sym s).subs with
    | nil => rw [hs] at h; cases h; exact ⟨rfl, rfl, .inl rfl⟩
    | cons f l =>
      rw [hs] at h
      simp only at h
      by_cases hf : f = s
      · rw [if_pos hf] at h; cases h; exact ⟨rfl, rfl, .inr (by simp [hf])⟩
      · rw [if_neg hf] at h; cases h
  | terminal => rw [hk] at h; cases h
  | nonTerminal => rw [hk] at h; cases h

theorem assignTypes_err : ∀ {ss : List SymbolId} {g : Grammar} {ts : List Ty} {e : GErr}, g.assignTypes ts ss = .error e →
    e = .panic ∧ ∃ s ∈ ss, (g.sym s).kind = .multiTerminal ∧ ((g.sym s).subs = [] ∨ (g.sym s).subs.head? = some s) := by
  intro ss
  induction ss with
  | nil => intro g ts e h; cases h
  | cons s ss ih =>
    intro g ts e h
    unfold Grammar.assignTypes at h
    split at h
    · obtain ⟨h1, x, hx, h2⟩ := ih h
      exact ⟨h1, x, List.mem_cons_of_mem _ hx, h2⟩
    · split at h
      · rename_i h1
        cases h
        obtain ⟨h2, h3⟩ := finalType_err h1
        exact ⟨h2, s, by simp, h3⟩
      · obtain ⟨h1, x, hx, h2⟩ := ih h
        refine ⟨h1, x, List.mem_cons_of_mem _ hx, ?_⟩
        rwa [proj_modifySym (·.kind) (by exact fun _ => rfl), proj_modifySym (·.subs) (by exact fun _ => rfl)] at h2
      · obtain ⟨h1, x, hx, h2⟩ := ih h
        refine ⟨h1, x, List.mem_cons_of_mem _ hx, ?_⟩
        rwa [proj_modifySym (·.kind) (by exact fun _ => rfl), proj_modifySym (·.subs) (by exact fun _ => rfl)] at h2

theorem checkItems_err {g : Grammar} {e : GErr} (h : g.checkItems = .error e) : e.Plain := by
  unfold Grammar.checkItems at h
  simp only at h
  split at h
  · cases h; decide
  · split at h
    · cases h; decide
    · split at h
      · cases h; decide
      · cases h

theorem generate_err {g : Grammar} {sts : List RState} {e : GErr} (h : g.generate sts = .error e) : e.Plain ∨ (e = .panic ∧
    ((∃ s ∈ g.symbols, (g.sym s).kind = .multiTerminal ∧ ((g.sym s).subs = [] ∨ (g.sym s).subs.head? = some s)) ∨
     ∃ gT types, g.assignTypes [] g.symbols = .ok (gT, types) ∧
      (gT.pack sts = none ∨ ∃ p, gT.pack sts = some p ∧ (ofstTable sts.length p.tkn = none ∨ ofstTable sts.length p.nt = none)))) := by
  unfold Grammar.generate at h
  rw [ite_eq_iff] at h
  rcases h with ⟨_, h⟩ | ⟨_, h⟩
  · cases h; exact .inl (by decide)
  · split at h
    · rename_i h1
      cases h
      exact .inr ⟨(assignTypes_err h1).1, .inl (assignTypes_err h1).2⟩
    · rename_i gT types hT
      split at h
      · rename_i h1
        cases h
        exact .inl (checkItems_err h1)
      split at h
      · rename_i hp
        cases h; exact .inr ⟨rfl, .inr ⟨gT, types, hT, .inl hp⟩⟩
      · rename_i p hp
        split at h
        · split at h
          · rename_i h1
            cases h
            rw [fallbackTable_err h1]; exact .inl (by decide)
          · split at h
            · rename_i h1
              cases h
              obtain ⟨r, _, hr⟩ := mapM_except_err h1
              exact .inl (translateCode_err hr)
            · cases h
        · rename_i hno
          cases h
          refine .inr ⟨rfl, .inr ⟨gT, types, hT, .inr ⟨p, hp, ?_⟩⟩⟩
          cases h1 : ofstTable sts.length p.tkn with
          | none => exact .inl rfl
          | some a =>
            cases h2 : ofstTable sts.length p.nt with
            | none => exact .inr rfl
            | some b => exact absurd h2 (hno a b h1)

/-- Errors of `compile` -/
theorem compile_err {ord} (ho : OrdOk ord) {ds : List Decl} {e : GErr} (h : compile ord ds = .error e) :
    e ≠ .fuel ∧ (e = .hang → noSelfFallback ds = false) := by
  have plain : ∀ {e : GErr}, e.Plain → e ≠ .fuel ∧ (e = .hang → noSelfFallback ds = false) := fun h => ⟨h.1, fun hh => absurd hh h.2.1⟩
  unfold compile Grammar.build at h
  simp only [bind, Except.bind, throw, throwThe, MonadExceptOf.throw] at h
  split at h
  · rename_i h1
    cases h
    rcases newFromDecls_err h1 with h2 | ⟨rfl, h2⟩
    · exact plain h2
    · exact ⟨by simp, fun _ => h2⟩
  · rename_i g0 h0
    split at h
    · rename_i h1
      cases h
      apply plain
      rcases automaton_err h0 ho h1 with rfl | rfl | rfl <;> decide
    · rename_i x h1
      obtain ⟨g, sts⟩ := x
      have hi := GInv.automaton h0 ho h1
      simp only at h
      split at h
      · rename_i h2
        cases h
        rcases findActions_err h2 with rfl | ⟨rfl, _⟩
        · exact plain (by decide)
        · exact ⟨by simp, by simp⟩
      · rename_i x h2
        obtain ⟨acts, n⟩ := x
        simp only at h
        split at h
        · cases h; exact plain (by decide)
        · split at h
          · rename_i h3
            cases h
            obtain ⟨rfl, h4⟩ := compressTables_err hi h3
            refine ⟨by simp, fun _ => ?_⟩
            by_contra hn
            obtain ⟨b⟩ := bridge ho h0 h1
            exact h4 (b.fbEnds hi (by simpa using hn))
          · rename_i h3
            rcases generate_err h with h4 | ⟨rfl, _⟩
            · exact plain h4
            · exact ⟨by simp, by simp⟩

end Pomelo
