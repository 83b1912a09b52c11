import Verif.Proofs.Fallback
/-! # `has_fallback` is set if there is a fallback -/

namespace Pomelo

open Spec

theorem flag_of_rest {g g' : Grammar} (h : g'.rest = g.rest) : g'.hasFallback = g.hasFallback := by
  have := congrArg Grammar.hasFallback h
  exact this

theorem flag_setFallbacks {f : SymbolId} : ∀ {ss : List SymbolId} {g g' : Grammar}, g.setFallbacks f ss = .ok g' →
    (g.hasFallback = true ∨ ss ≠ []) → g'.hasFallback = true := by
  intro ss
  induction ss with
  | nil =>
    intro g g' he h
    cases he
    rcases h with h | h
    · exact h
    · exact absurd rfl h
  | cons s ss ih =>
    intro g g' he _
    unfold Grammar.setFallbacks at he
    split at he
    · cases he
    · exact ih he (.inl rfl)

theorem flag_parseOneDecl {g g' : Grammar} {d : Decl} (he : g.parseOneDecl d = .ok g')
    (hd : g.hasFallback = true ∨ ∃ fb ids, d = .fallback fb ids ∧ ids ≠ []) : g'.hasFallback = true := by
  by_cases hf : ∃ fb ids, d = .fallback fb ids
  · obtain ⟨fb, ids, rfl⟩ := hf
    unfold Grammar.parseOneDecl at he
    simp only at he
    split at he
    · cases he
    · rename_i g1 ss h1
      split at he
      · cases he
      · have h3 := rest_symbolNew (g := g1) (.ident fb) .terminal
        rcases hs : g1.symbolNew (.ident fb) .terminal with ⟨g2, f⟩
        rw [hs] at he h3
        simp only at he h3
        split at he
        · cases he
        · refine flag_setFallbacks he ?_
          rcases hd with hd | ⟨fb', ids', hd, hne⟩
          · left
            rw [flag_of_rest h3, flag_of_rest (rest_declTokens h1)]; exact hd
          · right
            cases hd
            intro e
            subst e
            apply hne
            cases ids with
            | nil => rfl
            | cons i ids =>
              unfold Grammar.declTokens at h1
              split at h1
              · cases h1
              · rcases hs2 : g.symbolNew (.ident i) .terminal with ⟨gx, sx⟩
                rw [hs2] at h1
                simp only at h1
                split at h1 <;> cases h1
  · have hg : g.hasFallback = true := by
      rcases hd with hd | ⟨fb, ids, rfl, _⟩
      · exact hd
      · exact absurd ⟨fb, ids, rfl⟩ hf
    rw [← hg]
    unfold Grammar.parseOneDecl at he
    split at he
    case h_1 => cases he; rfl
    case h_2 => cases he; rfl
    case h_3 => cases he; rfl
    case h_4 => split at he <;> cases he; rfl
    case h_5 => split at he <;> cases he; rfl
    case h_6 => split at he <;> cases he; rfl
    case h_7 attrs id ty =>
      rcases hk : (if id.isTerminal then Except.ok SymKind.terminal
        else if id.isNonTerminal then
          if attrs then .error .attributesOnNonTerminal else .ok .nonTerminal
        else .error .badSymbol : Except GErr SymKind) with _ | nst
      · simp only [hk] at he; cases he
      · simp only [hk] at he
        have h1 := rest_symbolNew (g := g) (.ident id) nst
        rcases hs : g.symbolNew (.ident id) nst with ⟨g1, s⟩
        rw [hs] at he h1
        simp only at he h1
        split at he
        · cases he
        · cases he; exact flag_of_rest h1
    case h_8 a ids =>
      simp only at he
      have h1 := flag_of_rest (rest_declAssoc he)
      exact h1
    case h_9 => split at he <;> cases he; rfl
    case h_10 => split at he <;> cases he; rfl
    case h_11 => split at he <;> cases he; rfl
    case h_12 id =>
      split at he
      · cases he
      · split at he
        · cases he
        · have h1 := rest_symbolNew (g := g) (.ident id) .nonTerminal
          rcases hs : g.symbolNew (.ident id) .nonTerminal with ⟨g1, s⟩
          rw [hs] at he h1
          simp only at he h1
          cases he
          exact (flag_of_rest h1 : g1.hasFallback = g.hasFallback)
    case h_13 fb ids => exact absurd ⟨fb, ids, rfl⟩ hf
    case h_14 id =>
      split at he
      · cases he
      · split at he
        · cases he
        · have h1 := rest_symbolNew (g := g) (.ident id) .terminal
          rcases hs : g.symbolNew (.ident id) .terminal with ⟨g1, s⟩
          rw [hs] at he h1
          simp only at he h1
          cases he
          exact (flag_of_rest h1 : g1.hasFallback = g.hasFallback)
    case h_15 tk ids =>
      split at he
      · cases he
      · have h1 := rest_symbolNew (g := g) (.ident tk) .multiTerminal
        rcases hs : g.symbolNew (.ident tk) .multiTerminal with ⟨g1, s⟩
        rw [hs] at he h1
        simp only at he h1
        rw [flag_of_rest (rest_declClass he), flag_of_rest h1]
    case h_16 => split at he <;> cases he; rfl
    case h_17 => split at he <;> cases he; rfl
    case h_18 => split at he <;> cases he; rfl
    case h_19 => split at he <;> cases he; rfl
    case h_20 lhs rhs action prec =>
      split at he
      · cases he
      · have h1 := rest_symbolNew (g := g) (.ident lhs) .nonTerminal
        rcases hs : g.symbolNew (.ident lhs) .nonTerminal with ⟨g1, l⟩
        rw [hs] at he h1
        simp only at he h1
        split at he
        · cases he
        · rename_i g2 rs hrs
          have h3 := rest_declRhs hrs
          split at he
          · cases he; exact flag_of_rest (h3.trans h1)
          · rename_i id
            split at he
            · cases he
            · have h5 := rest_symbolNew (g := g2) (.ident id) .terminal
              rcases hs2 : g2.symbolNew (.ident id) .terminal with ⟨g3, ps⟩
              rw [hs2] at he h5
              simp only at he h5
              cases he
              exact flag_of_rest (h5.trans (h3.trans h1))

theorem flag_parseDecls : ∀ {ds : List Decl} {g g' : Grammar}, g.parseDecls ds = .ok g' →
    (g.hasFallback = true ∨ ∃ fb ids, Decl.fallback fb ids ∈ ds ∧ ids ≠ []) → g'.hasFallback = true := by
  intro ds
  induction ds with
  | nil => intro g g' he h; cases he; rcases h with h | ⟨_, _, h, _⟩; exact h; cases h
  | cons d ds ih =>
    intro g g' he h
    rw [Grammar.parseDecls] at he
    split at he
    · cases he
    · rename_i g1 h1
      refine ih he ?_
      rcases h with h | ⟨fb, ids, h, hn⟩
      · exact .inl (flag_parseOneDecl h1 (.inl h))
      · rcases List.mem_cons.1 h with rfl | h
        · exact .inl (flag_parseOneDecl h1 (.inr ⟨fb, ids, rfl, hn⟩))
        · exact .inr ⟨fb, ids, h, hn⟩

theorem flag_automaton {ord} {ds : List Decl} {g0 gD g : Grammar} {sts : List LState} (hp : Grammar.initial.parseDecls ds = .ok gD)
    (h0 : newFromDecls ds = .ok g0) (ha : g0.automaton ord = .ok (g, sts)) : g.hasFallback = gD.hasFallback := by
  obtain ⟨gD', hp', hd, hrec, hne, rfl⟩ := newFromDecls_spec h0
  rw [hp] at hp'; cases hp'
  obtain ⟨s⟩ := automaton_spec ha
  have hnorm := s.norm
  have hfirst := s.first
  have hmk := s.marked
  obtain ⟨rulesN, hgN, hfN⟩ := normalizeRules_spec hnorm
  obtain ⟨hgF, hfo⟩ := findFirstSets_only hfirst
  have h1 : ∀ (g : Grammar) (x : SymbolId), (g.markStart x).hasFallback = g.hasFallback := by
    intro g x; unfold Grammar.markStart; split <;> rfl
  rw [hmk, h1, hgF, hgN]
  show (Grammar.prepare _ ord).hasFallback = _
  rw [prepare_eq]
  have hopt : ∀ (l : List (SymbolId × SymbolId)) (g : Grammar), (List.foldl Grammar.addOptional g l).hasFallback = g.hasFallback := by
    intro l
    induction l with
    | nil => intro g; rfl
    | cons o l ih => intro g; rw [List.foldl_cons, ih]; rfl
  unfold Grammar.addOptionals
  show (List.foldl Grammar.addOptional _ _).hasFallback = _
  rw [hopt]
  have hidx : ∀ (l : List SymbolId) (g : Grammar) (i : Nat), (g.assignIndices i l).hasFallback = g.hasFallback := by
    intro l
    induction l with
    | nil => intro g i; rfl
    | cons s l ih =>
      intro g i
      unfold Grammar.assignIndices
      simp only
      split <;> rw [ih] <;> rfl
  have hext : ∀ g : Grammar, g.addExtraToken.hasFallback = g.hasFallback := by
    intro g
    unfold Grammar.addExtraToken
    split
    · rfl
    · rename_i et _
      generalize (List.drop 1 (List.take g.numTerminals g.symbols)) = l
      rename_i hx
      clear hx
      induction l generalizing g with
      | nil => rfl
      | cons x l ih => rw [List.foldl_cons]; exact ih _
  rw [hext]
  unfold Grammar.indexed
  show (Grammar.assignIndices _ _ _).hasFallback = _
  rw [hidx]
  rfl

theorem CSpec.flag {ord} (ho : OrdOk ord) {ds : List Decl} {t : Tables} (s : CSpec ord ds t) (h : s.g.hasFallback = false) :
    ∀ x, (s.g.sym x).fallback = none := by
  have hi := s.ginv ho
  obtain ⟨b⟩ := bridge ho s.decls s.auto
  have hfl := flag_automaton b.parsed s.decls s.auto
  rw [h] at hfl
  intro x
  by_contra hc
  obtain ⟨f, hf⟩ := Option.ne_none_iff_exists'.1 hc
  have hx : x < s.g.syms.length := by
    by_contra hx
    have : s.g.sym x = default := by
      unfold Grammar.sym
      rw [List.getD_eq_getElem?_getD, List.getElem?_eq_none (Nat.le_of_not_lt hx)]; rfl
    rw [this] at hf; cases hf
  have hn := (hi.fb x hx f hf).2.2
  cases hname : (s.g.sym x).name with
  | ident i =>
    rw [b.len] at hx
    rcases Nat.lt_succ_iff_lt_or_eq.1 hx with hx' | rfl
    · have h1 := (b.decl.sym b.dinv hx' (by rw [← b.name hx', hname])).2.2.2.1
      rw [← b.fallback hx', hf] at h1
      simp only [Option.map_some] at h1
      obtain ⟨y, hy, _⟩ := Option.map_eq_some_iff.1 h1.symm
      have : b.gD.hasFallback = true := by
        refine flag_parseDecls b.parsed (.inr ?_)
        unfold fallbackOf at hy
        obtain ⟨d, hd, hd2⟩ := List.exists_of_findSome?_eq_some hy
        cases d with
        | fallback fb ids =>
          refine ⟨fb, ids, hd, ?_⟩
          rintro rfl
          simp at hd2
        | _ => simp at hd2
      rw [this] at hfl; cases hfl
    · obtain ⟨d, d1, d2, _⟩ := hi.dflt
      have hdl : d = b.gD.syms.length := by
        rw [b.len] at d1
        rcases Nat.lt_succ_iff_lt_or_eq.1 d1 with d1 | d1
        · have h2 : (s.g.sym d).name = (b.gD.sym d).name := congrArg (·.1) (b.keep d d1)
          exact absurd (h2.symm.trans d2) (b.dinv.noDflt d d1)
        · exact d1
      rw [← hdl, d2] at hname
      cases hname
  | _ => rw [hname] at hn; cases hn

end Pomelo
