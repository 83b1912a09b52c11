import Verif.Proofs.Safe
import Verif.Spec.Recovery
/-! # When the parser recovers with the symbol `error` -/

namespace Pomelo

open Spec

/-- What is needed to count the uses of `error` -/
structure EInv (g : Grammar) : Prop where
  symbols : g.symbols = List.range g.syms.length
  two : 2 ≤ g.syms.length
  err : (g.sym 1).name = .ident .error
  only : ∀ s, s < g.syms.length → (g.sym s).name = .ident .error → s = 1
  used : 1 ≤ (g.sym 1).useCnt

/-- From `g` to `g'` `error` is used exactly if `b`. -/
def Uses (g g' : Grammar) (b : Prop) : Prop :=
  EInv g → EInv g' ∧ ((g'.sym 1).useCnt > 1 ↔ (g.sym 1).useCnt > 1 ∨ b)

theorem Uses.refl (g : Grammar) : Uses g g False := fun h => ⟨h, by simp⟩

theorem Uses.trans {g g' g'' : Grammar} {a b c : Prop} (h1 : Uses g g' a) (h2 : Uses g' g'' b) (h : c ↔ a ∨ b) : Uses g g'' c := by
  intro hi
  obtain ⟨h3, h4⟩ := h1 hi
  obtain ⟨h5, h6⟩ := h2 h3
  refine ⟨h5, ?_⟩
  rw [h6, h4, h, or_assoc]

theorem Uses.congr {g g' : Grammar} {a b : Prop} (h1 : Uses g g' a) (h : b ↔ a) : Uses g g' b :=
  h1.trans (Uses.refl _) (by simp [h])

theorem Uses.no {g g' g'' : Grammar} {a : Prop} (h1 : Uses g g' a) (h2 : Uses g' g'' False) : Uses g g'' a := h1.trans h2 (by simp)

theorem Uses.after {g g' g'' : Grammar} {a : Prop} (h1 : Uses g g' False) (h2 : Uses g' g'' a) : Uses g g'' a := h1.trans h2 (by simp)

/-- A step that only changes other parts -/
theorem Uses.same {g g' : Grammar} (h1 : g'.symbols = g.symbols) (h2 : g'.syms = g.syms) : Uses g g' False := by
  intro h
  have hs : ∀ s, g'.sym s = g.sym s := fun s => by unfold Grammar.sym; rw [h2]
  refine ⟨⟨by rw [h1, h2]; exact h.symbols, by rw [h2]; exact h.two, by rw [hs]; exact h.err, ?_, by rw [hs]; exact h.used⟩, by rw [hs]; simp⟩
  intro s
  rw [h2, hs]
  exact h.only s

theorem Uses.modify (g : Grammar) (s : SymbolId) {f : Symbol → Symbol} (hn : ∀ b, (f b).name = b.name) (hu : ∀ b, (f b).useCnt = b.useCnt) :
    Uses g (g.modifySym s f) False := by
  intro h
  refine ⟨⟨by rw [length_modifySym]; exact h.symbols, by rw [length_modifySym]; exact h.two, ?_, ?_, ?_⟩, ?_⟩
  · rw [proj_modifySym Symbol.name hn]; exact h.err
  · intro x
    rw [length_modifySym, proj_modifySym Symbol.name hn]
    exact h.only x
  · rw [proj_modifySym Symbol.useCnt hu]; exact h.used
  · rw [proj_modifySym Symbol.useCnt hu]; simp

theorem Uses.symbolNew (g : Grammar) (n : SymName) (k : SymKind) : Uses g (g.symbolNew n k).1 (n = .ident .error) := by
  intro h
  rcases symbolNew_cases h.symbols n k with ⟨s, hs, h1, h2, h3⟩ | ⟨h1, h3⟩
  · rw [h3]
    have hn : ∀ x, ((g.modifySym s (touch k)).sym x).name = (g.sym x).name := fun x => proj_modifySym Symbol.name (by intro b; rfl) x
    have hu : ((g.modifySym s (touch k)).sym 1).useCnt = (g.sym 1).useCnt + if s = 1 then 1 else 0 := by
      rw [sym_modifySym]
      by_cases e : s = 1
      · subst e; rw [if_pos ⟨rfl, hs⟩]; simp [touch]
      · rw [if_neg (fun hh => e hh.1.symm), if_neg e]; rfl
    refine ⟨⟨by rw [length_modifySym]; exact h.symbols, by simpa using h.two, by rw [hn]; exact h.err, ?_, ?_⟩, ?_⟩
    · intro x
      rw [length_modifySym, hn]
      exact h.only x
    · rw [hu]; have := h.used; omega
    · rw [hu]
      have := h.used
      by_cases e : s = 1
      · subst e
        rw [h.err] at h1
        rw [if_pos rfl]
        constructor
        · intro _; exact .inr h1.symm
        · intro _; omega
      · rw [if_neg e, Nat.add_zero]
        constructor
        · exact .inl
        · rintro (h4 | h4)
          · exact h4
          · rw [h4] at h1; exact absurd (h.only s hs h1) e
  · rw [h3]
    have hne : n ≠ .ident .error := by
      rintro rfl
      rcases h1 with h1 | h1
      · cases h1
      · exact h1 1 h.two h.err
    have h11 : (g.pushSym { name := n, kind := k }).sym 1 = g.sym 1 := sym_pushSym_lt h.two
    refine ⟨⟨?_, ?_, by rw [h11]; exact h.err, ?_, by rw [h11]; exact h.used⟩, by rw [h11]; simp [hne]⟩
    · rw [length_pushSym, List.range_succ]
      show g.symbols ++ _ = _
      rw [h.symbols]
    · rw [length_pushSym]; have := h.two; omega
    · intro x hx hxn
      rw [length_pushSym] at hx
      rcases Nat.lt_succ_iff_lt_or_eq.1 hx with h4 | h4
      · rw [sym_pushSym_lt h4] at hxn; exact h.only x h4 hxn
      · subst h4; rw [sym_pushSym_last] at hxn; exact absurd hxn hne

/-- A token is not `error`. -/
theorem not_error {i : Ident} (h : i.isTerminal = true) : (SymName.ident i = .ident .error) ↔ False := by
  cases i <;> simp_all [Ident.isTerminal]

theorem Uses.token (g : Grammar) {i : Ident} (k : SymKind) (h : i.isTerminal = true) : Uses g (g.symbolNew (.ident i) k).1 False :=
  (Uses.symbolNew g _ _).congr (not_error h).symm

theorem Uses.ident (g : Grammar) (i : Ident) (k : SymKind) : Uses g (g.symbolNew (.ident i) k).1 (i = .error) :=
  (Uses.symbolNew g _ _).congr (by simp)

theorem Uses.declTokens {e : GErr} : ∀ {ids : List Ident} {g g' : Grammar} {ss : List SymbolId}, g.declTokens e ids = .ok (g', ss) → Uses g g' False
  | [], g, g', ss, h => by simp only [Grammar.declTokens, Except.ok.injEq, Prod.mk.injEq] at h; rw [← h.1]; exact .refl _
  | i :: ids, g, g', ss, h => by
    unfold Grammar.declTokens at h
    split at h
    · cases h
    · rename_i hi
      simp only at h
      split at h
      · rename_i g2 ss2 h2
        cases h
        exact (Uses.token g _ (by simpa using hi)).trans (Uses.declTokens h2) (by simp)
      · cases h

theorem Uses.declAssoc {p : Precedence} : ∀ {ids : List Ident} {g g' : Grammar}, g.declAssoc p ids = .ok g' → Uses g g' False
  | [], g, g', h => by simp only [Grammar.declAssoc, Except.ok.injEq] at h; rw [← h]; exact .refl _
  | i :: ids, g, g', h => by
    unfold Grammar.declAssoc at h
    split at h
    · cases h
    · rename_i hi
      simp only at h
      split at h
      · cases h
      · refine ((Uses.token g .terminal (by simpa using hi)).no ?_).no (Uses.declAssoc h)
        exact Uses.modify _ _ (by intro b; rfl) (by intro b; rfl)

theorem Uses.setFallbacks {fb : SymbolId} : ∀ {ss : List SymbolId} {g g' : Grammar}, g.setFallbacks fb ss = .ok g' → Uses g g' False
  | [], g, g', h => by simp only [Grammar.setFallbacks, Except.ok.injEq] at h; rw [← h]; exact .refl _
  | s :: ss, g, g', h => by
    unfold Grammar.setFallbacks at h
    split at h
    · cases h
    · refine Uses.trans (b := False) ?_ (Uses.setFallbacks h) (by simp : False ↔ False ∨ False)
      exact (Uses.modify g s (f := fun b => { b with fallback := some fb }) (by intro b; rfl) (by intro b; rfl)).trans (Uses.same rfl rfl) (by simp)

theorem Uses.declClass {tk : SymbolId} : ∀ {ids : List Ident} {g g' : Grammar}, g.declClass tk ids = .ok g' → Uses g g' False
  | [], g, g', h => by simp only [Grammar.declClass, Except.ok.injEq] at h; rw [← h]; exact .refl _
  | i :: ids, g, g', h => by
    unfold Grammar.declClass at h
    split at h
    · cases h
    · rename_i hi
      simp only at h
      refine ((Uses.token g .terminal (by simpa using hi)).no ?_).no (Uses.declClass h)
      exact Uses.modify _ _ (by intro b; rfl) (by intro b; rfl)

theorem Uses.declElem {e : RhsElem} {g g' : Grammar} {r : RhsSym} (h : g.declElem e = .ok (g', r)) : Uses g g' (e.toks = [.error]) := by
  unfold Grammar.declElem at h
  split at h
  · rename_i tok ht
    simp only at h
    split at h
    · cases h
    · have h1 := fun k => (Uses.ident g tok k).congr (b := e.toks = [.error]) (by rw [ht]; simp)
      split at h
      · split at h
        · cases h; exact h1 _
        · cases h
          refine ((h1 _).no ((Uses.symbolNew _ (.opt _) .nonTerminal).congr (b := False) (by simp))).no (Uses.same rfl rfl)
      · cases h; exact h1 _
  · rename_i hne
    simp only at h
    split at h
    · cases h
    · rename_i g2 ss h2
      cases h
      have hn : ¬ e.toks = [.error] := hne _
      refine Uses.congr (a := False) ?_ (by simp [hn])
      refine (((Uses.symbolNew g .anon .multiTerminal).congr (b := False) (by simp)).no (Uses.declTokens h2)).no ?_
      exact Uses.modify _ _ (by intro b; rfl) (by intro b; rfl)

theorem Uses.declRhs : ∀ {es : List RhsElem} {g g' : Grammar} {rs : List RhsSym}, g.declRhs es = .ok (g', rs) → Uses g g' (∃ e ∈ es, e.toks = [.error])
  | [], g, g', rs, h => by
    simp only [Grammar.declRhs, Except.ok.injEq, Prod.mk.injEq] at h; rw [← h.1]
    exact (Uses.refl _).congr (by simp)
  | e :: es, g, g', rs, h => by
    unfold Grammar.declRhs at h
    split at h
    · cases h
    · rename_i g1 r h1
      split at h
      · cases h
      · rename_i g2 rs2 h2
        cases h
        exact (Uses.declElem h1).trans (Uses.declRhs h2) (by simp)

theorem Uses.createRule (g : Grammar) (l : SymbolId) (rs : List RhsSym) (c : Option Code) (p : Option SymbolId) : Uses g (g.createRule l rs c p) False := by
  unfold Grammar.createRule
  refine Uses.no (g' := { g with rules := g.rules ++ [{ lhs := l, rhs := rs, code := c, precSym := p }] }) (Uses.same rfl rfl) ?_
  exact Uses.modify _ _ (by intro b; rfl) (by intro b; rfl)

theorem Uses.parseOneDecl {d : Decl} {g g' : Grammar} (h : g.parseOneDecl d = .ok g') : Uses g g' (namesError d = true) := by
  have set : ∀ {c : Bool} {g1 : Grammar}, (if c then Except.error GErr.alreadyDefined else .ok g1) = .ok g' → g1.symbols = g.symbols → g1.syms = g.syms →
      namesError d = false → Uses g g' (namesError d = true) := by
    intro c g1 h h1 h2 h3
    split at h
    · cases h
    · cases h; exact (Uses.same h1 h2).congr (by simp [h3])
  cases d with
  | «module» => cases h; exact (Uses.refl _).congr (by simp [namesError])
  | «include» => cases h; exact (Uses.refl _).congr (by simp [namesError])
  | verbose => cases h; exact (Uses.refl _).congr (by simp [namesError])
  | syntaxError => exact set h rfl rfl rfl
  | parseFail => exact set h rfl rfl rfl
  | stackOverflow => exact set h rfl rfl rfl
  | defaultType ty => exact set h rfl rfl rfl
  | extraArgument ty => exact set h rfl rfl rfl
  | error ty => exact set h rfl rfl rfl
  | token it => exact set h rfl rfl rfl
  | parser it => exact set h rfl rfl rfl
  | extraToken ty => exact set h rfl rfl rfl
  | stackSize l ty => exact set h rfl rfl rfl
  | type attrs id ty =>
    simp only [Grammar.parseOneDecl] at h
    split at h
    · cases h
    · rename_i k _
      split at h
      · cases h
      · cases h
        exact (Uses.ident g id k).trans (Uses.modify _ _ (by intro b; rfl) (by intro b; rfl)) (by simp [namesError])
  | assoc a ids =>
    simp only [Grammar.parseOneDecl] at h
    exact (Uses.same (g := g) (g' := { g with prec := g.prec + 1 }) rfl rfl).trans (Uses.declAssoc h) (by simp [namesError])
  | startSymbol id =>
    simp only [Grammar.parseOneDecl] at h
    split at h
    · cases h
    · split at h
      · cases h
      · cases h
        exact (Uses.ident g id .nonTerminal).trans (Uses.same rfl rfl) (by simp [namesError])
  | fallback fb ids =>
    simp only [Grammar.parseOneDecl] at h
    split at h
    · cases h
    · rename_i g1 ss h1
      split at h
      · cases h
      · rename_i hi
        split at h
        · cases h
        · exact (((Uses.declTokens h1).no (Uses.token g1 .terminal (by simpa using hi))).no (Uses.setFallbacks h)).congr (by simp [namesError])
  | wildcard id =>
    simp only [Grammar.parseOneDecl] at h
    split at h
    · cases h
    · split at h
      · cases h
      · rename_i hi
        cases h
        exact (Uses.token g .terminal (by simpa using hi)).trans (Uses.same rfl rfl) (by simp [namesError])
  | tokenClass tk ids =>
    simp only [Grammar.parseOneDecl] at h
    split at h
    · cases h
    · rename_i hi
      exact (Uses.token g .multiTerminal (by simpa using hi)).trans (Uses.declClass h) (by simp [namesError])
  | rule lhs rhs action prec =>
    simp only [Grammar.parseOneDecl] at h
    split at h
    · cases h
    · split at h
      · cases h
      · rename_i g1 rs h1
        have h2 := (Uses.ident g lhs .nonTerminal).trans (Uses.declRhs h1) Iff.rfl
        have hb : namesError (.rule lhs rhs action prec) = true ↔ (lhs = .error ∨ ∃ e ∈ rhs, e.toks = [.error]) := by
          simp [namesError]
        split at h
        · cases h
          exact h2.trans (Uses.createRule _ _ _ _ _) (by rw [hb]; simp)
        · split at h
          · cases h
          · rename_i hi
            cases h
            exact ((h2.no (Uses.token _ .terminal (by simpa using hi))).no (Uses.createRule _ _ _ _ _)).congr hb

theorem Uses.parseDecls : ∀ {ds : List Decl} {g g' : Grammar}, g.parseDecls ds = .ok g' → Uses g g' (∃ d ∈ ds, namesError d = true)
  | [], g, g', h => by cases h; exact (Uses.refl _).congr (by simp)
  | d :: ds, g, g', h => by
    unfold Grammar.parseDecls at h
    split at h
    · cases h
    · rename_i g1 h1
      exact (Uses.parseOneDecl h1).trans (Uses.parseDecls h) (by simp)

theorem EInv.initial : EInv Grammar.initial ∧ (Grammar.initial.sym 1).useCnt = 1 := by
  refine ⟨⟨rfl, by decide, rfl, ?_, by decide⟩, rfl⟩
  have h : ∀ s, s < 2 → (Grammar.initial.sym s).name = .ident .error → s = 1 := by decide
  exact h

theorem Grammar.error_used {ds : List Decl} {g : Grammar} (h : Grammar.initial.parseDecls ds = .ok g) :
    (g.sym 1).useCnt > 1 ↔ ds.any namesError = true := by
  have := (Uses.parseDecls h EInv.initial.1).2
  rw [this, EInv.initial.2, List.any_eq_true]
  simp

variable {ord : List (SymbolId × SymbolId) → List (SymbolId × SymbolId)} {ds : List Decl} {t : Tables} {s : CSpec ord ds t} {dflt : SymbolId}

theorem Made.error_used (m : Made s dflt) (ho : OrdOk ord) (b : Bridge ord ds s.g) : t.errorSymbol ≠ 0 ↔ ds.any namesError = true := by
  rw [← Grammar.error_used b.parsed, s.gen.errorSymbol]
  have h1 : s.gen.gT.errorSymbol = 1 := by rw [s.gen.shape.errSym, m.inv.errSym]
  have h2 : (s.gen.gT.sym 1).useCnt = (b.gD.sym 1).useCnt := by
    rw [(assignTypes_shape s.gen.assign).2.2.2.2]
    have := b.keep 1 b.dinv.two
    simp only [Symbol.keep, Prod.mk.injEq] at this
    exact this.2.2.2.2.2.1
  rw [h1, h2]
  constructor
  · intro h
    split at h
    · assumption
    · exact absurd rfl h
  · intro h
    rw [if_pos h, s.gen.shape.index]
    intro h0
    have := m.inv.index_eq_zero m.inv.two h0
    cases this

theorem Made.decide_error (m : Made s dflt) (ho : OrdOk ord) (b : Bridge ord ds s.g) : decide (t.errorSymbol ≠ 0) = ds.any namesError := by
  rw [Bool.eq_iff_iff, decide_eq_true_eq]
  exact m.error_used ho b

end Pomelo
