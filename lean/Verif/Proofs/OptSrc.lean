import Verif.Proofs.DeclAnon
import Verif.Spec.Decls
/-! # Where the optional symbols come from -/

namespace Pomelo

open Spec

theorem opts_symbolNew (g : Grammar) (n : SymName) (k : SymKind) : (g.symbolNew n k).1.optionals = g.optionals := by
  unfold Grammar.symbolNew
  simp only
  split <;> rfl

theorem opts_declTokens {e : GErr} : ∀ {ids : List Ident} {g g' : Grammar} {ss : List SymbolId},
    g.declTokens e ids = .ok (g', ss) → g'.optionals = g.optionals := by
  intro ids
  induction ids with
  | nil => intro g g' ss h; cases h; rfl
  | cons i ids ih =>
    intro g g' ss h
    unfold Grammar.declTokens at h
    split at h
    · cases h
    · simp only at h
      split at h
      · rename_i h1
        cases h
        rw [ih h1, opts_symbolNew]
      · cases h

theorem opts_declAssoc {p : Precedence} : ∀ {ids : List Ident} {g g' : Grammar},
    g.declAssoc p ids = .ok g' → g'.optionals = g.optionals := by
  intro ids
  induction ids with
  | nil => intro g g' h; cases h; rfl
  | cons i ids ih =>
    intro g g' h
    unfold Grammar.declAssoc at h
    split at h
    · cases h
    · simp only at h
      split at h
      · cases h
      · rw [ih h]; exact opts_symbolNew _ _ _

theorem opts_setFallbacks {f : SymbolId} : ∀ {ss : List SymbolId} {g g' : Grammar},
    g.setFallbacks f ss = .ok g' → g'.optionals = g.optionals := by
  intro ss
  induction ss with
  | nil => intro g g' h; cases h; rfl
  | cons s ss ih =>
    intro g g' h
    unfold Grammar.setFallbacks at h
    split at h
    · cases h
    · rw [ih h]; rfl

theorem opts_declClass {t : SymbolId} : ∀ {ids : List Ident} {g g' : Grammar},
    g.declClass t ids = .ok g' → g'.optionals = g.optionals := by
  intro ids
  induction ids with
  | nil => intro g g' h; cases h; rfl
  | cons i ids ih =>
    intro g g' h
    unfold Grammar.declClass at h
    split at h
    · cases h
    · rw [ih h]; exact opts_symbolNew _ _ _

theorem name_symbolNew {g : Grammar} (hd : g.symbols = List.range g.syms.length) (n : SymName) (k : SymKind) {x : SymbolId}
    (hx : x < g.syms.length) : ((g.symbolNew n k).1.sym x).name = (g.sym x).name := by
  rcases symbolNew_cases hd n k with ⟨s, _, _, _, he⟩ | ⟨_, he⟩ <;> rw [he]
  · simp only
    rw [sym_modifySym]
    split <;> rfl
  · simp only
    rw [sym_pushSym_lt hx]

theorem src_declElem {e : RhsElem} {g g' : Grammar} {x : RhsSym} (hd : DInv g) (h : g.declElem e = .ok (g', x)) :
    ∀ o ∈ g'.optionals, o ∈ g.optionals ∨ (e.optional = true ∧ ∃ tok, e.toks = [tok] ∧ (g'.sym o.1).name = .ident tok) := by
  unfold Grammar.declElem at h
  split at h
  · rename_i tok htok
    simp only at h
    split at h
    · cases h
    · rename_i k hk
      have hask : askOk (.ident tok) k = true := by
        cases tok <;> simp [Ident.isTerminal, Ident.isNonTerminal] at hk <;> subst hk <;> rfl
      have h1 := (hd.symbolNew hask).1
      have h2 := symbolNew_name hd.symbols (.ident tok) k
      split at h
      · rename_i hopt
        split at h
        · cases h
          intro o ho
          rw [opts_symbolNew] at ho
          exact .inl ho
        · cases h
          intro o ho
          rcases List.mem_append.1 ho with ho | ho
          · rw [opts_symbolNew, opts_symbolNew] at ho; exact .inl ho
          · right
            refine ⟨hopt, tok, htok, ?_⟩
            rw [List.mem_singleton] at ho
            subst ho
            refine Eq.trans ?_ h2.2
            exact name_symbolNew h1.symbols _ _ h2.1
      · cases h
        intro o ho
        rw [opts_symbolNew] at ho
        exact .inl ho
  · simp only at h
    split at h
    · cases h
    · rename_i h2
      cases h
      intro o ho
      have : o ∈ g.optionals := by
        have h3 := opts_declTokens h2
        rw [opts_symbolNew] at h3
        rw [← h3]; exact ho
      exact .inl this

theorem DInv.opt_lt {g : Grammar} (hd : DInv g) {o : SymbolId × SymbolId} (ho : o ∈ g.optionals) : o.1 < g.syms.length := by
  obtain ⟨k, hk⟩ := List.mem_iff_getElem?.1 ho
  exact (hd.opts k o.1 o.2 hk).1

theorem src_declRhs : ∀ {es : List RhsElem} {g g' : Grammar} {xs : List RhsSym}, DInv g → g.declRhs es = .ok (g', xs) →
    ∀ o ∈ g'.optionals, o ∈ g.optionals ∨ ∃ e ∈ es, e.optional = true ∧ ∃ tok, e.toks = [tok] ∧ (g'.sym o.1).name = .ident tok := by
  intro es
  induction es with
  | nil => intro g g' xs _ h; cases h; intro o ho; exact .inl ho
  | cons e es ih =>
    intro g g' xs hd h
    unfold Grammar.declRhs at h
    split at h
    · cases h
    · rename_i g1 x h1
      split at h
      · cases h
      · rename_i g2 ss h2
        cases h
        have i1 := hd.declElem h1
        have i2 := i1.1.declRhs h2
        intro o ho
        rcases ih i1.1 h2 o ho with h3 | ⟨e', he', h3⟩
        · rcases src_declElem hd h1 o h3 with h4 | ⟨h4, tok, h5, h6⟩
          · exact .inl h4
          · exact .inr ⟨e, List.mem_cons_self, h4, tok, h5, by rw [i2.2.1.name o.1 (i1.1.opt_lt h3)]; exact h6⟩
        · exact .inr ⟨e', List.mem_cons_of_mem _ he', h3⟩

theorem src_parseOneDecl {g g' : Grammar} {d : Decl} (hd : DInv g) (h : g.parseOneDecl d = .ok g') :
    ∀ o ∈ g'.optionals, o ∈ g.optionals ∨ ∃ l rhs c p, d = .rule l rhs c p ∧
      ∃ e ∈ rhs, e.optional = true ∧ ∃ tok, e.toks = [tok] ∧ (g'.sym o.1).name = .ident tok := by
  have same : g'.optionals = g.optionals → ∀ o ∈ g'.optionals, o ∈ g.optionals ∨ ∃ l rhs c p, d = .rule l rhs c p ∧
      ∃ e ∈ rhs, e.optional = true ∧ ∃ tok, e.toks = [tok] ∧ (g'.sym o.1).name = .ident tok :=
    fun e o ho => .inl (e ▸ ho)
  cases d with
  | rule l rhs c p =>
    simp only [Grammar.parseOneDecl] at h
    split at h
    · cases h
    · rename_i hl
      split at h
      · cases h
      · rename_i g2 rs h2
        have i1 := (hd.symbolNew (askOk_lower hl)).1
        have i2 := i1.declRhs h2
        have key := src_declRhs i1 h2
        have fin : ∀ {g3 : Grammar}, DLe g2 g3 → g3.optionals = g2.optionals →
            ∀ o ∈ g3.optionals, o ∈ g.optionals ∨ ∃ l' rhs' c' p', Decl.rule l rhs c p = .rule l' rhs' c' p' ∧
              ∃ e ∈ rhs', e.optional = true ∧ ∃ tok, e.toks = [tok] ∧ (g3.sym o.1).name = .ident tok := by
          intro g3 hle he o ho
          rw [he] at ho
          rcases key o ho with h3 | ⟨e, he, h3, tok, h4, h5⟩
          · rw [opts_symbolNew] at h3; exact .inl h3
          · exact .inr ⟨l, rhs, c, p, rfl, e, he, h3, tok, h4, by rw [hle.name o.1 (i2.1.opt_lt ho)]; exact h5⟩
        have hlh : (g.symbolNew (.ident l) .nonTerminal).2 < (g.symbolNew (.ident l) .nonTerminal).1.syms.length ∧
            (((g.symbolNew (.ident l) .nonTerminal).1).sym (g.symbolNew (.ident l) .nonTerminal).2).name.isNt = true := by
          have := symbolNew_name hd.symbols (.ident l) .nonTerminal
          refine ⟨this.1, ?_⟩
          rw [this.2]
          revert hl
          cases l <;> simp [Ident.isNonTerminal, SymName.isNt]
        have hlh2 : (g.symbolNew (.ident l) .nonTerminal).2 < g2.syms.length ∧ (g2.sym (g.symbolNew (.ident l) .nonTerminal).2).name.isNt = true :=
          ⟨Nat.lt_of_lt_of_le hlh.1 i2.2.1.len, by rw [i2.2.1.name _ hlh.1]; exact hlh.2⟩
        split at h
        · cases h
          exact fin (i2.1.createRule hlh2 i2.2.2.2.1 (by intro x hx; cases hx)).2 rfl
        · rename_i id
          split at h
          · cases h
          · rename_i hid
            cases h
            have j1 := i2.1.symbolNew (askOk_upper hid)
            have jn := symbolNew_name i2.1.symbols (.ident id) .terminal
            have hn : ∀ x, x < g2.syms.length → ((g2.symbolNew (.ident id) .terminal).1.sym x).name = (g2.sym x).name :=
              fun x hx => j1.2.1.name x hx
            refine fin (j1.2.1.trans (j1.1.createRule (g := (g2.symbolNew (.ident id) .terminal).1) ?_ ?_ ?_).2) (opts_symbolNew _ _ _)
            · exact ⟨Nat.lt_of_lt_of_le hlh2.1 j1.2.1.len, by rw [hn _ hlh2.1]; exact hlh2.2⟩
            · intro x hx
              obtain ⟨h3, h4⟩ := i2.2.2.2.1 x hx
              exact ⟨Nat.lt_of_lt_of_le h3 j1.2.1.len, by rw [hn _ h3]; exact h4⟩
            · intro x hx
              cases hx
              refine ⟨jn.1, ?_⟩
              rw [jn.2]
              revert hid
              cases id <;> simp [Ident.isTerminal, SymName.isTok]
  | type a i ty =>
    apply same
    simp only [Grammar.parseOneDecl] at h
    split at h
    · cases h
    · split at h
      · cases h
      · cases h; exact opts_symbolNew _ _ _
  | assoc a ids =>
    apply same
    exact opts_declAssoc (g := { g with prec := g.prec + 1 }) h
  | startSymbol i =>
    apply same
    simp only [Grammar.parseOneDecl] at h
    split at h
    · cases h
    · split at h
      · cases h
      · cases h; exact opts_symbolNew _ _ _
  | wildcard i =>
    apply same
    simp only [Grammar.parseOneDecl] at h
    split at h
    · cases h
    · split at h
      · cases h
      · cases h; exact opts_symbolNew _ _ _
  | fallback f ids =>
    apply same
    simp only [Grammar.parseOneDecl] at h
    split at h
    · cases h
    · rename_i h1
      split at h
      · cases h
      · split at h
        · cases h
        · rw [opts_setFallbacks h, opts_symbolNew, opts_declTokens h1]
  | tokenClass t ids =>
    apply same
    simp only [Grammar.parseOneDecl] at h
    split at h
    · cases h
    · rw [opts_declClass h, opts_symbolNew]
  | «module» => cases h; exact same rfl
  | «include» => cases h; exact same rfl
  | verbose => cases h; exact same rfl
  | syntaxError => simp only [Grammar.parseOneDecl] at h; split at h <;> cases h; exact same rfl
  | parseFail => simp only [Grammar.parseOneDecl] at h; split at h <;> cases h; exact same rfl
  | stackOverflow => simp only [Grammar.parseOneDecl] at h; split at h <;> cases h; exact same rfl
  | defaultType ty => simp only [Grammar.parseOneDecl] at h; split at h <;> cases h; exact same rfl
  | extraArgument ty => simp only [Grammar.parseOneDecl] at h; split at h <;> cases h; exact same rfl
  | error ty => simp only [Grammar.parseOneDecl] at h; split at h <;> cases h; exact same rfl
  | token it => simp only [Grammar.parseOneDecl] at h; split at h <;> cases h; exact same rfl
  | parser it => simp only [Grammar.parseOneDecl] at h; split at h <;> cases h; exact same rfl
  | extraToken ty => simp only [Grammar.parseOneDecl] at h; split at h <;> cases h; exact same rfl
  | stackSize n ty => simp only [Grammar.parseOneDecl] at h; split at h <;> cases h; exact same rfl

theorem src_parseDecls : ∀ {ds : List Decl} {g g' : Grammar}, DInv g → g.parseDecls ds = .ok g' →
    ∀ o ∈ g'.optionals, o ∈ g.optionals ∨ ∃ u ∈ rulesOf ds, ∃ e ∈ u.rhs, e.optional = true ∧
      ∃ tok, e.toks = [tok] ∧ (g'.sym o.1).name = .ident tok := by
  intro ds
  induction ds with
  | nil => intro g g' _ h; cases h; intro o ho; exact .inl ho
  | cons d ds ih =>
    intro g g' hd h
    unfold Grammar.parseDecls at h
    split at h
    · cases h
    · rename_i g1 h1
      have i1 := hd.parseOneDecl h1
      have i2 := i1.1.parseDecls h
      intro o ho
      rcases ih i1.1 h o ho with h3 | ⟨u, hu, h3⟩
      · rcases src_parseOneDecl hd h1 o h3 with h4 | ⟨l, rhs, c, p, rfl, e, he, h4, tok, h5, h6⟩
        · exact .inl h4
        · exact .inr ⟨⟨l, rhs, c, p⟩, by simp [rulesOf], e, he, h4, tok, h5, by rw [i2.2.1.name o.1 (i1.1.opt_lt h3)]; exact h6⟩
      · refine .inr ⟨u, ?_, h3⟩
        unfold rulesOf at hu ⊢
        rw [List.filterMap_cons]
        split
        · exact hu
        · exact List.mem_cons_of_mem _ hu

/-- Every optional symbol stands for a written element. -/
theorem opt_source {ds : List Decl} {g : Grammar} (h : Grammar.initial.parseDecls ds = .ok g) :
    ∀ o ∈ g.optionals, ∃ u ∈ rulesOf ds, ∃ e ∈ u.rhs, e.optional = true ∧ ∃ tok, e.toks = [tok] ∧ (g.sym o.1).name = .ident tok := by
  intro o ho
  rcases src_parseDecls DInv.initial h o ho with h1 | h1
  · have : Grammar.initial.optionals = [] := by decide
    rw [this] at h1; cases h1
  · exact h1

end Pomelo
