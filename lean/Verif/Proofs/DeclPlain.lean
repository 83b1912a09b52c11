import Verif.Proofs.DeclAll
/-! # Unnamed symbols carry no declared attribute -/

namespace Pomelo

/-- A name written in the input -/
def SymName.isIdent : SymName → Bool
  | .ident _ => true
  | _ => false

/-- Symbols whose name is not written have no precedence, type or fallback -/
def PlainAnon (g : Grammar) : Prop :=
  ∀ x, x < g.syms.length → (g.sym x).name.isIdent = false →
    (g.sym x).precedence = none ∧ (g.sym x).dataType = none ∧ (g.sym x).fallback = none

theorem isIdent_of_isTok {n : SymName} (h : n.isTok = true) : n.isIdent = true := by
  cases n <;> first | rfl | simp [SymName.isTok] at h

theorem PlainAnon.congr {g g' : Grammar} (h : PlainAnon g) (e : g'.syms = g.syms) : PlainAnon g' := by
  unfold PlainAnon Grammar.sym at *
  rw [e]; exact h

theorem PlainAnon.modify {g : Grammar} (h : PlainAnon g) {s : SymbolId} {f : Symbol → Symbol} (hn : ∀ b, (f b).name = b.name)
    (hs : (g.sym s).name.isIdent = true ∨
      ∀ b, (f b).precedence = b.precedence ∧ (f b).dataType = b.dataType ∧ (f b).fallback = b.fallback) :
    PlainAnon (g.modifySym s f) := by
  intro x hx hnx
  rw [length_modifySym] at hx
  rw [sym_modifySym] at hnx ⊢
  split at hnx
  · rename_i hc
    rw [hn] at hnx
    rcases hs with hs | hs
    · rw [hc.1, hs] at hnx; cases hnx
    · rw [if_pos hc, (hs _).1, (hs _).2.1, (hs _).2.2]; exact h x hx hnx
  · rename_i hc
    rw [if_neg hc]; exact h x hx hnx

theorem PlainAnon.push {g : Grammar} (h : PlainAnon g) {n : SymName} {k : SymKind} :
    PlainAnon (g.pushSym { name := n, kind := k }) := by
  intro x hx hnx
  rw [length_pushSym] at hx
  rcases Nat.lt_succ_iff_lt_or_eq.1 hx with hx | rfl
  · rw [sym_pushSym_lt hx] at hnx ⊢; exact h x hx hnx
  · rw [sym_pushSym_last]; exact ⟨rfl, rfl, rfl⟩

theorem PlainAnon.symbolNew {g : Grammar} (hd : g.symbols = List.range g.syms.length) (h : PlainAnon g) (n : SymName) (k : SymKind) :
    PlainAnon (g.symbolNew n k).1 := by
  rcases symbolNew_cases hd n k with ⟨s, _, _, _, he⟩ | ⟨_, he⟩ <;> rw [he]
  · exact h.modify (fun _ => rfl) (.inr (fun _ => ⟨rfl, rfl, rfl⟩))
  · exact h.push

theorem PlainAnon.declTokens {e : GErr} : ∀ {ids : List Ident} {g g' : Grammar} {ss : List SymbolId}, DInv g → PlainAnon g →
    g.declTokens e ids = .ok (g', ss) → PlainAnon g' := by
  intro ids
  induction ids with
  | nil =>
    intro g g' ss _ h he
    simp only [Grammar.declTokens, Except.ok.injEq, Prod.mk.injEq] at he
    exact he.1 ▸ h
  | cons id ids ih =>
    intro g g' ss hd h he
    unfold Grammar.declTokens at he
    split at he
    · cases he
    · rename_i hid
      have a := hd.symbolNew (askOk_upper hid)
      have b := h.symbolNew hd.symbols (.ident id) .terminal
      rcases hs : g.symbolNew (.ident id) .terminal with ⟨g1, s⟩
      rw [hs] at he a b
      simp only at he
      split at he
      · rename_i g2 ss2 h2
        cases he
        exact ih a.1 b h2
      · cases he

theorem PlainAnon.declAssoc {p : Precedence} : ∀ {ids : List Ident} {g g' : Grammar}, DInv g → PlainAnon g →
    g.declAssoc p ids = .ok g' → PlainAnon g' := by
  intro ids
  induction ids with
  | nil =>
    intro g g' _ h he
    simp only [Grammar.declAssoc, Except.ok.injEq] at he
    exact he ▸ h
  | cons id ids ih =>
    intro g g' hd h he
    have he0 := he
    unfold Grammar.declAssoc at he
    split at he
    · cases he
    · rename_i hid
      have a := hd.symbolNew (askOk_upper hid)
      have b := h.symbolNew hd.symbols (.ident id) .terminal
      rcases hs : g.symbolNew (.ident id) .terminal with ⟨g1, s⟩
      rw [hs] at he a b
      simp only at he a
      split at he
      · cases he
      · rename_i hp
        refine ih ?_ (b.modify (f := fun b => { b with precedence := some p }) (fun _ => rfl) (.inl (by rw [a.2.2.2.1]; rfl))) he
        have hone : g.declAssoc p [id] = .ok (g1.modifySym s (fun b => { b with precedence := some p })) := by
          unfold Grammar.declAssoc
          rw [if_neg hid, hs]
          simp only [hp]
          rfl
        exact (hd.declAssoc hone).1

theorem PlainAnon.setFallbacks {f : SymbolId} : ∀ {ss : List SymbolId} {g g' : Grammar}, PlainAnon g →
    (∀ s ∈ ss, (g.sym s).name.isIdent = true) → g.setFallbacks f ss = .ok g' → PlainAnon g' := by
  intro ss
  induction ss with
  | nil =>
    intro g g' h _ he
    simp only [Grammar.setFallbacks, Except.ok.injEq] at he
    exact he ▸ h
  | cons s ss ih =>
    intro g g' h hn he
    unfold Grammar.setFallbacks at he
    split at he
    · cases he
    · refine ih (g := { g.modifySym s (fun b => { b with fallback := some f }) with hasFallback := true })
        ((h.modify (g := g) (f := fun b => { b with fallback := some f }) (fun _ => rfl) (.inl (hn s (by simp)))).congr rfl) ?_ he
      intro x hx
      show ((g.modifySym s _).sym x).name.isIdent = true
      rw [sym_modifySym]
      split
      · exact hn x (by simp [hx])
      · exact hn x (by simp [hx])

theorem PlainAnon.declClass {tk : SymbolId} : ∀ {ids : List Ident} {g g' : Grammar}, g.symbols = List.range g.syms.length → PlainAnon g →
    g.declClass tk ids = .ok g' → PlainAnon g' := by
  intro ids
  induction ids with
  | nil =>
    intro g g' _ h he
    simp only [Grammar.declClass, Except.ok.injEq] at he
    exact he ▸ h
  | cons id ids ih =>
    intro g g' hd h he
    unfold Grammar.declClass at he
    split at he
    · cases he
    · have b := h.symbolNew hd (.ident id) .terminal
      have c : (g.symbolNew (.ident id) .terminal).1.symbols = List.range (g.symbolNew (.ident id) .terminal).1.syms.length := by
        rcases symbolNew_cases hd (.ident id) .terminal with ⟨s, _, _, _, he⟩ | ⟨_, he⟩ <;> rw [he]
        · rw [length_modifySym]; exact hd
        · rw [length_pushSym, List.range_succ, ← hd]; rfl
      rcases hs : g.symbolNew (.ident id) .terminal with ⟨g1, s⟩
      rw [hs] at he b c
      simp only at he
      exact ih (g := g1.modifySym tk (fun b => { b with subs := b.subs ++ [s] })) (by rw [length_modifySym]; exact c)
        (b.modify (fun _ => rfl) (.inr (fun _ => ⟨rfl, rfl, rfl⟩))) he

theorem PlainAnon.declElem {e : RhsElem} {g g' : Grammar} {x : RhsSym} (hd : DInv g) (h : PlainAnon g)
    (he : g.declElem e = .ok (g', x)) : PlainAnon g' := by
  unfold Grammar.declElem at he
  split at he
  · rename_i tok _
    rcases hk : (if tok.isTerminal then some SymKind.terminal
      else if tok.isNonTerminal then some SymKind.nonTerminal else none) with _ | k
    · simp [hk] at he
    · simp only [hk] at he
      have ha : askOk (.ident tok) k = true := by
        cases tok <;> simp [Ident.isTerminal, Ident.isNonTerminal] at hk <;> subst hk <;> rfl
      have a := hd.symbolNew ha
      have b := h.symbolNew hd.symbols (.ident tok) k
      rcases hs : g.symbolNew (.ident tok) k with ⟨g1, s⟩
      rw [hs] at he a b
      simp only at he a b
      split at he
      · split at he
        · cases he; exact b
        · have c := b.symbolNew a.1.symbols (.opt g1.optionals.length) .nonTerminal
          rcases hs2 : g1.symbolNew (.opt g1.optionals.length) .nonTerminal with ⟨g2, s2⟩
          rw [hs2] at he c
          cases he
          exact c.congr rfl
      · cases he; exact b
  · have a := hd.symbolNew (name := .anon) (k := .multiTerminal) rfl
    have b := h.symbolNew hd.symbols .anon .multiTerminal
    rcases hs : g.symbolNew .anon .multiTerminal with ⟨g1, s⟩
    rw [hs] at he a b
    simp only at he a b
    split at he
    · cases he
    · rename_i g2 ss h2
      cases he
      exact (b.declTokens a.1 h2).modify (fun _ => rfl) (.inr (fun _ => ⟨rfl, rfl, rfl⟩))

theorem PlainAnon.declRhs : ∀ {es : List RhsElem} {g g' : Grammar} {xs : List RhsSym}, DInv g → PlainAnon g →
    g.declRhs es = .ok (g', xs) → PlainAnon g' := by
  intro es
  induction es with
  | nil =>
    intro g g' xs _ h he
    simp only [Grammar.declRhs, Except.ok.injEq, Prod.mk.injEq] at he
    exact he.1 ▸ h
  | cons e es ih =>
    intro g g' xs hd h he
    unfold Grammar.declRhs at he
    split at he
    · cases he
    · rename_i g1 s h1
      split at he
      · cases he
      · rename_i g2 ss h2
        cases he
        exact ih (hd.declElem h1).1 (h.declElem hd h1) h2

theorem PlainAnon.parseOneDecl {g g' : Grammar} {d : Decl} (hd : DInv g) (h : PlainAnon g)
    (he : g.parseOneDecl d = .ok g') : PlainAnon g' := by
  unfold Grammar.parseOneDecl at he
  split at he
  case h_7 attrs id ty =>
    simp only at he
    split at he
    · cases he
    · rename_i k hk
      have ha : askOk (.ident id) k = true := by
        cases id <;> simp [Ident.isTerminal, Ident.isNonTerminal] at hk
        · subst hk; rfl
        · split at hk <;> cases hk; rfl
        · split at hk <;> cases hk; rfl
      have a := hd.symbolNew ha
      have b := h.symbolNew hd.symbols (.ident id) k
      rcases hs : g.symbolNew (.ident id) k with ⟨g1, s⟩
      rw [hs] at he a b
      simp only at he a b
      split at he
      · cases he
      · cases he
        exact b.modify (f := fun b => { b with dataType := ty, attributes := attrs }) (fun _ => rfl) (.inl (by rw [a.2.2.2.1]; rfl))
  case h_8 a ids =>
    refine PlainAnon.declAssoc (hd.congr (g' := { g with prec := g.prec + 1 }) rfl rfl rfl rfl rfl rfl rfl) ?_ he
    exact h.congr rfl
  case h_12 id =>
    split at he
    · cases he
    · split at he
      · cases he
      · have b := h.symbolNew hd.symbols (.ident id) .nonTerminal
        rcases hs : g.symbolNew (.ident id) .nonTerminal with ⟨g1, s⟩
        rw [hs] at he b
        cases he
        exact b.congr rfl
  case h_13 fb ids =>
    split at he
    · cases he
    · rename_i g1 ss h1
      have a := hd.declTokens h1
      have b := h.declTokens hd h1
      split at he
      · cases he
      · rename_i hid
        have a2 := a.1.symbolNew (askOk_upper hid)
        have b2 := b.symbolNew a.1.symbols (.ident fb) .terminal
        rcases hs : g1.symbolNew (.ident fb) .terminal with ⟨g2, s⟩
        rw [hs] at he a2 b2
        simp only at he a2 b2
        split at he
        · cases he
        · refine b2.setFallbacks ?_ he
          intro x hx
          obtain ⟨k, hk, rfl⟩ := List.getElem_of_mem hx
          have hl := a.2.2.2.length_eq
          have := List.Forall₂.get a.2.2.2 hk (hl ▸ hk)
          simp only [List.get_eq_getElem] at this
          rw [a2.2.1.name _ this.1]
          exact isIdent_of_isTok this.2.2
  case h_14 id =>
    split at he
    · cases he
    · split at he
      · cases he
      · have b := h.symbolNew hd.symbols (.ident id) .terminal
        rcases hs : g.symbolNew (.ident id) .terminal with ⟨g1, s⟩
        rw [hs] at he b
        cases he
        exact b.congr rfl
  case h_15 tk ids =>
    split at he
    · cases he
    · rename_i hid
      have b := h.symbolNew hd.symbols (.ident tk) .multiTerminal
      have a : (g.symbolNew (.ident tk) .multiTerminal).1.symbols =
          List.range (g.symbolNew (.ident tk) .multiTerminal).1.syms.length := by
        rcases symbolNew_cases hd.symbols (.ident tk) .multiTerminal with ⟨s, _, _, _, he⟩ | ⟨_, he⟩ <;> rw [he]
        · rw [length_modifySym]; exact hd.symbols
        · rw [length_pushSym, List.range_succ, ← hd.symbols]; rfl
      rcases hs : g.symbolNew (.ident tk) .multiTerminal with ⟨g1, s⟩
      rw [hs] at he b a
      exact b.declClass a he
  case h_20 lhs rhs action prec =>
    split at he
    · cases he
    · rename_i hid
      have a := hd.symbolNew (askOk_lower hid)
      have b := h.symbolNew hd.symbols (.ident lhs) .nonTerminal
      rcases hs : g.symbolNew (.ident lhs) .nonTerminal with ⟨g1, l⟩
      rw [hs] at he a b
      simp only at he a b
      have hcr : ∀ (g : Grammar) (l : SymbolId) rs c p, PlainAnon g → PlainAnon (g.createRule l rs c p) := by
        intro g l rs c p h
        unfold Grammar.createRule
        exact (h.congr (g' := { g with rules := _ }) rfl).modify (fun _ => rfl) (.inr (fun _ => ⟨rfl, rfl, rfl⟩))
      split at he
      · cases he
      · rename_i g2 rs h2
        have b2 := b.declRhs a.1 h2
        split at he
        · cases he; exact hcr _ _ _ _ _ b2
        · rename_i pid
          split at he
          · cases he
          · have b3 := b2.symbolNew (a.1.declRhs h2).1.symbols (.ident pid) .terminal
            rcases hs : g2.symbolNew (.ident pid) .terminal with ⟨g3, ps⟩
            rw [hs] at he b3
            cases he
            exact hcr _ _ _ _ _ b3
  all_goals
    first
      | (cases he; exact h)
      | (split at he
         · cases he
         · cases he; exact h.congr rfl)

theorem PlainAnon.parseDecls : ∀ {ds : List Decl} {g g' : Grammar}, DInv g → PlainAnon g → g.parseDecls ds = .ok g' → PlainAnon g' := by
  intro ds
  induction ds with
  | nil =>
    intro g g' _ h he
    simp only [Grammar.parseDecls, Except.ok.injEq] at he
    exact he ▸ h
  | cons d ds ih =>
    intro g g' hd h he
    unfold Grammar.parseDecls at he
    split at he
    · cases he
    · rename_i g1 h1
      exact ih (hd.parseOneDecl h1).1 (h.parseOneDecl hd h1) he

theorem PlainAnon.initial : PlainAnon Grammar.initial := by
  have : ∀ x, x < Grammar.initial.syms.length → (Grammar.initial.sym x).precedence = none ∧
    (Grammar.initial.sym x).dataType = none ∧ (Grammar.initial.sym x).fallback = none := by decide
  exact fun x hx _ => this x hx

end Pomelo
