import Verif.Proofs.DeclPlain
/-! # Members of the unnamed classes -/

namespace Pomelo

/-- What holds of the members of the symbols that stand for compounds -/
def AnonIs (V : SymbolId → List SymbolId → Prop) (g : Grammar) : Prop :=
  ∀ x, x < g.syms.length → (g.sym x).name = .anon → V x (g.sym x).subs

section
variable {V : SymbolId → List SymbolId → Prop}

theorem AnonIs.congr {g g' : Grammar} (h : AnonIs V g) (e : g'.syms = g.syms) : AnonIs V g' := by
  unfold AnonIs Grammar.sym at *
  rw [e]; exact h

theorem AnonIs.modify {g : Grammar} (h : AnonIs V g) {s : SymbolId} {f : Symbol → Symbol} (hn : ∀ b, (f b).name = b.name)
    (hs : (g.sym s).name.isIdent = true ∨ ∀ b, (f b).subs = b.subs) :
    AnonIs V (g.modifySym s f) := by
  intro x hx hnx
  rw [length_modifySym] at hx
  rw [sym_modifySym] at hnx ⊢
  split at hnx
  · rename_i hc
    rw [hn] at hnx
    rcases hs with hs | hs
    · rw [← hc.1, hnx] at hs; cases hs
    · rw [if_pos hc, hs _]; exact h x hx hnx
  · rename_i hc
    rw [if_neg hc]; exact h x hx hnx

theorem AnonIs.push {g : Grammar} (h : AnonIs V g) {n : SymName} {k : SymKind} (hn : n ≠ .anon) :
    AnonIs V (g.pushSym { name := n, kind := k }) := by
  intro x hx hnx
  rw [length_pushSym] at hx
  rcases Nat.lt_succ_iff_lt_or_eq.1 hx with hx | rfl
  · rw [sym_pushSym_lt hx] at hnx ⊢; exact h x hx hnx
  · rw [sym_pushSym_last] at hnx; exact absurd hnx hn

theorem AnonIs.symbolNew {g : Grammar} (hd : g.symbols = List.range g.syms.length) (h : AnonIs V g) (n : SymName) (k : SymKind) (hn : n ≠ .anon) :
    AnonIs V (g.symbolNew n k).1 := by
  rcases symbolNew_cases hd n k with ⟨s, _, _, _, he⟩ | ⟨_, he⟩ <;> rw [he]
  · exact h.modify (fun _ => rfl) (.inr (fun _ => rfl))
  · exact h.push hn

theorem symbolNew_name {g : Grammar} (hd : g.symbols = List.range g.syms.length) (n : SymName) (k : SymKind) :
    (g.symbolNew n k).2 < (g.symbolNew n k).1.syms.length ∧ ((g.symbolNew n k).1.sym (g.symbolNew n k).2).name = n := by
  rcases symbolNew_cases hd n k with ⟨s, h1, h2, _, he⟩ | ⟨_, he⟩ <;> rw [he]
  · simp only
    rw [length_modifySym, sym_modifySym, if_pos ⟨rfl, h1⟩]
    exact ⟨h1, h2⟩
  · simp only
    rw [length_pushSym, sym_pushSym_last]
    exact ⟨Nat.lt_succ_self _, rfl⟩

theorem AnonIs.declTokens {e : GErr} : ∀ {ids : List Ident} {g g' : Grammar} {ss : List SymbolId}, DInv g → AnonIs V g →
    g.declTokens e ids = .ok (g', ss) → AnonIs V g' := by
  intro ids
  induction ids with
  | nil =>
    intro g g' ss _ h he
    simp only [Grammar.declTokens, Except.ok.injEq, Prod.mk.injEq] at he
    exact he.1 ▸ h
  | cons id ids ih =>
    intro g g' ss hd h he
    unfold Grammar.declTokens at he
    split at he
    · cases he
    · rename_i hid
      have a := hd.symbolNew (askOk_upper hid)
      have b := h.symbolNew hd.symbols (.ident id) .terminal (by simp)
      rcases hs : g.symbolNew (.ident id) .terminal with ⟨g1, s⟩
      rw [hs] at he a b
      simp only at he
      split at he
      · rename_i g2 ss2 h2
        cases he
        exact ih a.1 b h2
      · cases he

theorem AnonIs.declAssoc {p : Precedence} : ∀ {ids : List Ident} {g g' : Grammar}, DInv g → AnonIs V g →
    g.declAssoc p ids = .ok g' → AnonIs V g' := by
  intro ids
  induction ids with
  | nil =>
    intro g g' _ h he
    simp only [Grammar.declAssoc, Except.ok.injEq] at he
    exact he ▸ h
  | cons id ids ih =>
    intro g g' hd h he
    have he0 := he
    unfold Grammar.declAssoc at he
    split at he
    · cases he
    · rename_i hid
      have a := hd.symbolNew (askOk_upper hid)
      have b := h.symbolNew hd.symbols (.ident id) .terminal (by simp)
      rcases hs : g.symbolNew (.ident id) .terminal with ⟨g1, s⟩
      rw [hs] at he a b
      simp only at he a
      split at he
      · cases he
      · rename_i hp
        refine ih ?_ (b.modify (f := fun b => { b with precedence := some p }) (fun _ => rfl) (.inl (by rw [a.2.2.2.1]; rfl))) he
        have hone : g.declAssoc p [id] = .ok (g1.modifySym s (fun b => { b with precedence := some p })) := by
          unfold Grammar.declAssoc
          rw [if_neg hid, hs]
          simp only [hp]
          rfl
        exact (hd.declAssoc hone).1

theorem AnonIs.setFallbacks {f : SymbolId} : ∀ {ss : List SymbolId} {g g' : Grammar}, AnonIs V g →
    (∀ s ∈ ss, (g.sym s).name.isIdent = true) → g.setFallbacks f ss = .ok g' → AnonIs V g' := by
  intro ss
  induction ss with
  | nil =>
    intro g g' h _ he
    simp only [Grammar.setFallbacks, Except.ok.injEq] at he
    exact he ▸ h
  | cons s ss ih =>
    intro g g' h hn he
    unfold Grammar.setFallbacks at he
    split at he
    · cases he
    · refine ih (g := { g.modifySym s (fun b => { b with fallback := some f }) with hasFallback := true })
        ((h.modify (g := g) (f := fun b => { b with fallback := some f }) (fun _ => rfl) (.inl (hn s (by simp)))).congr rfl) ?_ he
      intro x hx
      show ((g.modifySym s _).sym x).name.isIdent = true
      rw [sym_modifySym]
      split
      · exact hn x (by simp [hx])
      · exact hn x (by simp [hx])

theorem AnonIs.declClass {tk : SymbolId} : ∀ {ids : List Ident} {g g' : Grammar}, g.symbols = List.range g.syms.length → AnonIs V g →
    tk < g.syms.length → (g.sym tk).name.isIdent = true → g.declClass tk ids = .ok g' → AnonIs V g' := by
  intro ids
  induction ids with
  | nil =>
    intro g g' _ h _ _ he
    simp only [Grammar.declClass, Except.ok.injEq] at he
    exact he ▸ h
  | cons id ids ih =>
    intro g g' hd h ht hn he
    unfold Grammar.declClass at he
    split at he
    · cases he
    · have b := h.symbolNew hd (.ident id) .terminal (by simp)
      have c : (g.symbolNew (.ident id) .terminal).1.symbols = List.range (g.symbolNew (.ident id) .terminal).1.syms.length ∧
          tk < (g.symbolNew (.ident id) .terminal).1.syms.length ∧ ((g.symbolNew (.ident id) .terminal).1.sym tk).name.isIdent = true := by
        rcases symbolNew_cases hd (.ident id) .terminal with ⟨s, _, _, _, he⟩ | ⟨_, he⟩ <;> rw [he]
        · rw [length_modifySym]
          refine ⟨hd, ht, ?_⟩
          simp only
          rw [sym_modifySym]
          split <;> exact hn
        · rw [length_pushSym, List.range_succ, ← hd]
          refine ⟨rfl, Nat.lt_succ_of_lt ht, ?_⟩
          simp only
          rw [sym_pushSym_lt ht]; exact hn
      rcases hs : g.symbolNew (.ident id) .terminal with ⟨g1, s⟩
      rw [hs] at he b c
      simp only at he c
      refine ih (g := g1.modifySym tk (fun b => { b with subs := b.subs ++ [s] })) (by rw [length_modifySym]; exact c.1)
        (b.modify (fun _ => rfl) (.inl c.2.2)) (by rw [length_modifySym]; exact c.2.1) ?_ he
      rw [sym_modifySym]
      split <;> exact c.2.2

end

variable {T : Nat → Prop}

/-- The number of members -/
def AnonLen (T : Nat → Prop) (g : Grammar) : Prop := AnonIs (fun _ l => T l.length) g

theorem AnonLen.declElem {e : RhsElem} {g g' : Grammar} {x : RhsSym} (hT : (∀ tok, e.toks ≠ [tok]) → T e.toks.length) (hd : DInv g) (h : AnonLen T g)
    (he : g.declElem e = .ok (g', x)) : AnonLen T g' := by
  unfold Grammar.declElem at he
  split at he
  · rename_i tok _
    rcases hk : (if tok.isTerminal then some SymKind.terminal
      else if tok.isNonTerminal then some SymKind.nonTerminal else none) with _ | k
    · simp [hk] at he
    · simp only [hk] at he
      have ha : askOk (.ident tok) k = true := by
        cases tok <;> simp [Ident.isTerminal, Ident.isNonTerminal] at hk <;> subst hk <;> rfl
      have a := hd.symbolNew ha
      have b := h.symbolNew hd.symbols (.ident tok) k (by simp)
      rcases hs : g.symbolNew (.ident tok) k with ⟨g1, s⟩
      rw [hs] at he a b
      simp only at he a b
      split at he
      · split at he
        · cases he; exact b
        · have c := b.symbolNew a.1.symbols (.opt g1.optionals.length) .nonTerminal (by simp)
          rcases hs2 : g1.symbolNew (.opt g1.optionals.length) .nonTerminal with ⟨g2, s2⟩
          rw [hs2] at he c
          cases he
          exact c.congr rfl
      · cases he; exact b
  · rename_i hne
    have a := hd.symbolNew (name := .anon) (k := .multiTerminal) rfl
    have hsn : g.symbolNew .anon .multiTerminal = (g.pushSym { name := .anon, kind := .multiTerminal }, g.syms.length) := by
      rcases symbolNew_cases hd.symbols .anon .multiTerminal with ⟨s, _, _, h1, _⟩ | ⟨_, he⟩
      · exact absurd rfl h1
      · exact he
    rw [hsn] at he a
    simp only at he a
    have b : AnonIs (fun x l => if x = g.syms.length then l = [] else T l.length) (g.pushSym { name := .anon, kind := .multiTerminal }) := by
      intro x hx hnx
      rw [length_pushSym] at hx
      rcases Nat.lt_succ_iff_lt_or_eq.1 hx with hx | rfl
      · rw [sym_pushSym_lt hx] at hnx ⊢
        rw [if_neg (Nat.ne_of_lt hx)]
        exact h x hx hnx
      · rw [sym_pushSym_last, if_pos rfl]
    split at he
    · cases he
    · rename_i g2 ss h2
      cases he
      have c := b.declTokens a.1 h2
      have d := a.1.declTokens h2
      intro x hx hnx
      rw [length_modifySym] at hx
      rw [sym_modifySym] at hnx ⊢
      by_cases hxe : x = g.syms.length
      · rw [if_pos ⟨hxe, hxe ▸ hx⟩] at hnx ⊢
        have := c x hx hnx
        simp only [if_pos hxe] at this
        simp only [this, List.nil_append]
        rw [d.2.2.2.length_eq]
        exact hT hne
      · rw [if_neg (fun h => hxe h.1)] at hnx ⊢
        have := c x hx hnx
        simp only [if_neg hxe] at this
        exact this

theorem AnonLen.declRhs : ∀ {es : List RhsElem} {g g' : Grammar} {xs : List RhsSym},
    (∀ e ∈ es, (∀ tok, e.toks ≠ [tok]) → T e.toks.length) → DInv g → AnonLen T g →
    g.declRhs es = .ok (g', xs) → AnonLen T g' := by
  intro es
  induction es with
  | nil =>
    intro g g' xs _ _ h he
    simp only [Grammar.declRhs, Except.ok.injEq, Prod.mk.injEq] at he
    exact he.1 ▸ h
  | cons e es ih =>
    intro g g' xs hT hd h he
    unfold Grammar.declRhs at he
    split at he
    · cases he
    · rename_i g1 s h1
      split at he
      · cases he
      · rename_i g2 ss h2
        cases he
        exact ih (fun e he => hT e (by simp [he])) (hd.declElem h1).1 (AnonLen.declElem (hT _ (by simp)) hd h h1) h2

/-- The sizes of the compounds of a declaration -/
def ElemLen (T : Nat → Prop) (d : Decl) : Prop := ∀ l rhs a p, d = .rule l rhs a p → ∀ e ∈ rhs, (∀ tok, e.toks ≠ [tok]) → T e.toks.length

theorem AnonLen.parseOneDecl {g g' : Grammar} {d : Decl} (hT : ElemLen T d) (hd : DInv g) (h : AnonLen T g)
    (he : g.parseOneDecl d = .ok g') : AnonLen T g' := by
  unfold Grammar.parseOneDecl at he
  split at he
  case h_7 attrs id ty =>
    simp only at he
    split at he
    · cases he
    · rename_i k hk
      have ha : askOk (.ident id) k = true := by
        cases id <;> simp [Ident.isTerminal, Ident.isNonTerminal] at hk
        · subst hk; rfl
        · split at hk <;> cases hk; rfl
        · split at hk <;> cases hk; rfl
      have a := hd.symbolNew ha
      have b := h.symbolNew hd.symbols (.ident id) k (by simp)
      rcases hs : g.symbolNew (.ident id) k with ⟨g1, s⟩
      rw [hs] at he a b
      simp only at he a b
      split at he
      · cases he
      · cases he
        exact b.modify (f := fun b => { b with dataType := ty, attributes := attrs }) (fun _ => rfl) (.inl (by rw [a.2.2.2.1]; rfl))
  case h_8 a ids =>
    refine AnonIs.declAssoc (hd.congr (g' := { g with prec := g.prec + 1 }) rfl rfl rfl rfl rfl rfl rfl) ?_ he
    exact h.congr rfl
  case h_12 id =>
    split at he
    · cases he
    · split at he
      · cases he
      · have b := h.symbolNew hd.symbols (.ident id) .nonTerminal (by simp)
        rcases hs : g.symbolNew (.ident id) .nonTerminal with ⟨g1, s⟩
        rw [hs] at he b
        cases he
        exact b.congr rfl
  case h_13 fb ids =>
    split at he
    · cases he
    · rename_i g1 ss h1
      have a := hd.declTokens h1
      have b := h.declTokens hd h1
      split at he
      · cases he
      · rename_i hid
        have a2 := a.1.symbolNew (askOk_upper hid)
        have b2 := b.symbolNew a.1.symbols (.ident fb) .terminal (by simp)
        rcases hs : g1.symbolNew (.ident fb) .terminal with ⟨g2, s⟩
        rw [hs] at he a2 b2
        simp only at he a2 b2
        split at he
        · cases he
        · refine b2.setFallbacks ?_ he
          intro x hx
          obtain ⟨k, hk, rfl⟩ := List.getElem_of_mem hx
          have hl := a.2.2.2.length_eq
          have := List.Forall₂.get a.2.2.2 hk (hl ▸ hk)
          simp only [List.get_eq_getElem] at this
          rw [a2.2.1.name _ this.1]
          exact isIdent_of_isTok this.2.2
  case h_14 id =>
    split at he
    · cases he
    · split at he
      · cases he
      · have b := h.symbolNew hd.symbols (.ident id) .terminal (by simp)
        rcases hs : g.symbolNew (.ident id) .terminal with ⟨g1, s⟩
        rw [hs] at he b
        cases he
        exact b.congr rfl
  case h_15 tk ids =>
    split at he
    · cases he
    · rename_i hid
      have b := h.symbolNew hd.symbols (.ident tk) .multiTerminal (by simp)
      have a : (g.symbolNew (.ident tk) .multiTerminal).1.symbols =
          List.range (g.symbolNew (.ident tk) .multiTerminal).1.syms.length := by
        rcases symbolNew_cases hd.symbols (.ident tk) .multiTerminal with ⟨s, _, _, _, he⟩ | ⟨_, he⟩ <;> rw [he]
        · rw [length_modifySym]; exact hd.symbols
        · rw [length_pushSym, List.range_succ, ← hd.symbols]; rfl
      rcases hs : g.symbolNew (.ident tk) .multiTerminal with ⟨g1, s⟩
      rw [hs] at he b a
      have c : s < g1.syms.length ∧ (g1.sym s).name = .ident tk := by
        have := symbolNew_name hd.symbols (.ident tk) .multiTerminal
        rw [hs] at this; exact this
      exact AnonIs.declClass a b c.1 (by rw [c.2]; rfl) he
  case h_20 lhs rhs action prec =>
    split at he
    · cases he
    · rename_i hid
      have a := hd.symbolNew (askOk_lower hid)
      have b := h.symbolNew hd.symbols (.ident lhs) .nonTerminal (by simp)
      rcases hs : g.symbolNew (.ident lhs) .nonTerminal with ⟨g1, l⟩
      rw [hs] at he a b
      simp only at he a b
      have hcr : ∀ (g : Grammar) (l : SymbolId) rs c p, AnonLen T g → AnonLen T (g.createRule l rs c p) := by
        intro g l rs c p h
        unfold Grammar.createRule
        exact (h.congr (g' := { g with rules := _ }) rfl).modify (fun _ => rfl) (.inr (fun _ => rfl))
      split at he
      · cases he
      · rename_i g2 rs h2
        have b2 := AnonLen.declRhs (hT _ _ _ _ rfl) a.1 b h2
        split at he
        · cases he; exact hcr _ _ _ _ _ b2
        · rename_i pid
          split at he
          · cases he
          · have b3 := b2.symbolNew (a.1.declRhs h2).1.symbols (.ident pid) .terminal (by simp)
            rcases hs : g2.symbolNew (.ident pid) .terminal with ⟨g3, ps⟩
            rw [hs] at he b3
            cases he
            exact hcr _ _ _ _ _ b3
  all_goals
    first
      | (cases he; exact h)
      | (split at he
         · cases he
         · cases he; exact h.congr rfl)

theorem AnonLen.parseDecls : ∀ {ds : List Decl} {g g' : Grammar}, (∀ d ∈ ds, ElemLen T d) → DInv g → AnonLen T g → g.parseDecls ds = .ok g' → AnonLen T g' := by
  intro ds
  induction ds with
  | nil =>
    intro g g' _ _ h he
    simp only [Grammar.parseDecls, Except.ok.injEq] at he
    exact he ▸ h
  | cons d ds ih =>
    intro g g' hT hd h he
    unfold Grammar.parseDecls at he
    split at he
    · cases he
    · rename_i g1 h1
      exact ih (fun d hd => hT d (by simp [hd])) (hd.parseOneDecl h1).1 (AnonLen.parseOneDecl (hT _ (by simp)) hd h h1) he

theorem AnonLen.initial : AnonLen T Grammar.initial := by
  have : ∀ x, x < Grammar.initial.syms.length → (Grammar.initial.sym x).name ≠ .anon := by decide
  exact fun x hx h => absurd h (this x hx)

end Pomelo
