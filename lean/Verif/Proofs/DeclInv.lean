import Verif.Proofs.Decl
/-! # The declarations keep the invariant -/

namespace Pomelo

theorem askOk_upper {id : Ident} (h : (!id.isTerminal) ≠ true) : askOk (.ident id) .terminal = true := by
  cases id <;> first | rfl | simp [Ident.isTerminal] at h

theorem isTok_upper {id : Ident} (h : (!id.isTerminal) ≠ true) : SymName.isTok (.ident id) = true := by
  cases id <;> first | rfl | simp [Ident.isTerminal] at h

theorem askOk_lower {id : Ident} (h : (!id.isNonTerminal) ≠ true) : askOk (.ident id) .nonTerminal = true := by
  cases id <;> first | rfl | simp [Ident.isNonTerminal] at h

theorem isNt_lower {id : Ident} (h : (!id.isNonTerminal) ≠ true) : SymName.isNt (.ident id) = true := by
  cases id <;> first | rfl | simp [Ident.isNonTerminal] at h

/-- Stability of facts about existing symbols -/
theorem DLe.isTok {g g' : Grammar} (h : DLe g g') {s : SymbolId} (hs : s < g.syms.length)
    (ht : (g.sym s).name.isTok = true) : s < g'.syms.length ∧ (g'.sym s).name.isTok = true :=
  ⟨Nat.lt_of_lt_of_le hs h.len, by rw [h.name s hs]; exact ht⟩

theorem DInv.declTokens {e : GErr} : ∀ {ids : List Ident} {g g' : Grammar} {ss : List SymbolId}, DInv g →
    g.declTokens e ids = .ok (g', ss) →
    DInv g' ∧ DLe g g' ∧ OnlySyms g g' ∧
    List.Forall₂ (fun s id => s < g'.syms.length ∧ (g'.sym s).name = .ident id ∧ (g'.sym s).name.isTok = true) ss ids := by
  intro ids
  induction ids with
  | nil =>
    intro g g' ss h he
    simp only [Grammar.declTokens, Except.ok.injEq, Prod.mk.injEq] at he
    obtain ⟨rfl, rfl⟩ := he
    exact ⟨h, DLe.refl _, OnlySyms.refl _, .nil⟩
  | cons id ids ih =>
    intro g g' ss h he
    unfold Grammar.declTokens at he
    split at he
    · cases he
    · rename_i hid
      obtain ⟨h1, h2, h3, h4, h5⟩ := h.symbolNew (askOk_upper hid)
      rcases hs : g.symbolNew (.ident id) .terminal with ⟨g1, s⟩
      rw [hs] at he h1 h2 h3 h4 h5
      simp only at he h1 h2 h3 h4 h5
      rcases hr : g1.declTokens e ids with e' | ⟨g2, ss'⟩
      · rw [hr] at he; cases he
      · rw [hr] at he
        simp only [Except.ok.injEq, Prod.mk.injEq] at he
        obtain ⟨rfl, rfl⟩ := he
        obtain ⟨i1, i2, i3, i4⟩ := ih h1 hr
        have ht : (g1.sym s).name.isTok = true := by rw [h4]; exact isTok_upper hid
        refine ⟨i1, h2.trans i2, h5.trans i3, .cons ⟨?_, ?_, ?_⟩ i4⟩
        · exact (i2.isTok h3 ht).1
        · rw [i2.name s h3, h4]
        · exact (i2.isTok h3 ht).2

theorem DInv.declAssoc {p : Precedence} : ∀ {ids : List Ident} {g g' : Grammar}, DInv g →
    g.declAssoc p ids = .ok g' → DInv g' ∧ DLe g g' ∧ OnlySyms g g' := by
  intro ids
  induction ids with
  | nil =>
    intro g g' h he
    simp only [Grammar.declAssoc, Except.ok.injEq] at he
    subst he
    exact ⟨h, DLe.refl _, OnlySyms.refl _⟩
  | cons id ids ih =>
    intro g g' h he
    unfold Grammar.declAssoc at he
    split at he
    · cases he
    · rename_i hid
      obtain ⟨h1, h2, h3, h4, h5⟩ := h.symbolNew (askOk_upper hid)
      rcases hs : g.symbolNew (.ident id) .terminal with ⟨g1, s⟩
      rw [hs] at he h1 h2 h3 h4 h5
      simp only at he h1 h2 h3 h4 h5
      split at he
      · cases he
      · have k1 : DInv (g1.modifySym s (fun b => { b with precedence := some p })) :=
          h1.modify_other (fun _ => rfl) (fun _ => rfl) (fun _ => rfl) (fun _ => rfl) (fun _ => rfl)
            (fun _ => rfl) (fun _ => rfl)
        obtain ⟨i1, i2, i3⟩ := ih k1 he
        refine ⟨i1, (h2.trans ?_).trans i2, (h5.trans (OnlySyms.modify _ _ _)).trans i3⟩
        exact DLe.modify_other (fun _ => rfl) (fun _ => rfl) (fun _ => rfl)

/-- Changes to fields of the grammar that the invariant does not mention -/
theorem DInv.congr {g g' : Grammar} (h : DInv g) (h1 : g'.syms = g.syms) (h2 : g'.symbols = g.symbols)
    (h3 : g'.rules = g.rules) (h4 : g'.errorSymbol = g.errorSymbol) (h5 : g'.start = g.start)
    (h6 : g'.wildcard = g.wildcard) (h7 : g'.optionals = g.optionals) : DInv g' := by
  have hs : ∀ s, g'.sym s = g.sym s := fun s => by unfold Grammar.sym; rw [h1]
  have hr : ∀ s, g'.rule s = g.rule s := fun s => by unfold Grammar.rule; rw [h3]
  constructor
  · rw [h1, h2]; exact h.symbols
  · rw [h1]; exact h.two
  · rw [hs]; exact h.dollar
  · rw [hs]; exact h.errName
  · rw [h4]; exact h.errSym
  · rw [h1]; intro i j; rw [hs, hs]; exact h.names i j
  · rw [h1]; intro i; rw [hs]; exact h.kinds i
  · rw [h1]; intro i; rw [hs]; exact h.noDflt i
  · rw [h1]; intro i; rw [hs]; exact h.plain i
  · rw [h1]; intro i hi m; rw [hs, hs]; exact h.subs i hi m
  · rw [h1]; intro i; rw [hs]; exact h.subsKind i
  · rw [h1]; intro i hi m; rw [hs, hs]; exact h.fb i hi m
  · rw [h1, h3]; intro i; rw [hs]; simp only [hr]; exact h.rulesOf i
  · rw [h1, h3]; intro i; rw [hr, hs]; exact h.lhs i
  · rw [h1, h3]; intro i hi x hx; rw [hr] at hx; rw [hs]; exact h.rhs i hi x hx
  · rw [h1, h3]; intro i hi x hx; rw [hr] at hx; rw [hs]; exact h.precSym i hi x hx
  · rw [h3]; intro i; rw [hr]; exact h.fresh i
  · rw [h1, h5]; intro i; rw [hs]; exact h.start i
  · rw [h1, h6]; intro i; rw [hs]; exact h.wild i
  · rw [h7]; exact h.optKeys
  · rw [h1, h7]; intro k a b; rw [hs, hs]; exact h.opts k a b
  · rw [h1, h7]; intro k; rw [hs]; exact h.optNames k

theorem DLe.congr {g g' : Grammar} (h1 : g'.syms = g.syms)
    (h3 : g'.rules = g.rules) (h7 : g'.optionals = g.optionals) : DLe g g' := by
  have hs : ∀ s, g'.sym s = g.sym s := fun s => by unfold Grammar.sym; rw [h1]
  constructor
  · rw [h1]; exact Nat.le_refl _
  · intro s _; rw [hs]
  · intro s _; rw [hs]; exact .inl rfl
  · intro s _ _; rw [hs]
  · intro s _; rw [hs]; exact List.prefix_refl _
  · rw [h3]; exact List.prefix_refl _
  · rw [h7]; exact List.prefix_refl _

theorem DInv.setFallbacks {f : SymbolId} : ∀ {ss : List SymbolId} {g g' : Grammar}, DInv g →
    (f < g.syms.length ∧ (g.sym f).name.isTok = true) →
    (∀ s ∈ ss, s < g.syms.length ∧ (g.sym s).name.isTok = true) →
    g.setFallbacks f ss = .ok g' → DInv g' ∧ DLe g g' := by
  intro ss
  induction ss with
  | nil =>
    intro g g' h _ _ he
    simp only [Grammar.setFallbacks, Except.ok.injEq] at he
    subst he
    exact ⟨h, DLe.refl _⟩
  | cons s ss ih =>
    intro g g' h hf hss he
    unfold Grammar.setFallbacks at he
    split at he
    · cases he
    · have hs := hss s (by simp)
      have k1 : DInv (g.modifySym s (fun b => { b with fallback := some f })) := by
        refine h.modify (fun _ => rfl) (fun _ => rfl) (fun _ => rfl) (fun _ => rfl) ?_ ?_ ?_ ?_
        · exact h.kinds s
        · exact h.subs s
        · exact h.subsKind s
        · intro _ x hx
          simp only [Option.some.injEq] at hx
          subst hx
          exact ⟨hf.1, hf.2, hs.2⟩
      have k2 : DLe g (g.modifySym s (fun b => { b with fallback := some f })) :=
        DLe.modify_other (fun _ => rfl) (fun _ => rfl) (fun _ => rfl)
      have k3 : DInv { g.modifySym s (fun b => { b with fallback := some f }) with hasFallback := true } :=
        k1.congr rfl rfl rfl rfl rfl rfl rfl
      have k4 : DLe g { g.modifySym s (fun b => { b with fallback := some f }) with hasFallback := true } :=
        k2.trans (DLe.congr rfl rfl rfl)
      obtain ⟨i1, i2⟩ := ih k3 (k4.isTok hf.1 hf.2)
        (fun x hx => k4.isTok (hss x (by simp [hx])).1 (hss x (by simp [hx])).2) he
      exact ⟨i1, k4.trans i2⟩

theorem DInv.declClass {tk : SymbolId} : ∀ {ids : List Ident} {g g' : Grammar}, DInv g →
    tk < g.syms.length → (g.sym tk).name.isTok = true → (g.sym tk).kind = .multiTerminal →
    g.declClass tk ids = .ok g' → DInv g' ∧ DLe g g' ∧ OnlySyms g g' := by
  intro ids
  induction ids with
  | nil =>
    intro g g' h _ _ _ he
    simp only [Grammar.declClass, Except.ok.injEq] at he
    subst he
    exact ⟨h, DLe.refl _, OnlySyms.refl _⟩
  | cons id ids ih =>
    intro g g' h htk htok hkind he
    unfold Grammar.declClass at he
    split at he
    · cases he
    · rename_i hid
      obtain ⟨h1, h2, h3, h4, h5⟩ := h.symbolNew (askOk_upper hid)
      rcases hs : g.symbolNew (.ident id) .terminal with ⟨g1, s⟩
      rw [hs] at he h1 h2 h3 h4 h5
      simp only at he h1 h2 h3 h4 h5
      have hk1 : (g1.sym tk).kind = .multiTerminal := by
        rcases h2.kind tk htk with e | ⟨e, _⟩
        · rw [← e, hkind]
        · rw [hkind] at e; cases e
      have htk1 := h2.isTok htk htok
      have k1 : DInv (g1.modifySym tk (fun b => { b with subs := b.subs ++ [s] })) := by
        refine h1.modify (fun _ => rfl) (fun _ => rfl) (fun _ => rfl) (fun _ => rfl) ?_ ?_ ?_ ?_
        · exact h1.kinds tk
        · intro hl m hm
          rcases List.mem_append.1 hm with hm | hm
          · exact h1.subs tk hl m hm
          · simp only [List.mem_singleton] at hm
            subst hm
            exact ⟨h3, by rw [h4]; exact isTok_upper hid⟩
        · intro _ _; exact hk1
        · exact h1.fb tk
      have k2 : DLe g1 (g1.modifySym tk (fun b => { b with subs := b.subs ++ [s] })) := by
        refine DLe.modify (fun _ => rfl) (fun _ => .inl rfl) ?_ ?_
        · intro hh; rw [hh] at htk1; cases htk1.2
        · exact List.prefix_append _ _
      obtain ⟨i1, i2, i3⟩ := ih k1 (by simpa using htk1.1)
        (by
          have e := proj_modifySym Symbol.name (g := g1) (s := tk) (f := fun b => { b with subs := b.subs ++ [s] }) (fun _ => rfl) tk
          rw [e]; exact htk1.2)
        ((proj_modifySym Symbol.kind (g := g1) (s := tk) (f := fun b => { b with subs := b.subs ++ [s] }) (fun _ => rfl) tk).trans hk1) he
      exact ⟨i1, (h2.trans k2).trans i2, (h5.trans (OnlySyms.modify _ _ _)).trans i3⟩

/-- How an element of a right-hand side is recorded -/
def ElemRec (g : Grammar) (e : RhsElem) (x : RhsSym) : Prop :=
  x.alias = e.alias ∧
  ((∃ tok, e.toks = [tok] ∧ e.optional = false ∧ (g.sym x.sym).name = .ident tok) ∨
   (∃ tok symR, e.toks = [tok] ∧ e.optional = true ∧ symR < g.syms.length ∧ (symR, x.sym) ∈ g.optionals ∧
      (g.sym symR).name = .ident tok) ∨
   ((∀ tok, e.toks ≠ [tok]) ∧ (g.sym x.sym).name = .anon ∧
      List.Forall₂ (fun s id => s < g.syms.length ∧ (g.sym s).name = .ident id) (g.sym x.sym).subs e.toks))

theorem DLe.elemRec {g g' : Grammar} (h : DLe g g') {e : RhsElem} {x : RhsSym} (hx : x.sym < g.syms.length)
    (hr : ElemRec g e x) : ElemRec g' e x := by
  obtain ⟨ha, hr⟩ := hr
  refine ⟨ha, ?_⟩
  rcases hr with ⟨tok, h1, h2, h3⟩ | ⟨tok, symR, h1, h2, h3, h4, h5⟩ | ⟨h1, h2, h3⟩
  · exact .inl ⟨tok, h1, h2, by rw [h.name _ hx]; exact h3⟩
  · exact .inr (.inl ⟨tok, symR, h1, h2, Nat.lt_of_lt_of_le h3 h.len, h.opts.subset h4,
      by rw [h.name _ h3]; exact h5⟩)
  · refine .inr (.inr ⟨h1, by rw [h.name _ hx]; exact h2, ?_⟩)
    rw [h.subs _ hx (by rw [h2]; rfl)]
    refine List.Forall₂.imp ?_ h3
    intro s id ⟨hs, hn⟩
    exact ⟨Nat.lt_of_lt_of_le hs h.len, by rw [h.name _ hs]; exact hn⟩

/-- Changes of `optionals`: a new pair -/
theorem DInv.addOpt {g : Grammar} (h : DInv g) {a : SymbolId} (ha : a < g.syms.length)
    (hn : (g.sym a).name.isTok = true ∨ (g.sym a).name.isNt = true)
    (hlk : g.optionals.lookup a = none) :
    let g1 := g.pushSym { name := .opt g.optionals.length, kind := .nonTerminal }
    g.symbolNew (.opt g.optionals.length) .nonTerminal = (g1, g.syms.length) ∧
    DInv { g1 with optionals := g.optionals ++ [(a, g.syms.length)] } ∧
    DLe g { g1 with optionals := g.optionals ++ [(a, g.syms.length)] } := by
  intro g1
  have hnew : ∀ s, s < g.syms.length → (g.sym s).name ≠ .opt g.optionals.length := by
    intro s hs he
    exact Nat.lt_irrefl _ (h.optNames s hs _ he)
  have hsn : g.symbolNew (.opt g.optionals.length) .nonTerminal = (g1, g.syms.length) := by
    rcases symbolNew_cases h.symbols (.opt g.optionals.length) .nonTerminal with ⟨s, hs, hn, _, _⟩ | ⟨_, he⟩
    · exact absurd hn (hnew s hs)
    · exact he
  refine ⟨hsn, ?_, ?_⟩
  · -- like `push`, with the pair added
    have hlt : ∀ x, x < g.syms.length → g1.sym x = g.sym x := fun x hx => sym_pushSym_lt hx
    have hlast : g1.sym g.syms.length = { name := .opt g.optionals.length, kind := .nonTerminal } := sym_pushSym_last
    have hcase : ∀ x, x < g.syms.length + 1 → (x < g.syms.length ∧ g1.sym x = g.sym x) ∨
        (x = g.syms.length ∧ g1.sym x = { name := .opt g.optionals.length, kind := .nonTerminal }) := by
      intro x hx
      by_cases e : x < g.syms.length
      · exact .inl ⟨e, hlt x e⟩
      · have : x = g.syms.length := by omega
        subst this; exact .inr ⟨rfl, hlast⟩
    have hlen : g1.syms.length = g.syms.length + 1 := length_pushSym _ _
    have h2 := h.two
    -- everything but the optionals, from a grammar with a harmless name instead
    have hb : ∀ s, ({ g1 with optionals := g.optionals ++ [(a, g.syms.length)] } : Grammar).sym s = g1.sym s := fun _ => rfl
    constructor
    · show g1.symbols = List.range g1.syms.length
      rw [hlen, List.range_succ, ← h.symbols]; rfl
    · show 2 ≤ g1.syms.length; omega
    · rw [hb, hlt 0 (by omega)]; exact h.dollar
    · rw [hb, hlt 1 (by omega)]; exact h.errName
    · exact h.errSym
    · show ∀ i j, i < g1.syms.length → j < g1.syms.length → _
      rw [hlen]
      intro i j hi hj he hne
      rw [hb] at he hne; rw [hb] at he
      rcases hcase i hi with ⟨hi', ei⟩ | ⟨hi', ei⟩ <;> rcases hcase j hj with ⟨hj', ej⟩ | ⟨hj', ej⟩ <;>
        rw [ei] at he hne <;> rw [ej] at he
      · exact h.names i j hi' hj' he hne
      · exact absurd he (hnew i hi')
      · exact absurd he.symm (hnew j hj')
      · omega
    · show ∀ s, s < g1.syms.length → _
      rw [hlen]; intro x hx; rw [hb]
      rcases hcase x hx with ⟨_, e⟩ | ⟨_, e⟩ <;> rw [e]
      · exact h.kinds x ‹_›
      · rfl
    · show ∀ s, s < g1.syms.length → _
      rw [hlen]; intro x hx; rw [hb]
      rcases hcase x hx with ⟨_, e⟩ | ⟨_, e⟩ <;> rw [e]
      · exact h.noDflt x ‹_›
      · intro hh; cases hh
    · show ∀ s, s < g1.syms.length → _
      rw [hlen]; intro x hx; rw [hb]
      rcases hcase x hx with ⟨_, e⟩ | ⟨_, e⟩ <;> rw [e]
      · exact h.plain x ‹_›
      · exact ⟨rfl, rfl⟩
    · show ∀ s, s < g1.syms.length → ∀ m ∈ _, m < g1.syms.length ∧ _
      rw [hlen]; intro x hx m hm; rw [hb] at hm ⊢
      rcases hcase x hx with ⟨hx', e⟩ | ⟨_, e⟩ <;> rw [e] at hm
      · have := h.subs x hx' m hm
        rw [hlt m this.1]; exact ⟨Nat.lt_succ_of_lt this.1, this.2⟩
      · simp at hm
    · show ∀ s, s < g1.syms.length → _
      rw [hlen]; intro x hx; rw [hb]
      rcases hcase x hx with ⟨_, e⟩ | ⟨_, e⟩ <;> rw [e]
      · exact h.subsKind x ‹_›
      · intro hh; exact absurd rfl hh
    · show ∀ s, s < g1.syms.length → ∀ f, _ → f < g1.syms.length ∧ _
      rw [hlen]; intro x hx y hy; rw [hb] at hy; rw [hb, hb]
      rcases hcase x hx with ⟨hx', e⟩ | ⟨_, e⟩ <;> rw [e] at hy
      · have := h.fb x hx' y hy
        rw [hlt y this.1, e]; exact ⟨Nat.lt_succ_of_lt this.1, this.2⟩
      · simp at hy
    · show ∀ s, s < g1.syms.length → _
      rw [hlen]; intro x hx; rw [hb]
      rcases hcase x hx with ⟨_, e⟩ | ⟨hx', e⟩ <;> rw [e]
      · exact h.rulesOf x ‹_›
      · symm
        show List.filter _ _ = []
        rw [List.filter_eq_nil_iff]
        intro r hr
        have hr : r < g.rules.length := List.mem_range.1 hr
        have := (h.lhs r hr).1
        show ¬ ((g.rule r).lhs == x) = true
        rw [hx']
        simp only [beq_iff_eq]
        exact Nat.ne_of_lt this
    · show ∀ r, r < g.rules.length → (g.rule r).lhs < g1.syms.length ∧ (g1.sym (g.rule r).lhs).name.isNt = true
      intro r hr
      have := h.lhs r hr
      rw [hlen, hlt _ this.1]; exact ⟨Nat.lt_succ_of_lt this.1, this.2⟩
    · show ∀ r, r < g.rules.length → ∀ x ∈ (g.rule r).rhs, x.sym < g1.syms.length ∧ (g1.sym x.sym).name ≠ .dollar
      intro r hr x hx
      have := h.rhs r hr x hx
      rw [hlen, hlt _ this.1]; exact ⟨Nat.lt_succ_of_lt this.1, this.2⟩
    · show ∀ r, r < g.rules.length → ∀ p, (g.rule r).precSym = some p → p < g1.syms.length ∧ (g1.sym p).name.isTok = true
      intro r hr x hx
      have := h.precSym r hr x hx
      rw [hlen, hlt _ this.1]; exact ⟨Nat.lt_succ_of_lt this.1, this.2⟩
    · exact h.fresh
    · show ∀ s, g.start = some s → s < g1.syms.length ∧ (g1.sym s).name.isNt = true
      intro x hx
      have := h.start x hx
      rw [hlen, hlt _ this.1]; exact ⟨Nat.lt_succ_of_lt this.1, this.2⟩
    · show ∀ s, g.wildcard = some s → s < g1.syms.length ∧ (g1.sym s).name.isTok = true
      intro x hx
      have := h.wild x hx
      rw [hlen, hlt _ this.1]; exact ⟨Nat.lt_succ_of_lt this.1, this.2⟩
    · show ((g.optionals ++ [(a, g.syms.length)]).map Prod.fst).Nodup
      rw [List.map_append, List.nodup_append]
      refine ⟨h.optKeys, by simp, ?_⟩
      intro x hx y hy hxy
      simp only [List.map_cons, List.map_nil, List.mem_singleton] at hy
      rw [List.mem_map] at hx
      obtain ⟨p, hp, hp2⟩ := hx
      rw [List.lookup_eq_none_iff] at hlk
      have := hlk p hp
      simp only [bne_iff_ne, ne_eq] at this
      apply this
      rw [hp2, hxy, hy]
    · show ∀ k a' b, (g.optionals ++ [(a, g.syms.length)])[k]? = some (a', b) → a' < g1.syms.length ∧ b < g1.syms.length ∧
        ((g1.sym a').name.isTok = true ∨ (g1.sym a').name.isNt = true) ∧ (g1.sym b).name = .opt k
      intro k a' b hk
      rw [hlen]
      by_cases hkl : k < g.optionals.length
      · rw [List.getElem?_append_left hkl] at hk
        have := h.opts k a' b hk
        rw [hlt _ this.1, hlt _ this.2.1]
        exact ⟨Nat.lt_succ_of_lt this.1, Nat.lt_succ_of_lt this.2.1, this.2.2⟩
      · rw [List.getElem?_append_right (Nat.le_of_not_lt hkl)] at hk
        have hk0 : k - g.optionals.length = 0 := by
          apply Classical.byContradiction
          intro hne
          rw [List.getElem?_eq_none (by simp; omega)] at hk
          cases hk
        rw [hk0] at hk
        simp only [List.length_cons, List.length_nil, Nat.zero_add, Nat.lt_add_one, List.getElem?_eq_getElem,
          List.getElem_cons_zero, Option.some.injEq, Prod.mk.injEq] at hk
        obtain ⟨rfl, rfl⟩ := hk
        have : k = g.optionals.length := by omega
        subst this
        rw [hlt _ ha, hlast]
        exact ⟨Nat.lt_succ_of_lt ha, Nat.lt_succ_self _, hn, rfl⟩
    · show ∀ s, s < g1.syms.length → ∀ k, (g1.sym s).name = .opt k → k < (g.optionals ++ [(a, g.syms.length)]).length
      rw [hlen]
      intro x hx k hk
      rw [List.length_append]
      rcases hcase x hx with ⟨hx', e⟩ | ⟨hx', e⟩ <;> rw [e] at hk
      · exact Nat.lt_of_lt_of_le (h.optNames x hx' k hk) (Nat.le_add_right _ _)
      · cases hk; simp
  · have k := DLe.push g { name := .opt g.optionals.length, kind := .nonTerminal }
    exact ⟨k.len, k.name, k.kind, k.subs, k.subsPre, k.rules, List.prefix_append _ _⟩

end Pomelo
