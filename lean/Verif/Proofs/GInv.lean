import Verif.Model.Tables
import Verif.Proofs.Prepare
/-! # Well-formed grammars: what the later phases rely on -/

namespace Pomelo

/-- The grammar after `prepare`.  Only what never changes afterwards is mentioned. -/
structure GInv (g : Grammar) : Prop where
  /-- `symbols` lists every symbol once, the position is the index -/
  slen : g.symbols.length = g.syms.length
  perm : ∀ s, s < g.syms.length → (g.sym s).index < g.syms.length ∧ g.symbols.getD (g.sym s).index 0 = s
  index : ∀ i, i < g.syms.length → g.symbols.getD i 0 < g.syms.length ∧ (g.sym (g.symbols.getD i 0)).index = i
  two : 2 ≤ g.syms.length
  dollar : (g.sym 0).name = .dollar ∧ (g.sym 0).kind = .terminal ∧ (g.sym 0).index = 0
  err : (g.sym 1).name = .ident .error ∧ (g.sym 1).kind = .nonTerminal
  errSym : g.errorSymbol = 1
  names : ∀ i j, i < g.syms.length → j < g.syms.length → (g.sym i).name = (g.sym j).name →
    (g.sym i).name ≠ .anon → i = j
  kinds : ∀ s, s < g.syms.length → kindOk (g.sym s).name (g.sym s).kind = true
  term : ∀ s, s < g.syms.length → ((g.sym s).kind = .terminal ↔ (g.sym s).index < g.numTerminals)
  nt : ∀ s, s < g.syms.length →
    ((g.sym s).kind = .nonTerminal ↔ g.numTerminals ≤ (g.sym s).index ∧ (g.sym s).index ≤ g.defaultIndex)
  dflt : ∃ d, d < g.syms.length ∧ (g.sym d).name = .dflt ∧ (g.sym d).index = g.defaultIndex
  nterm : 0 < g.numTerminals ∧ g.numTerminals ≤ g.defaultIndex ∧ g.defaultIndex < g.syms.length
  subs : ∀ s, s < g.syms.length → ∀ m ∈ (g.sym s).subs, m < g.syms.length ∧ (g.sym m).name.isTok = true
  subsKind : ∀ s, s < g.syms.length → (g.sym s).subs ≠ [] → (g.sym s).kind = .multiTerminal
  fb : ∀ s, s < g.syms.length → ∀ f, (g.sym s).fallback = some f →
    f < g.syms.length ∧ (g.sym f).name.isTok = true ∧ (g.sym s).name.isTok = true
  rulesOf : ∀ s, s < g.syms.length →
    (g.sym s).rules = (List.range g.rules.length).filter (fun r => (g.rule r).lhs == s)
  lhs : ∀ r, r < g.rules.length → (g.rule r).lhs < g.syms.length ∧
    (g.sym (g.rule r).lhs).kind = .nonTerminal ∧ (g.sym (g.rule r).lhs).name ≠ .dflt
  rhs : ∀ r, r < g.rules.length → ∀ x ∈ g.rhsSyms r, x < g.syms.length ∧ (g.sym x).name ≠ .dollar ∧
    (g.sym x).name ≠ .dflt
  start : ∃ s, g.start = some s ∧ s < g.syms.length ∧ (g.sym s).name.isNt = true
  wild : ∀ s, g.wildcard = some s → s < g.syms.length ∧ (g.sym s).name.isTok = true

/-- The part of a symbol that `GInv` talks about -/
def Symbol.core (b : Symbol) : SymName × Nat × SymKind × List RuleId × List SymbolId × Option SymbolId :=
  (b.name, b.index, b.kind, b.rules, b.subs, b.fallback)

/-- `g'` has the shape of `g`: they differ in types, first sets, precedences, codes and aliases only. -/
structure Shape (g g' : Grammar) : Prop where
  len : g'.syms.length = g.syms.length
  core : ∀ s, (g'.sym s).core = (g.sym s).core
  symbols : g'.symbols = g.symbols
  rlen : g'.rules.length = g.rules.length
  lhs : ∀ r, (g'.rule r).lhs = (g.rule r).lhs
  rhs : ∀ r, g'.rhsSyms r = g.rhsSyms r
  errSym : g'.errorSymbol = g.errorSymbol
  start : g'.start = g.start
  wild : g'.wildcard = g.wildcard
  nterm : g'.numTerminals = g.numTerminals
  dflt : g'.defaultIndex = g.defaultIndex

namespace Shape
variable {g g' g'' : Grammar}

theorem refl (g : Grammar) : Shape g g :=
  ⟨rfl, fun _ => rfl, rfl, rfl, fun _ => rfl, fun _ => rfl, rfl, rfl, rfl, rfl, rfl⟩

theorem trans (h1 : Shape g g') (h2 : Shape g' g'') : Shape g g'' :=
  ⟨h2.len.trans h1.len, fun s => (h2.core s).trans (h1.core s), h2.symbols.trans h1.symbols,
   h2.rlen.trans h1.rlen, fun r => (h2.lhs r).trans (h1.lhs r), fun r => (h2.rhs r).trans (h1.rhs r),
   h2.errSym.trans h1.errSym, h2.start.trans h1.start, h2.wild.trans h1.wild, h2.nterm.trans h1.nterm,
   h2.dflt.trans h1.dflt⟩

theorem symm (h : Shape g g') : Shape g' g :=
  ⟨h.len.symm, fun s => (h.core s).symm, h.symbols.symm, h.rlen.symm, fun r => (h.lhs r).symm,
   fun r => (h.rhs r).symm, h.errSym.symm, h.start.symm, h.wild.symm, h.nterm.symm, h.dflt.symm⟩

theorem name (h : Shape g g') (s : SymbolId) : (g'.sym s).name = (g.sym s).name := congrArg (·.1) (h.core s)
theorem index (h : Shape g g') (s : SymbolId) : (g'.sym s).index = (g.sym s).index := congrArg (·.2.1) (h.core s)
theorem kind (h : Shape g g') (s : SymbolId) : (g'.sym s).kind = (g.sym s).kind := congrArg (·.2.2.1) (h.core s)
theorem rules (h : Shape g g') (s : SymbolId) : (g'.sym s).rules = (g.sym s).rules := congrArg (·.2.2.2.1) (h.core s)
theorem subs (h : Shape g g') (s : SymbolId) : (g'.sym s).subs = (g.sym s).subs := congrArg (·.2.2.2.2.1) (h.core s)
theorem fallback (h : Shape g g') (s : SymbolId) : (g'.sym s).fallback = (g.sym s).fallback :=
  congrArg (·.2.2.2.2.2) (h.core s)

/-- Changing the symbols one by one, keeping the core -/
theorem modify {s : SymbolId} {f : Symbol → Symbol} (hf : ∀ b, (f b).core = b.core) : Shape g (g.modifySym s f) :=
  ⟨length_modifySym _ _ _, proj_modifySym Symbol.core hf, rfl, rfl, fun _ => rfl, fun _ => rfl, rfl, rfl, rfl, rfl, rfl⟩

end Shape

theorem GInv.shape {g g' : Grammar} (h : GInv g) (hs : Shape g g') : GInv g' where
  slen := by rw [hs.symbols, hs.len]; exact h.slen
  perm := by rw [hs.len, hs.symbols]; intro s; rw [hs.index]; exact h.perm s
  index := by rw [hs.len, hs.symbols]; intro s; rw [hs.index]; exact h.index s
  two := by rw [hs.len]; exact h.two
  dollar := by rw [hs.name, hs.kind, hs.index]; exact h.dollar
  err := by rw [hs.name, hs.kind]; exact h.err
  errSym := by rw [hs.errSym]; exact h.errSym
  names := by rw [hs.len]; intro i j; rw [hs.name, hs.name]; exact h.names i j
  kinds := by rw [hs.len]; intro s; rw [hs.name, hs.kind]; exact h.kinds s
  term := by rw [hs.len, hs.nterm]; intro s; rw [hs.kind, hs.index]; exact h.term s
  nt := by rw [hs.len, hs.nterm, hs.dflt]; intro s; rw [hs.kind, hs.index]; exact h.nt s
  dflt := by
    obtain ⟨d, h1, h2, h3⟩ := h.dflt
    exact ⟨d, by rw [hs.len]; exact h1, by rw [hs.name]; exact h2, by rw [hs.index, hs.dflt]; exact h3⟩
  nterm := by rw [hs.nterm, hs.dflt, hs.len]; exact h.nterm
  subs := by rw [hs.len]; intro s hl m; rw [hs.subs, hs.name]; exact h.subs s hl m
  subsKind := by rw [hs.len]; intro s; rw [hs.subs, hs.kind]; exact h.subsKind s
  fb := by rw [hs.len]; intro s hl f; rw [hs.fallback, hs.name, hs.name]; exact h.fb s hl f
  rulesOf := by
    rw [hs.len, hs.rlen]; intro s hl; rw [hs.rules, h.rulesOf s hl]
    simp only [hs.lhs]
  lhs := by rw [hs.rlen, hs.len]; intro r; rw [hs.lhs, hs.kind, hs.name]; exact h.lhs r
  rhs := by rw [hs.rlen, hs.len]; intro r hl x; rw [hs.rhs, hs.name]; exact h.rhs r hl x
  start := by
    obtain ⟨s, h1, h2, h3⟩ := h.start
    exact ⟨s, by rw [hs.start]; exact h1, by rw [hs.len]; exact h2, by rw [hs.name]; exact h3⟩
  wild := by rw [hs.wild, hs.len]; intro s; rw [hs.name]; exact h.wild s

/-! ## Consequences -/

namespace GInv
variable {g : Grammar}

theorem index_inj (h : GInv g) {a b : SymbolId} (ha : a < g.syms.length) (hb : b < g.syms.length)
    (he : (g.sym a).index = (g.sym b).index) : a = b := by
  have h1 := (h.perm a ha).2
  have h2 := (h.perm b hb).2
  rw [he] at h1
  exact h1.symm.trans h2

theorem mem_rules (h : GInv g) {s : SymbolId} (hs : s < g.syms.length) {r : RuleId} :
    r ∈ (g.sym s).rules ↔ r < g.rules.length ∧ (g.rule r).lhs = s := by
  rw [h.rulesOf s hs, List.mem_filter, List.mem_range, beq_iff_eq]

theorem isTok_kind (h : GInv g) {s : SymbolId} (hs : s < g.syms.length) (ht : (g.sym s).name.isTok = true) :
    (g.sym s).kind = .terminal ∨ (g.sym s).kind = .multiTerminal := by
  have := h.kinds s hs
  revert this ht
  generalize (g.sym s).name = n
  generalize (g.sym s).kind = k
  cases k
  · intro _ _; exact .inl rfl
  · cases n with
    | ident i => cases i <;> simp [kindOk, SymName.isTok]
    | _ => simp [SymName.isTok]
  · intro _ _; exact .inr rfl

theorem isNt_kind (h : GInv g) {s : SymbolId} (hs : s < g.syms.length) (ht : (g.sym s).name.isNt = true) :
    (g.sym s).kind = .nonTerminal := by
  have := h.kinds s hs
  revert this ht
  generalize (g.sym s).name = n
  generalize (g.sym s).kind = k
  cases k
  · cases n with
    | ident i => cases i <;> simp [kindOk, SymName.isNt]
    | _ => simp [SymName.isNt]
  · intro _ _; rfl
  · cases n with
    | ident i => cases i <;> simp [kindOk, SymName.isNt]
    | _ => simp [SymName.isNt]

theorem index_lt (h : GInv g) {s : SymbolId} (hs : s < g.syms.length) : (g.sym s).index < g.syms.length :=
  (h.perm s hs).1

theorem index_eq_zero (h : GInv g) {s : SymbolId} (hs : s < g.syms.length) (h0 : (g.sym s).index = 0) : s = 0 :=
  h.index_inj hs (Nat.lt_of_lt_of_le (by decide) h.two) (h0.trans h.dollar.2.2.symm)

end GInv

/-! ## `new_from_decls` and `prepare` establish it -/

/-- Result of reading the declarations -/
theorem newFromDecls_spec {ds : List Decl} {g : Grammar} (h : newFromDecls ds = .ok g) :
    ∃ g0, Grammar.initial.parseDecls ds = .ok g0 ∧ DInv g0 ∧ RulesRec g0 ds ∧ g0.rules ≠ [] ∧
      g = g0.pushSym { name := .dflt, kind := .nonTerminal } := by
  unfold newFromDecls at h
  split at h
  · cases h
  · rename_i g0 h0
    obtain ⟨a1, a2, a3⟩ := DInv.initial.parseDecls h0
    have hr : RulesRec g0 ds := a3 [] (by unfold RulesRec; exact .nil)
    rcases symbolNew_cases a1.symbols .dflt .nonTerminal with ⟨s, hs, hn, _, _⟩ | ⟨_, he⟩
    · exact absurd hn (a1.noDflt s hs)
    · rw [he] at h
      simp only at h
      split at h
      · cases h
      · rename_i hne
        cases h
        refine ⟨g0, h0, a1, hr, ?_, rfl⟩
        intro e
        apply hne
        show g0.rules.isEmpty = true
        rw [e]; rfl

/-- The parts of `prepare` before the optional rules -/
def Grammar.indexed (g : Grammar) : Grammar :=
  let g := g.sortSymbols
  let g := { g with numTerminals := 1, defaultIndex := 0 }
  let g := g.assignIndices 0 g.symbols
  { g with start := some (g.start.getD (g.rule 0).lhs) }

theorem prepare_eq (g : Grammar) (ord) : g.prepare ord = (g.indexed.addExtraToken).addOptionals ord := rfl

theorem assignIndices_keeps : ∀ (l : List SymbolId) (g : Grammar) (i : Nat),
    (g.assignIndices i l).rules = g.rules ∧ (g.assignIndices i l).symbols = g.symbols ∧
    (g.assignIndices i l).errorSymbol = g.errorSymbol ∧ (g.assignIndices i l).start = g.start ∧
    (g.assignIndices i l).wildcard = g.wildcard ∧ (g.assignIndices i l).optionals = g.optionals ∧
    (g.assignIndices i l).extraToken = g.extraToken := by
  intro l
  induction l with
  | nil => intro g i; exact ⟨rfl, rfl, rfl, rfl, rfl, rfl, rfl⟩
  | cons s l ih =>
    intro g i
    unfold Grammar.assignIndices
    simp only
    split <;> exact ih _ _

theorem sorted_symbols (g : Grammar) : (g.sortSymbols).symbols =
    g.symbols.filter (fun a => (g.sym a).kind = .terminal) ++ g.symbols.filter (fun a => (g.sym a).kind = .nonTerminal) ++
    g.symbols.filter (fun a => (g.sym a).kind = .multiTerminal) :=
  sortBy_three (fun a => (g.sym a).kind) g.symbols

theorem getD_of_lt {α : Type} {l : List α} {i : Nat} {d : α} (h : i < l.length) : l.getD i d = l[i] := by
  simp [List.getD_eq_getElem?_getD, List.getElem?_eq_getElem h]

theorem getElem_filter_append {α : Type} {l : List α} {a b c : α → Bool} {k : Nat}
    (h : k < (l.filter a ++ l.filter b ++ l.filter c).length) :
    (k < (l.filter a).length ∧ a (l.filter a ++ l.filter b ++ l.filter c)[k] = true) ∨
    ((l.filter a).length ≤ k ∧ k < (l.filter a).length + (l.filter b).length ∧
      b (l.filter a ++ l.filter b ++ l.filter c)[k] = true) ∨
    ((l.filter a).length + (l.filter b).length ≤ k ∧ c (l.filter a ++ l.filter b ++ l.filter c)[k] = true) := by
  by_cases h1 : k < (l.filter a).length
  · left
    refine ⟨h1, ?_⟩
    rw [List.getElem_append_left (by simp only [List.length_append]; omega), List.getElem_append_left h1]
    exact (List.mem_filter.1 (List.getElem_mem h1)).2
  · by_cases h2 : k < (l.filter a).length + (l.filter b).length
    · right; left
      refine ⟨Nat.le_of_not_lt h1, h2, ?_⟩
      rw [List.getElem_append_left (by simp only [List.length_append]; omega), List.getElem_append_right (by omega)]
      exact (List.mem_filter.1 (List.getElem_mem _)).2
    · right; right
      refine ⟨Nat.le_of_not_lt h2, ?_⟩
      rw [List.getElem_append_right (by simp only [List.length_append]; omega)]
      exact (List.mem_filter.1 (List.getElem_mem _)).2

/-- The symbols after indexing differ from those before in their index only. -/
theorem proj_indexed {β : Type} (π : Symbol → β) (hπ : ∀ (b : Symbol) n, π { b with index := n } = π b) (g : Grammar)
    (x : SymbolId) : π (g.indexed.sym x) = π (g.sym x) := by
  unfold Grammar.indexed
  exact proj_assignIndices π hπ _ _ _ _

theorem indexed_fields (g : Grammar) :
    g.indexed.syms.length = g.syms.length ∧ g.indexed.rules = g.rules ∧ g.indexed.errorSymbol = g.errorSymbol ∧
    g.indexed.wildcard = g.wildcard ∧ g.indexed.optionals = g.optionals ∧
    g.indexed.start = some (g.start.getD (g.rule 0).lhs) := by
  unfold Grammar.indexed
  simp only
  obtain ⟨k1, k2, k3, k4, k5, k6, k7⟩ := assignIndices_keeps g.sortSymbols.symbols
    { g.sortSymbols with numTerminals := 1, defaultIndex := 0 } 0
  refine ⟨length_assignIndices, k1, k3, k5, k6, ?_⟩
  rw [k4]
  unfold Grammar.rule
  rw [k1]
  rfl

theorem GInv.indexed {g0 : Grammar} (h : DInv g0) (hr : g0.rules ≠ []) :
    GInv (g0.pushSym { name := .dflt, kind := .nonTerminal }).indexed := by
  generalize hgA : g0.pushSym { name := .dflt, kind := .nonTerminal } = gA
  have hlenA : gA.syms.length = g0.syms.length + 1 := by rw [← hgA]; exact length_pushSym _ _
  have hsymA : gA.symbols = List.range (g0.syms.length + 1) := by
    rw [← hgA, List.range_succ, ← h.symbols]; rfl
  have hlt : ∀ x, x < g0.syms.length → gA.sym x = g0.sym x := fun x hx => by rw [← hgA]; exact sym_pushSym_lt hx
  have hlast : gA.sym g0.syms.length = { name := .dflt, kind := .nonTerminal } := by rw [← hgA]; exact sym_pushSym_last
  have hruleA : ∀ r, gA.rule r = g0.rule r := fun r => by rw [← hgA]; rfl
  have hrulesA : gA.rules = g0.rules := by rw [← hgA]; rfl
  have hcase : ∀ x, x < g0.syms.length + 1 → x < g0.syms.length ∨ x = g0.syms.length := fun x hx => by omega
  obtain ⟨f1, f2, f3, f4, f5, f6⟩ := indexed_fields gA
  have pn : ∀ x, (gA.indexed.sym x).name = (gA.sym x).name := proj_indexed Symbol.name (fun _ _ => rfl) gA
  have pk : ∀ x, (gA.indexed.sym x).kind = (gA.sym x).kind := proj_indexed Symbol.kind (fun _ _ => rfl) gA
  have pr : ∀ x, (gA.indexed.sym x).rules = (gA.sym x).rules := proj_indexed Symbol.rules (fun _ _ => rfl) gA
  have ps : ∀ x, (gA.indexed.sym x).subs = (gA.sym x).subs := proj_indexed Symbol.subs (fun _ _ => rfl) gA
  have pf : ∀ x, (gA.indexed.sym x).fallback = (gA.sym x).fallback := proj_indexed Symbol.fallback (fun _ _ => rfl) gA
  have prule : ∀ r, gA.indexed.rule r = g0.rule r := fun r => by
    unfold Grammar.rule; rw [f2, hrulesA]
  have prhs : ∀ r, gA.indexed.rhsSyms r = (g0.rule r).rhs.map (·.sym) := fun r => by
    unfold Grammar.rhsSyms; rw [prule]
  -- the sorted list
  have hL : gA.indexed.symbols = gA.symbols.filter (fun a => (gA.sym a).kind = .terminal) ++
      gA.symbols.filter (fun a => (gA.sym a).kind = .nonTerminal) ++
      gA.symbols.filter (fun a => (gA.sym a).kind = .multiTerminal) := by
    rw [← sorted_symbols]
    unfold Grammar.indexed
    exact (assignIndices_keeps _ _ _).2.1
  have hperm : gA.indexed.symbols.Perm (List.range (g0.syms.length + 1)) := by
    rw [hL, ← sorted_symbols, ← hsymA]
    exact perm_sortBy _ _
  have hidx : ∀ k (hk : k < gA.indexed.symbols.length), (gA.indexed.sym gA.indexed.symbols[k]).index = k := by
    have e : gA.indexed.symbols = gA.sortSymbols.symbols := by
      unfold Grammar.indexed; exact (assignIndices_keeps _ _ _).2.1
    intro k hk
    have hnd : gA.sortSymbols.symbols.Nodup := by
      rw [← e]; exact hperm.nodup_iff.2 List.nodup_range
    have := sym_assignIndices_mem (l := gA.sortSymbols.symbols)
      (g := { gA.sortSymbols with numTerminals := 1, defaultIndex := 0 }) (i := 0) hnd (by
        intro s hs
        rw [← e, hperm.mem_iff, List.mem_range] at hs
        show s < gA.syms.length
        rw [hlenA]; exact hs) k (by rw [← e]; exact hk)
    have e2 : ∀ x, gA.indexed.sym x = (Grammar.assignIndices { gA.sortSymbols with numTerminals := 1, defaultIndex := 0 } 0
        gA.sortSymbols.symbols).sym x := fun x => rfl
    rw [e2]
    simp only [e]
    rw [this]
    simp
  have hslen : gA.indexed.symbols.length = g0.syms.length + 1 := by rw [hperm.length_eq]; simp
  -- the two counters
  have hT0 : 0 ∈ gA.symbols.filter (fun a => (gA.sym a).kind = .terminal) := by
    rw [List.mem_filter, hsymA]
    refine ⟨List.mem_range.2 (by omega), ?_⟩
    have h2 := h.two
    have := h.kinds 0 (by omega)
    rw [h.dollar] at this
    rw [hlt 0 (by omega)]
    revert this
    cases (g0.sym 0).kind <;> simp [kindOk]
  have hNd : g0.syms.length ∈ gA.symbols.filter (fun a => (gA.sym a).kind = .nonTerminal) := by
    rw [List.mem_filter, hsymA]
    refine ⟨List.mem_range.2 (by omega), ?_⟩
    rw [hlast]; rfl
  generalize hTdef : gA.symbols.filter (fun a => (gA.sym a).kind = .terminal) = T at *
  generalize hNdef : gA.symbols.filter (fun a => (gA.sym a).kind = .nonTerminal) = N at *
  generalize hMdef : gA.symbols.filter (fun a => (gA.sym a).kind = .multiTerminal) = M at *
  have hTk : ∀ x ∈ T, (gA.sym x).kind = .terminal := by
    intro x hx; rw [← hTdef] at hx; simpa using (List.mem_filter.1 hx).2
  have hNk : ∀ x ∈ N, (gA.sym x).kind = .nonTerminal := by
    intro x hx; rw [← hNdef] at hx; simpa using (List.mem_filter.1 hx).2
  have hMk : ∀ x ∈ M, (gA.sym x).kind = .multiTerminal := by
    intro x hx; rw [← hMdef] at hx; simpa using (List.mem_filter.1 hx).2
  have hTne : T ≠ [] := List.ne_nil_of_mem hT0
  have hNne : N ≠ [] := List.ne_nil_of_mem hNd
  have hTl : 0 < T.length := List.length_pos_iff.2 hTne
  have hNl : 0 < N.length := List.length_pos_iff.2 hNne
  have hcount : gA.indexed.numTerminals = T.length ∧ gA.indexed.defaultIndex = T.length + N.length - 1 := by
    have e : gA.sortSymbols.symbols = T ++ N ++ M := by rw [sorted_symbols, hTdef, hNdef, hMdef]
    have e2 : gA.indexed.numTerminals = (Grammar.assignIndices { gA.sortSymbols with numTerminals := 1, defaultIndex := 0 } 0
        gA.sortSymbols.symbols).numTerminals := rfl
    have e3 : gA.indexed.defaultIndex = (Grammar.assignIndices { gA.sortSymbols with numTerminals := 1, defaultIndex := 0 } 0
        gA.sortSymbols.symbols).defaultIndex := rfl
    rw [e2, e3, e, assignIndices_append, assignIndices_append]
    have kk := fun (l : List SymbolId) (g : Grammar) (i : Nat) (x : SymbolId) =>
      proj_assignIndices Symbol.kind (fun _ _ => rfl) l g i x
    generalize hG : ({ gA.sortSymbols with numTerminals := 1, defaultIndex := 0 } : Grammar) = G
    have hGk : ∀ x, (G.sym x).kind = (gA.sym x).kind := fun x => by rw [← hG]; rfl
    obtain ⟨a1, a2⟩ := counters_assignIndices T G 0 .terminal (fun s hs => by rw [hGk]; exact hTk s hs)
    obtain ⟨b1, b2⟩ := counters_assignIndices N (G.assignIndices 0 T) (0 + T.length) .nonTerminal
      (fun s hs => by rw [kk, hGk]; exact hNk s hs)
    obtain ⟨c1, c2⟩ := counters_assignIndices M ((G.assignIndices 0 T).assignIndices (0 + T.length) N)
      (0 + (T ++ N).length) .multiTerminal (fun s hs => by rw [kk, kk, hGk]; exact hMk s hs)
    rw [c1, c2, b1, b2, a1, a2]
    simp [hTne, hNne]
  obtain ⟨hc1, hc2⟩ := hcount
  -- positions
  have hpos : ∀ s, s < g0.syms.length + 1 → ∃ k, ∃ hk : k < gA.indexed.symbols.length, gA.indexed.symbols[k] = s := by
    intro s hs
    have : s ∈ gA.indexed.symbols := hperm.mem_iff.2 (List.mem_range.2 hs)
    obtain ⟨k, hk, e⟩ := List.getElem_of_mem this
    exact ⟨k, hk, e⟩
  have hposKind : ∀ k (hk : k < gA.indexed.symbols.length),
      (k < T.length ∧ (gA.sym gA.indexed.symbols[k]).kind = .terminal) ∨
      (T.length ≤ k ∧ k < T.length + N.length ∧ (gA.sym gA.indexed.symbols[k]).kind = .nonTerminal) ∨
      (T.length + N.length ≤ k ∧ (gA.sym gA.indexed.symbols[k]).kind = .multiTerminal) := by
    intro k hk
    simp only [hL] at hk ⊢
    by_cases h1 : k < T.length
    · left
      refine ⟨h1, ?_⟩
      rw [List.getElem_append_left (by simp only [List.length_append]; omega), List.getElem_append_left h1]
      exact hTk _ (List.getElem_mem _)
    · by_cases h2 : k < T.length + N.length
      · right; left
        refine ⟨Nat.le_of_not_lt h1, h2, ?_⟩
        rw [List.getElem_append_left (by simp only [List.length_append]; omega), List.getElem_append_right (by omega)]
        exact hNk _ (List.getElem_mem _)
      · right; right
        refine ⟨Nat.le_of_not_lt h2, ?_⟩
        rw [List.getElem_append_right (by simp only [List.length_append]; omega)]
        exact hMk _ (List.getElem_mem _)
  have h2 := h.two
  -- first and last of their groups
  have hrange : ∀ (P : SymbolId → Bool), P 0 = true →
      ∃ l, (List.range (g0.syms.length + 1)).filter P = 0 :: l := by
    intro P hP
    rw [List.range_succ_eq_map, List.filter_cons, if_pos hP]
    exact ⟨_, rfl⟩
  have hhead : ∃ l, gA.indexed.symbols = 0 :: l := by
    have hk0 : (gA.sym 0).kind = .terminal := hTk 0 hT0
    obtain ⟨l, hl⟩ := hrange (fun a => (gA.sym a).kind = .terminal) (by simp [hk0])
    rw [hL, ← hTdef, hsymA, hl]
    exact ⟨_, rfl⟩
  have hlastN : ∃ l, N = l ++ [g0.syms.length] := by
    rw [← hNdef, hsymA, List.range_succ, List.filter_append]
    exact ⟨(List.range g0.syms.length).filter (fun a => (gA.sym a).kind = .nonTerminal), by simp [hlast]⟩
  have hdflt : ∃ hk : T.length + N.length - 1 < gA.indexed.symbols.length,
      gA.indexed.symbols[T.length + N.length - 1] = g0.syms.length := by
    obtain ⟨l, hl⟩ := hlastN
    have hNlen : N.length = l.length + 1 := by rw [hl]; simp
    have hk : T.length + N.length - 1 < gA.indexed.symbols.length := by
      rw [hL]; simp only [List.length_append]; omega
    refine ⟨hk, ?_⟩
    simp only [hL, hl]
    rw [List.getElem_append_left (by simp only [List.length_append, List.length_cons, List.length_nil]; omega),
      List.getElem_append_right (by simp only [List.length_append, List.length_cons, List.length_nil]; omega)]
    rw [List.getElem_append_right (by simp only [List.length_append, List.length_cons, List.length_nil]; omega)]
    simp
  have hTN : T.length + N.length ≤ g0.syms.length + 1 := by
    have : (T ++ N ++ M).length = g0.syms.length + 1 := by rw [← hL, hslen]
    simp only [List.length_append] at this
    omega
  constructor
  · rw [hslen, f1, hlenA]
  · rw [f1, hlenA]
    intro s hs
    obtain ⟨k, hk, e⟩ := hpos s hs
    have : (gA.indexed.sym s).index = k := by rw [← e]; exact hidx k hk
    rw [this, getD_of_lt hk, e]
    exact ⟨by omega, rfl⟩
  · rw [f1, hlenA]
    intro i hi
    have hk : i < gA.indexed.symbols.length := by omega
    rw [getD_of_lt hk]
    refine ⟨?_, hidx i hk⟩
    have := hperm.mem_iff.1 (List.getElem_mem hk)
    exact List.mem_range.1 this
  · rw [f1]; omega
  · rw [pn, pk, hlt 0 (by omega)]
    refine ⟨h.dollar, ?_, ?_⟩
    · rw [← hlt 0 (by omega)]; exact hTk 0 hT0
    · obtain ⟨l, hl⟩ := hhead
      have e := hidx 0 (by omega)
      simp only [hl] at e
      simpa using e
  · rw [pn, pk, hlt 1 (by omega)]
    refine ⟨h.errName, ?_⟩
    have := h.kinds 1 (by omega)
    rw [h.errName] at this
    revert this
    cases (g0.sym 1).kind <;> simp [kindOk]
  · rw [f3, ← hgA]; exact h.errSym
  · rw [f1, hlenA]
    intro i j hi hj
    rw [pn, pn]
    rcases hcase i hi with hi' | rfl <;> rcases hcase j hj with hj' | rfl
    · rw [hlt i hi', hlt j hj']; exact h.names i j hi' hj'
    · rw [hlt i hi', hlast]; intro e; exact absurd e (h.noDflt i hi')
    · rw [hlast, hlt j hj']; intro e; exact absurd e.symm (h.noDflt j hj')
    · intro _ _; rfl
  · rw [f1, hlenA]
    intro s hs
    rw [pn, pk]
    rcases hcase s hs with hs' | rfl
    · rw [hlt s hs']; exact h.kinds s hs'
    · rw [hlast]; rfl
  · rw [f1, hlenA, hc1]
    intro s hs
    obtain ⟨k, hk, e⟩ := hpos s hs
    have hi : (gA.indexed.sym s).index = k := by rw [← e]; exact hidx k hk
    rw [hi, pk]
    rcases hposKind k hk with ⟨a, b⟩ | ⟨a, a', b⟩ | ⟨a, b⟩ <;> rw [e] at b <;> rw [b] <;> simp <;> omega
  · rw [f1, hlenA, hc1, hc2]
    intro s hs
    obtain ⟨k, hk, e⟩ := hpos s hs
    have hi : (gA.indexed.sym s).index = k := by rw [← e]; exact hidx k hk
    rw [hi, pk]
    rcases hposKind k hk with ⟨a, b⟩ | ⟨a, a', b⟩ | ⟨a, b⟩ <;> rw [e] at b <;> rw [b] <;> simp <;> omega
  · refine ⟨g0.syms.length, by rw [f1]; omega, by rw [pn, hlast], ?_⟩
    obtain ⟨hk, e⟩ := hdflt
    rw [hc2, ← hidx _ hk, e]
  · rw [hc1, hc2, f1, hlenA]; omega
  · rw [f1, hlenA]
    intro s hs m hm
    rw [ps] at hm
    rw [pn]
    rcases hcase s hs with hs' | rfl
    · rw [hlt s hs'] at hm
      have := h.subs s hs' m hm
      rw [hlt m this.1]; exact ⟨Nat.lt_succ_of_lt this.1, this.2⟩
    · rw [hlast] at hm; simp at hm
  · rw [f1, hlenA]
    intro s hs
    rw [ps, pk]
    rcases hcase s hs with hs' | rfl
    · rw [hlt s hs']; exact h.subsKind s hs'
    · rw [hlast]; intro hh; exact absurd rfl hh
  · rw [f1, hlenA]
    intro s hs f hf
    rw [pf] at hf
    rw [pn, pn]
    rcases hcase s hs with hs' | rfl
    · rw [hlt s hs'] at hf
      have := h.fb s hs' f hf
      rw [hlt f this.1, hlt s hs']; exact ⟨Nat.lt_succ_of_lt this.1, this.2⟩
    · rw [hlast] at hf; simp at hf
  · rw [f1, hlenA, f2, hrulesA]
    intro s hs
    rw [pr]
    simp only [prule]
    rcases hcase s hs with hs' | rfl
    · rw [hlt s hs']; exact h.rulesOf s hs'
    · rw [hlast]
      symm
      show List.filter _ _ = []
      rw [List.filter_eq_nil_iff]
      intro r hr'
      have := (h.lhs r (List.mem_range.1 hr')).1
      simp only [beq_iff_eq]
      exact Nat.ne_of_lt this
  · rw [f1, hlenA, f2, hrulesA]
    intro r hr'
    have := h.lhs r hr'
    rw [prule, pn, pk, hlt _ this.1]
    refine ⟨Nat.lt_succ_of_lt this.1, ?_, h.noDflt _ this.1⟩
    have hk := h.kinds _ this.1
    have hn := this.2
    revert hk hn
    generalize (g0.sym (g0.rule r).lhs).name = nm
    generalize (g0.sym (g0.rule r).lhs).kind = kd
    cases nm with
    | ident i => cases i <;> cases kd <;> simp [kindOk, SymName.isNt]
    | _ => simp [SymName.isNt]
  · rw [f1, hlenA, f2, hrulesA]
    intro r hr' x hx
    rw [prhs, List.mem_map] at hx
    obtain ⟨y, hy, rfl⟩ := hx
    have := h.rhs r hr' y hy
    rw [pn, hlt _ this.1]
    exact ⟨Nat.lt_succ_of_lt this.1, this.2, h.noDflt _ this.1⟩
  · rw [f6, f1, hlenA]
    refine ⟨_, rfl, ?_⟩
    have hst : gA.start = g0.start := by rw [← hgA]; rfl
    rw [hst, hruleA, pn]
    cases hs : g0.start with
    | none =>
      have := h.lhs 0 (List.length_pos_iff.2 hr)
      simp only [Option.getD_none]
      rw [hlt _ this.1]
      exact ⟨Nat.lt_succ_of_lt this.1, this.2⟩
    | some s =>
      have := h.start s hs
      simp only [Option.getD_some]
      rw [hlt _ this.1]
      exact ⟨Nat.lt_succ_of_lt this.1, this.2⟩
  · rw [f4, f1, hlenA]
    have hw : gA.wildcard = g0.wildcard := by rw [← hgA]; rfl
    rw [hw]
    intro s hs
    have := h.wild s hs
    rw [pn, hlt _ this.1]
    exact ⟨Nat.lt_succ_of_lt this.1, this.2⟩

end Pomelo
