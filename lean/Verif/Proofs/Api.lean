import Verif.Proofs.Mention
import Verif.Proofs.Given
import Verif.Proofs.GenCauses
/-!
# The tokens, their types and attributes, as the emitted module has them
-/

namespace Pomelo
open Spec

variable {ord : List (SymbolId × SymbolId) → List (SymbolId × SymbolId)} {ds : List Decl} {t : Tables}

theorem symbols_foldl {α : Type} (f : Grammar → α → Grammar) (hf : ∀ g a, (f g a).symbols = g.symbols) : ∀ (l : List α) (g : Grammar), (l.foldl f g).symbols = g.symbols := by
  intro l
  induction l with
  | nil => intro g; rfl
  | cons s l ih => intro g; rw [List.foldl_cons, ih, hf]

theorem symbols_prepare (g : Grammar) (ord) : (g.prepare ord).symbols = g.sortSymbols.symbols := by
  rw [prepare_eq]
  unfold Grammar.addOptionals
  show (List.foldl Grammar.addOptional _ _).symbols = _
  rw [symbols_foldl Grammar.addOptional (fun g a => rfl)]
  have h1 : ∀ g : Grammar, g.addExtraToken.symbols = g.symbols := by
    intro g
    unfold Grammar.addExtraToken
    split
    · rfl
    · exact symbols_foldl _ (by intro g a; rfl) _ _
  rw [h1]
  unfold Grammar.indexed
  exact (assignIndices_keeps _ _ _).2.1

theorem symbols_automaton {g0 g : Grammar} {sts : List LState} (h : g0.automaton ord = .ok (g, sts)) : g.symbols = g0.sortSymbols.symbols := by
  obtain ⟨s⟩ := automaton_spec h
  have h1 : s.gN.symbols = g0.sortSymbols.symbols := by
    obtain ⟨_, h2, _⟩ := normalizeRules_spec s.norm
    rw [h2]
    exact symbols_prepare g0 ord
  have h2 : s.gF.symbols = s.gN.symbols := by
    rw [(findFirstSets_only s.first).1]
  rw [s.marked, ← h1, ← h2]
  unfold Grammar.markStart
  split <;> rfl

theorem proj_assignTypes {β : Type} (π : Symbol → β) (hπ : ∀ (b : Symbol) d n, π { b with dataType := d, dtNum := n } = π b) :
    ∀ {ss : List SymbolId} {g g' : Grammar} {ts ts' : List Ty}, g.assignTypes ts ss = .ok (g', ts') → ∀ x, π (g'.sym x) = π (g.sym x) := by
  intro ss
  induction ss with
  | nil => intro g g' ts ts' h x; cases h; rfl
  | cons s ss ih =>
    intro g g' ts ts' h x
    unfold Grammar.assignTypes at h
    split at h
    · exact ih h x
    · split at h
      · cases h
      · rw [ih h x]; exact proj_modifySym π (fun b => hπ b _ _) x
      · rw [ih h x]; exact proj_modifySym π (fun b => hπ b _ _) x

/-- The first part of the symbols: those that are terminals -/
theorem take_filter {α : Type} (p : α → Bool) : ∀ (l : List α) (n : Nat), (∀ k (hk : k < l.length), p l[k] = true ↔ k < n) → l.take n = l.filter p := by
  intro l
  induction l with
  | nil => intro n _; simp
  | cons a l ih =>
    intro n h
    have h0 := h 0 (by simp)
    cases n with
    | zero =>
      simp only [List.getElem_cons_zero, Nat.lt_irrefl, iff_false] at h0
      rw [List.filter_cons_of_neg h0, ← ih 0 (fun k hk => by have := h (k+1) (by simpa using hk); simpa using this)]
      simp
    | succ n =>
      simp only [List.getElem_cons_zero, Nat.zero_lt_succ, iff_true] at h0
      rw [List.filter_cons_of_pos h0, List.take_succ_cons, ih n (fun k hk => by have := h (k+1) (by simpa using hk); simpa using this)]

theorem filter_sorted (g : Grammar) : g.sortSymbols.symbols.filter (fun a => (g.sym a).kind = .terminal) = g.symbols.filter (fun a => (g.sym a).kind = .terminal) := by
  rw [sorted_symbols]
  simp only [List.filter_append, List.filter_filter]
  have h1 : ∀ k : SymKind, k ≠ .terminal → g.symbols.filter (fun a => decide ((g.sym a).kind = .terminal) && decide ((g.sym a).kind = k)) = [] := by
    intro k hk
    rw [List.filter_eq_nil_iff]
    intro a _ h
    simp only [Bool.and_eq_true, decide_eq_true_eq] at h
    exact hk (h.2.symm.trans h.1)
  rw [h1 .nonTerminal (by simp), h1 .multiTerminal (by simp)]
  simp

/-- The symbols of the tokens -/
theorem Bridge0.tokenSyms {g g0 : Grammar} {sts : List LState} (b : Bridge0 ord ds g) (hi : GInv g) (h0 : newFromDecls ds = .ok g0) (h1 : g0.automaton ord = .ok (g, sts)) :
    g.symbols.take g.numTerminals = (List.range b.gD.syms.length).filter (fun a => (b.gD.sym a).kind = .terminal) := by
  obtain ⟨gD', hp, hd, _, _, rfl⟩ := newFromDecls_spec h0
  have : gD' = b.gD := by have := b.parsed; rw [hp] at this; injection this
  subst this
  rw [take_filter (fun a => (g.sym a).kind = .terminal)]
  · rw [symbols_automaton h1]
    have hA : ∀ a ∈ (b.gD.pushSym { name := .dflt, kind := .nonTerminal }).sortSymbols.symbols,
        decide ((g.sym a).kind = .terminal) = decide (((b.gD.pushSym { name := .dflt, kind := .nonTerminal }).sym a).kind = .terminal) := by
      intro a ha
      have ha' : a ∈ (b.gD.pushSym { name := .dflt, kind := .nonTerminal }).symbols := mem_sortBy.1 ha
      have hr : (b.gD.pushSym { name := .dflt, kind := .nonTerminal }).symbols = List.range (b.gD.syms.length + 1) := by
        show b.gD.symbols ++ [b.gD.syms.length] = _
        rw [List.range_succ, hd.symbols]
      rw [hr, List.mem_range] at ha'
      rcases Nat.lt_succ_iff_lt_or_eq.1 ha' with h | h
      · rw [b.kind h, sym_pushSym_lt h]
      · subst h
        rw [sym_pushSym_last]
        obtain ⟨d, d1, d2, d3⟩ := hi.dflt
        have hdl : d = b.gD.syms.length := by
          by_contra hne
          have hlt : d < b.gD.syms.length := by rw [b.len] at d1; omega
          rw [b.name hlt] at d2
          exact hd.noDflt d hlt d2
        have hk := hi.kinds d d1
        rw [d2, hdl] at hk
        revert hk
        cases (g.sym b.gD.syms.length).kind <;> simp [kindOk]
    rw [List.filter_congr hA, filter_sorted]
    show (b.gD.symbols ++ [b.gD.syms.length]).filter _ = _
    rw [List.filter_append, hd.symbols]
    have e : List.filter (fun a => decide (((b.gD.pushSym { name := .dflt, kind := .nonTerminal }).sym a).kind = .terminal)) [b.gD.syms.length] = [] := by
      rw [List.filter_cons_of_neg (by rw [sym_pushSym_last]; simp)]; rfl
    rw [e, List.append_nil]
    apply List.filter_congr
    intro a ha
    rw [sym_pushSym_lt (List.mem_range.1 ha)]
  · intro k hk
    rw [decide_eq_true_eq]
    rw [hi.slen] at hk
    obtain ⟨i1, i2⟩ := hi.index k hk
    have : g.symbols.getD k 0 = g.symbols[k]'(by rw [hi.slen]; exact hk) := getD_of_lt _
    rw [this] at i1 i2
    rw [hi.term _ i1, i2]

theorem filterMap_range {g : Grammar} (p : Symbol → Bool) : ∀ n, n ≤ g.syms.length →
    ((List.range n).filter (fun a => p (g.sym a))).filterMap (fun a => (g.sym a).name.ident?) = ((g.syms.take n).filter p).filterMap (·.name.ident?) := by
  intro n
  induction n with
  | zero => intro _; rfl
  | succ n ih =>
    intro h
    have hn : n < g.syms.length := h
    rw [List.range_succ, List.filter_append, List.filterMap_append, ih (Nat.le_of_lt hn), List.take_succ, List.filter_append, List.filterMap_append]
    congr 1
    rw [List.getElem?_eq_getElem hn]
    have : g.sym n = g.syms[n] := syms_getD hn
    simp only [Option.toList_some, List.filter_cons, List.filter_nil, this]
    split
    · simp only [List.filterMap_cons, List.filterMap_nil, this]
    · rfl

theorem filterMap_filter' {α β : Type} (f : α → Option β) (p : α → Bool) (q : β → Bool) : ∀ (l : List α), (∀ a ∈ l, ∀ b, f a = some b → p a = q b) →
    (l.filter p).filterMap f = (l.filterMap f).filter q := by
  intro l
  induction l with
  | nil => intro _; rfl
  | cons a l ih =>
    intro h
    have ih := ih (fun a ha => h a (List.mem_cons_of_mem _ ha))
    have ha := h a (.head _)
    cases hf : f a with
    | none =>
      rw [List.filterMap_cons_none hf, ← ih]
      by_cases hp : p a = true
      · rw [List.filter_cons_of_pos hp, List.filterMap_cons_none hf]
      · rw [List.filter_cons_of_neg hp]
    | some b =>
      have := ha b hf
      rw [List.filterMap_cons_some hf]
      by_cases hp : p a = true
      · rw [List.filter_cons_of_pos hp, List.filterMap_cons_some hf, List.filter_cons_of_pos (by rw [← this]; exact hp), ih]
      · rw [List.filter_cons_of_neg hp, List.filter_cons_of_neg (by rw [← this]; exact hp), ih]

/-- A named symbol is a terminal if its name is that of a token, and it is not a class. -/
theorem BridgeP.terminal (b : BridgeP ord ds) {x : SymbolId} {i : Ident} (hx : x < b.gD.syms.length) (hn : (b.gD.sym x).name = .ident i) :
    (b.gD.sym x).kind = .terminal ↔ i.isTerminal = true ∧ isClass ds i = false := by
  have hk := b.dinv.kinds x hx
  have hc := (b.decl.sym b.dinv hx hn).2.1
  rw [hn] at hk
  rw [← Bool.not_eq_true, ← hc]
  revert hk
  cases i <;> cases (b.gD.sym x).kind <;> simp [kindOk, Ident.isTerminal]

theorem BridgeP.terminals (b : BridgeP ord ds) :
    (List.range b.gD.syms.length).filter (fun a => (b.gD.sym a).kind = .terminal) =
      0 :: ((List.range b.gD.syms.length).filter (fun a => (b.gD.sym a).kind = .terminal)).drop 1 ∧
    List.Forall₂ (fun x i => x < b.gD.syms.length ∧ (b.gD.sym x).name = .ident i ∧ i.isTerminal = true ∧ isClass ds i = false)
      (((List.range b.gD.syms.length).filter (fun a => (b.gD.sym a).kind = .terminal)).drop 1) (tokensOf ds) := by
  have h2 := b.dinv.two
  have hk0 : (b.gD.sym 0).kind = .terminal := by
    have := b.dinv.kinds 0 (by omega)
    rw [b.dinv.dollar] at this
    revert this
    cases (b.gD.sym 0).kind <;> simp [kindOk]
  obtain ⟨n, hn⟩ : ∃ n, b.gD.syms.length = n + 1 := ⟨b.gD.syms.length - 1, by omega⟩
  have e1 : (List.range b.gD.syms.length).filter (fun a => (b.gD.sym a).kind = .terminal) =
      0 :: ((List.range b.gD.syms.length).filter (fun a => (b.gD.sym a).kind = .terminal)).drop 1 := by
    rw [hn, List.range_succ_eq_map, List.filter_cons_of_pos (by simp [hk0])]; rfl
  refine ⟨e1, ?_⟩
  have hmem : ∀ x ∈ ((List.range b.gD.syms.length).filter (fun a => (b.gD.sym a).kind = .terminal)).drop 1,
      ∃ i, (b.gD.sym x).name.ident? = some i ∧ x < b.gD.syms.length ∧ (b.gD.sym x).name = .ident i ∧ i.isTerminal = true ∧ isClass ds i = false := by
    intro x hx
    have hxm : x ∈ (List.range b.gD.syms.length).filter (fun a => (b.gD.sym a).kind = .terminal) := List.mem_of_mem_drop hx
    have hx0 : x ≠ 0 := by
      rintro rfl
      have hnd : ((List.range b.gD.syms.length).filter (fun a => (b.gD.sym a).kind = .terminal)).Nodup := List.nodup_range.filter _
      rw [e1, List.nodup_cons] at hnd
      exact hnd.1 hx
    rw [List.mem_filter, List.mem_range] at hxm
    obtain ⟨hxl, hxk⟩ := hxm
    rw [decide_eq_true_eq] at hxk
    have hk := b.dinv.kinds x hxl
    cases hname : (b.gD.sym x).name with
    | ident i => exact ⟨i, rfl, hxl, rfl, (b.terminal hxl hname).1 hxk⟩
    | dollar =>
      exact absurd (b.dinv.names x 0 hxl (by omega) (hname.trans b.dinv.dollar.symm) (by rw [hname]; simp)) hx0
    | _ => rw [hname, hxk] at hk; simp [kindOk] at hk
  have htok : (((List.range b.gD.syms.length).filter (fun a => (b.gD.sym a).kind = .terminal)).drop 1).filterMap (fun a => (b.gD.sym a).name.ident?) = tokensOf ds := by
    have h3 : ((List.range b.gD.syms.length).filter (fun a => (b.gD.sym a).kind = .terminal)).filterMap (fun a => (b.gD.sym a).name.ident?) =
        (((List.range b.gD.syms.length).filter (fun a => (b.gD.sym a).kind = .terminal)).drop 1).filterMap (fun a => (b.gD.sym a).name.ident?) := by
      conv_lhs => rw [e1]
      rw [List.filterMap_cons_none (by rw [b.dinv.dollar]; rfl)]
    rw [← h3, filterMap_range (fun s => s.kind = .terminal) _ (Nat.le_refl _), List.take_length]
    rw [filterMap_filter' _ _ (fun i => i.isTerminal && !isClass ds i)]
    · exact idents_tokens b.parsed
    · intro s hs i hi
      obtain ⟨x, hx, rfl⟩ := List.getElem_of_mem hs
      have hsx : b.gD.sym x = b.gD.syms[x] := syms_getD hx
      have hname : (b.gD.sym x).name = .ident i := by
        rw [hsx]
        revert hi
        cases b.gD.syms[x].name <;> simp [SymName.ident?]
      have := b.terminal hx hname
      rw [hsx] at this
      rw [Bool.eq_iff_iff, decide_eq_true_eq, this]
      simp
  rw [← htok]
  generalize ((List.range b.gD.syms.length).filter (fun a => (b.gD.sym a).kind = .terminal)).drop 1 = l at hmem
  induction l with
  | nil => exact .nil
  | cons x l ih =>
    obtain ⟨i, h1, h2⟩ := hmem x (.head _)
    rw [List.filterMap_cons_some (f := fun a => (b.gD.sym a).name.ident?) h1]
    exact .cons h2 (ih (fun y hy => hmem y (List.mem_cons_of_mem _ hy)))

theorem map_eq_of_forall₂ {α β γ : Type} {R : α → β → Prop} {f : α → γ} {k : β → γ} (h : ∀ a b, R a b → f a = k b) :
    ∀ {l : List α} {m : List β}, List.Forall₂ R l m → l.map f = m.map k
  | _, _, .nil => rfl
  | _, _, .cons h1 h2 => by rw [List.map_cons, List.map_cons, h _ _ h1, map_eq_of_forall₂ h h2]

theorem filterMap_eq_of_forall₂ {α β γ : Type} {R : α → β → Prop} {f : α → Option γ} {k : β → Option γ} (h : ∀ a b, R a b → f a = k b) :
    ∀ {l : List α} {m : List β}, List.Forall₂ R l m → l.filterMap f = m.filterMap k
  | _, _, .nil => rfl
  | _, _, .cons h1 h2 => by rw [List.filterMap_cons, List.filterMap_cons, h _ _ h1, filterMap_eq_of_forall₂ h h2]

theorem Declared.attrsSym {g : Grammar} {ds : List Decl} (d : Declared g ds) (h : DInv g) {x : SymbolId} (hx : x < g.syms.length)
    {i : Ident} (hn : (g.sym x).name = .ident i) : (g.sym x).attributes = (typeAttrs ds i).getLast?.getD false := by
  rw [← d.attributes, obs_of_name h hx hn]; rfl

namespace CSpec
variable (s : CSpec ord ds t)

theorem apiOf : apiOf ord ds = .ok s.gen.gT.api := by
  unfold Pomelo.apiOf
  simp only [bind, Except.bind, pure, Except.pure]
  rw [s.decls]
  simp only [s.auto, s.gen.assign]

theorem tokenSyms (ho : OrdOk ord) (b : Bridge ord ds s.g) : List.Forall₂ (fun x i => x < b.gD.syms.length ∧ (b.gD.sym x).name = .ident i ∧ i.isTerminal = true ∧ isClass ds i = false)
    s.gen.gT.tokenSyms (tokensOf ds) := by
  unfold Grammar.tokenSyms
  rw [s.gen.shape.symbols, s.gen.shape.nterm, b.tokenSyms (s.ginv ho) s.decls s.auto]
  exact b.toBridgeP.terminals.2

theorem nameT (b : Bridge ord ds s.g) {x : SymbolId} (hx : x < b.gD.syms.length) : (s.gen.gT.sym x).name = (b.gD.sym x).name := by
  rw [s.gen.shape.name, b.name hx]

theorem attrsT (b : Bridge ord ds s.g) {x : SymbolId} {i : Ident} (hx : x < b.gD.syms.length) (hn : (b.gD.sym x).name = .ident i) :
    (s.gen.gT.sym x).attributes = (typeAttrs ds i).getLast?.getD false := by
  rw [proj_assignTypes Symbol.attributes (fun _ _ _ => rfl) s.gen.assign]
  have : (s.g.sym x).attributes = (b.gD.sym x).attributes := congrArg (·.2.2.2.2.2.2.2) (b.keep x hx)
  rw [this]
  exact b.decl.attrsSym b.dinv hx hn

theorem typeT (ho : OrdOk ord) (b : Bridge ord ds s.g) {x : SymbolId} {i : Ident} (hx : x < b.gD.syms.length) (hn : (b.gD.sym x).name = .ident i)
    (hc : isClass ds i = false) : (s.gen.gT.sym x).dataType = plainType ds i := by
  by_cases hw : wildcardOf ds = some i
  · have hwx := (b.wild_name hx hn).2 hw
    rw [(b.toBridge0.wildTag (s.ginv ho) s.gen.assign hx hwx).2, s.gen.wildT x hwx]
    unfold plainType
    rw [if_pos hw]
  · exact (b.toBridge0.plainTag' ho (s.ginv ho) s.gen.assign hx hn hc hw).1

end CSpec

end Pomelo
