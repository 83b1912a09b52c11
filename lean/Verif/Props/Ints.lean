import Verif.Proofs.Ints
import Verif.Props.Tables
/-!
# C37: table entries fit their integer types

`Verif/Spec/Ints.lean` has the ranges of the types and `LiteralsFit`.
-/

namespace Pomelo

open Spec

variable {ord : List (SymbolId × SymbolId) → List (SymbolId × SymbolId)} {ds : List Decl} {t : Tables}

/-- C37 in full, for sizes that can be counted in 32 bits -/
def C37_statement : Prop :=
  ∀ (ord : List (SymbolId × SymbolId) → List (SymbolId × SymbolId)), OrdOk ord → ∀ (ds : List Decl) (t : Tables), compile ord ds = .ok t →
    Countable t → LiteralsFit t

theorem inRange_signed {max : Nat} {x : Int} (h : max < 2 ^ 31) (hx : x ≤ max) (h0 : 0 ≤ x) : InRange (minimumSignedType max) x := by
  unfold minimumSignedType
  split
  · simp only [InRange]; omega
  · split
    · simp only [InRange]; omega
    · simp only [InRange]; omega

theorem inRange_unsigned {max : Nat} {x : Int} (h : max < 2 ^ 31) (hx : x ≤ max) (h0 : 0 ≤ x) : InRange (minimumUnsignedType max) x := by
  unfold minimumUnsignedType
  split
  · simp only [InRange]; omega
  · split
    · simp only [InRange]; omega
    · simp only [InRange]; omega

/-- The largest entries of the offset tables are what the code computes while it places the rows. -/
theorem CSpec.maxEntries (ho : OrdOk ord) (s : CSpec ord ds t) : maxOfst s.gen.p.tkn = maxEntry t.shiftOfst ∧ maxOfst s.gen.p.nt = maxEntry t.reduceOfst := by
  have hpi := pack_inv (s.rowsSorted ho) s.packed
  have key : ∀ k, ∀ x ∈ s.gen.p.ofs k, x.1 < (s.g.resortStates s.acts').length := by
    intro k x hx
    obtain ⟨ax, ha1, _, _, ha4⟩ := (hpi.keys k x.1).1 ⟨x.2, hx⟩
    rw [← ha4]; exact (mem_axSets.1 ha1).1
  exact ⟨by rw [s.gen.shiftOfst]; exact maxOfst_eq s.gen.shEq (hpi.nodup true) (key true),
    by rw [s.gen.reduceOfst]; exact maxOfst_eq s.gen.rdEq (hpi.nodup false) (key false)⟩

theorem forall₂_mem {α β : Type} {R : α → β → Prop} {l : List α} {l' : List β} (h : List.Forall₂ R l l') {b : β} (hb : b ∈ l') : ∃ a, R a b := by
  induction h with
  | nil => cases hb
  | cons h _ ih =>
    rcases List.mem_cons.1 hb with rfl | hb
    · exact ⟨_, h⟩
    · exact ih hb

/-- All tables but those of offsets; and the offsets lie between the negated number of symbols and the value
that the type was chosen for. -/
theorem C37_tables (ho : OrdOk ord) (hc : compile ord ds = .ok t) (hs : Countable t) :
    (∀ x ∈ t.action, InRange .i32 x) ∧ (∀ x ∈ t.lookahead, InRange t.codeType x) ∧ (∀ x ∈ t.ruleInfo, InRange t.codeType x) ∧
    InRange t.codeType t.wildcard ∧ (∀ x ∈ t.fallback, InRange .i32 x) ∧ (∀ x ∈ t.dflt, InRange t.actionType x) ∧
    (∀ x ∈ t.shiftOfst, - (t.noCode : Int) ≤ x ∧ x ≤ maxEntry t.shiftOfst ∧ maxEntry t.shiftOfst < 2 ^ 31) ∧
    (∀ x ∈ t.reduceOfst, - (t.noCode : Int) ≤ x ∧ x ≤ maxEntry t.reduceOfst ∧ maxEntry t.reduceOfst < 2 ^ 31) := by
  obtain ⟨s⟩ := compile_cspec hc
  have hi := s.ginv ho
  have hn := s.symbols ho
  obtain ⟨n1, n2⟩ := s.nStates ho
  obtain ⟨c1, c2, c3⟩ := hs
  have hrl : s.gen.gT.rules.length = s.g.rules.length := s.gen.shape.rlen
  have hsl : (s.g.resortStates s.acts').length = s.sts.length := by rw [resort_len, (s.len' ho).1]
  have hcell : ∀ c ∈ s.gen.p.tab, ∀ a, c = some a → a.la < s.g.syms.length ∧ a.act ≤ s.sts.length + s.g.rules.length + 1 := by
    intro c hcm a ha
    subst ha
    obtain ⟨j, hj⟩ := List.mem_iff_getElem?.1 hcm
    refine s.cell ho (j := j) ?_
    unfold ActTab.at
    rw [if_neg (by omega), List.getD_eq_getElem?_getD, Int.toNat_natCast, hj]; rfl
  have hcode : ∀ {n : Nat}, n < s.g.syms.length → InRange t.codeType n := by
    intro n hl
    exact inRange_signed c1 (by rw [hn]; omega) (by omega)
  refine ⟨?_, ?_, ?_, ?_, ?_, ?_, ?_, ?_⟩
  · intro x hx
    rw [s.gen.action] at hx
    obtain ⟨c, hcm, rfl⟩ := List.mem_map.1 hx
    simp only [InRange]
    cases c with
    | none => simp only [hsl, hrl]; omega
    | some a => have := (hcell _ hcm a rfl).2; simp only; omega
  · intro x hx
    rw [s.gen.lookahead] at hx
    obtain ⟨c, hcm, rfl⟩ := List.mem_map.1 hx
    cases c with
    | none => exact hcode (by show s.gen.gT.defaultIndex < _; rw [s.gen.shape.dflt]; exact hi.nterm.2.2)
    | some a => exact hcode (hcell _ hcm a rfl).1
  · intro x hx
    rw [s.gen.ruleInfo] at hx
    obtain ⟨r, _, rfl⟩ := List.mem_map.1 hx
    exact hcode (by rw [s.gen.shape.index]; exact hi.index_any _)
  · rw [s.gen.wildcard]
    split
    · exact hcode (by rw [s.gen.shape.index]; exact hi.index_any _)
    · exact hcode (Nat.lt_of_lt_of_le (by decide) hi.two)
  · intro x hx
    obtain ⟨j, hj⟩ := List.mem_iff_getElem?.1 hx
    have hgt : t.fallback.getD j 0 = x := by rw [List.getD_eq_getElem?_getD, hj]; rfl
    have hlt : x < s.g.syms.length := by
      have hfb := s.gen.fbEq
      unfold Grammar.fallbackTable at hfb
      rw [s.gen.fallback] at hx
      obtain ⟨p, hp⟩ := forall₂_mem (mapM_except_forall₂ hfb) hx
      split at hp
      · cases hp; exact Nat.lt_of_lt_of_le (by decide) hi.two
      · split at hp
        · cases hp; rw [s.gen.shape.index]; exact hi.index_any _
        · cases hp
    simp only [InRange]
    omega
  · intro x hx
    have hle : x ≤ t.nState + t.nRule := by
      obtain ⟨j, hj⟩ := List.mem_iff_getElem?.1 hx
      have hd : t.dfltAct j = .ok x := by unfold Tables.dfltAct; rw [hj]
      rcases s.dflt_harmless ho hd with h | h | ⟨r, h1, h2, _⟩ <;> omega
    exact inRange_unsigned c2 (by omega) (by omega)
  · intro x hx
    have hlt : (maxEntry t.shiftOfst : Int) < 2 ^ 31 := by
      rcases maxEntry_cases t.shiftOfst with h | h
      · rw [h]; decide
      · rw [s.gen.shiftOfst] at h
        have := (s.offset ho true s.gen.shEq h).2
        rw [s.gen.shiftOfst]; omega
    refine ⟨?_, le_maxEntry hx, by omega⟩
    rw [s.gen.shiftOfst] at hx
    exact (s.offset ho true s.gen.shEq hx).1
  · intro x hx
    have hlt : (maxEntry t.reduceOfst : Int) < 2 ^ 31 := by
      rcases maxEntry_cases t.reduceOfst with h | h
      · rw [h]; decide
      · rw [s.gen.reduceOfst] at h
        have := (s.offset ho false s.gen.rdEq h).2
        rw [s.gen.reduceOfst]; omega
    refine ⟨?_, le_maxEntry hx, by omega⟩
    rw [s.gen.reduceOfst] at hx
    exact (s.offset ho false s.gen.rdEq hx).1

theorem inRange_offset {max n : Nat} {x : Int} (h : max < 2 ^ 31) (hx : x ≤ max) (h0 : - (n : Int) ≤ x)
    (hn : n ≤ 128 ∨ (128 ≤ max ∧ n ≤ 32768) ∨ (32768 ≤ max ∧ n ≤ 2 ^ 31)) : InRange (minimumSignedType max) x := by
  unfold minimumSignedType
  split
  · simp only [InRange]; omega
  · split
    · simp only [InRange]; omega
    · simp only [InRange]; omega

/-- The negated number of symbols is in the range of the type that the offsets ask for. -/
def RoomBelow (t : Tables) (max : Nat) : Prop := t.noCode ≤ 128 ∨ (128 ≤ max ∧ t.noCode ≤ 32768) ∨ (32768 ≤ max ∧ t.noCode ≤ 2 ^ 31)

/-- C37: every literal fits, if there are at most 128 symbols, or if the largest offsets ask for a type that also has
room for the negated number of symbols. Missing: other grammars, where it is false: `C37_false`. -/
theorem C37_partial (ho : OrdOk ord) (hc : compile ord ds = .ok t) (hs : Countable t) (h1 : RoomBelow t (maxEntry t.shiftOfst))
    (h2 : RoomBelow t (maxEntry t.reduceOfst)) : LiteralsFit t := by
  obtain ⟨a1, a2, a3, a4, a5, a6, a7, a8⟩ := C37_tables ho hc hs
  exact ⟨a1, a2, a3, a4, a5, a6, fun x hx => inRange_offset (a7 x hx).2.2 (a7 x hx).2.1 (a7 x hx).1 h1,
    fun x hx => inRange_offset (a8 x hx).2.2 (a8 x hx).2.1 (a8 x hx).1 h2⟩

/-- C37 for grammars with at most 128 symbols (tokens, nonterminals and classes, with `$`, `error` and the default) -/
theorem C37_small_partial (ho : OrdOk ord) (hc : compile ord ds = .ok t) (hs : Countable t) (hn : t.noCode ≤ 128) : LiteralsFit t :=
  C37_partial ho hc hs (.inl hn) (.inl hn)

namespace Intex
open Tests (U L s r)
open Examples

/-- `s ::= A; %left T0 .. T127;`: the row of the nonterminals starts at -130 -/
def wide : List Decl := [r (L 0) [s (U 1000)], .assoc .left ((List.range 128).map U)]

/-- Decidable version of `Countable` -/
def countableB (t : Tables) : Bool := decide (t.noCode < 2 ^ 31) && decide (t.nState + t.nRule + 5 < 2 ^ 31) && decide (t.action.length < 2 ^ 31)

theorem countableB_iff {t : Tables} (h : countableB t = true) : Countable t := by
  simp only [countableB, Bool.and_eq_true, decide_eq_true_eq] at h
  exact ⟨h.1.1, h.1.2, h.2⟩

/-- A declared token with a precedence -/
def declared (p : Precedence) (i : Ident) : Symbol := { name := .ident i, kind := .terminal, precedence := some p }

theorem modify_last {α : Type} (a : α) (f : α → α) : ∀ l : List α, (l ++ [a]).modify l.length f = l ++ [f a]
  | [] => rfl
  | b :: l => by
    show b :: (l ++ [a]).modify l.length f = _
    rw [modify_last a f l]; rfl

theorem declAssoc_fresh (p : Precedence) : ∀ {ids : List Ident} {g : Grammar}, g.symbols = List.range g.syms.length → ids.Nodup → (∀ i ∈ ids, i.isTerminal = true) →
    (∀ i ∈ ids, ∀ b ∈ g.syms, b.name ≠ .ident i) →
    g.declAssoc p ids = .ok { g with syms := g.syms ++ ids.map (declared p), symbols := List.range (g.syms.length + ids.length) } := by
  intro ids
  induction ids with
  | nil => intro g hg _ _ _; simp [Grammar.declAssoc, ← hg]
  | cons i ids ih =>
    intro g hg hn ht hf
    have hfind : g.symbolFind (.ident i) = none := by
      rw [symbolFind_none hg]
      intro x hx
      refine hf i (by simp) _ ?_
      unfold Grammar.sym
      rw [List.getD_eq_getElem?_getD, List.getElem?_eq_getElem hx]
      exact List.getElem_mem hx
    have hnew : g.symbolNew (.ident i) .terminal =
        ({ g with syms := g.syms ++ [{ name := .ident i, kind := .terminal }], symbols := g.symbols ++ [g.syms.length] }, g.syms.length) := by
      unfold Grammar.symbolNew
      simp [hfind]
    rw [Grammar.declAssoc, ht i (by simp), hnew]
    have hsym : (Grammar.sym { g with syms := g.syms ++ [{ name := .ident i, kind := .terminal }], symbols := g.symbols ++ [g.syms.length] } g.syms.length) =
        { name := .ident i, kind := .terminal } := by
      unfold Grammar.sym
      simp
    simp only [Bool.not_true, Bool.false_eq_true, if_false, hsym]
    have hmod : Grammar.modifySym { g with syms := g.syms ++ [{ name := .ident i, kind := .terminal }], symbols := g.symbols ++ [g.syms.length] } g.syms.length
        (fun b => { b with precedence := some p }) = { g with syms := g.syms ++ [declared p i], symbols := List.range (g.syms.length + 1) } := by
      unfold Grammar.modifySym
      have : (g.syms ++ [({ name := .ident i, kind := .terminal } : Symbol)]).modify g.syms.length (fun b => { b with precedence := some p }) = g.syms ++ [declared p i] := by
        rw [modify_last]; rfl
      simp only [this, hg, List.range_succ]
    rw [hmod, ih (by simp) (List.nodup_cons.1 hn).2 (fun j hj => ht j (by simp [hj]))]
    · simp [Nat.add_assoc, Nat.add_comm 1]
    · intro j hj b hb
      simp only [List.mem_append, List.mem_singleton] at hb
      rcases hb with hb | rfl
      · exact hf j (by simp [hj]) b hb
      · intro e
        simp only [declared, SymName.ident.injEq] at e
        exact (List.nodup_cons.1 hn).1 (e ▸ hj)

/-- After `s ::= A` and `%left` -/
def before : Grammar :=
  match Grammar.initial.parseDecls [r (L 0) [s (U 1000)]] with
  | .ok g => { g with prec := g.prec + 1 }
  | .error _ => default

/-- The declared grammar -/
def wideG : Grammar :=
  { before with
    syms := before.syms ++ ((List.range 128).map U).map (declared ⟨1, .left⟩) ++ [{ name := .dflt, kind := .nonTerminal }]
    symbols := List.range (before.syms.length + ((List.range 128).map U).length) ++
      [(before.syms ++ ((List.range 128).map U).map (declared ⟨1, .left⟩)).length] }

/-- The tables of a declared grammar -/
def built (g : Grammar) : Tables :=
  match g.build id with
  | .ok t => t
  | .error _ => default

/-- A declared grammar of which the literals do not fit -/
def badB (g : Grammar) : Bool :=
  (match g.build id with | .ok _ => true | .error _ => false) && countableB (built g) && decide (-130 ∈ (built g).reduceOfst) &&
    decide ((built g).reduceOfstType = .i8)

theorem badB_iff {ds : List Decl} {g : Grammar} (hd : newFromDecls ds = .ok g) (h : badB g = true) :
    ∃ t, compile id ds = .ok t ∧ Countable t ∧ ¬ LiteralsFit t := by
  unfold badB at h
  simp only [Bool.and_eq_true, decide_eq_true_eq] at h
  obtain ⟨⟨⟨h1, h2⟩, h3⟩, h4⟩ := h
  refine ⟨built g, ?_, countableB_iff h2, fun hl => ?_⟩
  · have hc : compile id ds = g.build id := by
      unfold compile
      rw [hd]; rfl
    rw [hc]
    unfold built
    split at h1
    · rename_i hb; rw [hb]
    · cases h1
  · have := hl.reduceOfst _ h3
    rw [h4] at this
    simp only [InRange] at this
    omega

theorem before_names : before.syms.map (·.name) = [.dollar, .ident .error, .ident (L 0), .ident (U 1000)] := by decide +kernel
theorem before_rules : before.rules.isEmpty = false := by decide +kernel
theorem before_symbols : before.symbols = List.range before.syms.length := by decide +kernel
theorem before_mem {b : Symbol} (h : b ∈ before.syms) : b.name = .dollar ∨ b.name = .ident .error ∨ b.name = .ident (L 0) ∨ b.name = .ident (U 1000) := by
  have : b.name ∈ before.syms.map (·.name) := List.mem_map_of_mem h
  rw [before_names] at this
  simpa using this

theorem before_ok : (match Grammar.initial.parseDecls [r (L 0) [s (U 1000)]] with | .ok _ => true | .error _ => false) = true := by decide +kernel
theorem before_prec : before.prec = 1 := by decide +kernel

theorem parse_two (ids : List Ident) : Grammar.initial.parseDecls [r (L 0) [s (U 1000)], .assoc .left ids] = before.declAssoc ⟨1, .left⟩ ids := by
  have h1 := before_ok
  have h2 := before_prec
  unfold before at h2 ⊢
  rw [Grammar.parseDecls] at h1 h2 ⊢
  cases hd : Grammar.initial.parseOneDecl (r (L 0) [s (U 1000)]) with
  | error e => rw [hd] at h1; simp at h1
  | ok g =>
    rw [hd] at h2
    simp only [hd, Grammar.parseDecls] at h2 ⊢
    rw [Grammar.parseOneDecl]
    simp only [h2]
    cases Grammar.declAssoc { g with prec := 1 } ⟨1, .left⟩ ids <;> rfl

/-- The symbol of an unused name is new. -/
theorem symbolNew_fresh {g : Grammar} {n : SymName} (hg : g.symbols = List.range g.syms.length) (hn : n ≠ .anon) (hf : ∀ b ∈ g.syms, b.name ≠ n) (k : SymKind) :
    (g.symbolNew n k).1 = { g with syms := g.syms ++ [{ name := n, kind := k }], symbols := g.symbols ++ [g.syms.length] } := by
  have : g.symbolFind n = none := by
    rw [symbolFind_none hg]
    intro x hx
    refine hf _ ?_
    unfold Grammar.sym
    rw [List.getD_eq_getElem?_getD, List.getElem?_eq_getElem hx]
    exact List.getElem_mem hx
  unfold Grammar.symbolNew
  simp [hn, this]

/-- After some declarations, a last one with new tokens -/
theorem newFromDecls_assoc {ds : List Decl} {g : Grammar} {ids : List Ident} (h : Grammar.initial.parseDecls ds = g.declAssoc ⟨1, .left⟩ ids)
    (hg : g.symbols = List.range g.syms.length) (hn : ids.Nodup) (ht : ∀ i ∈ ids, i.isTerminal = true) (hf : ∀ i ∈ ids, ∀ b ∈ g.syms, b.name ≠ .ident i)
    (hd : ∀ b ∈ g.syms, b.name ≠ .dflt) (hr : g.rules.isEmpty = false) :
    newFromDecls ds = .ok { g with
      syms := g.syms ++ ids.map (declared ⟨1, .left⟩) ++ [{ name := .dflt, kind := .nonTerminal }]
      symbols := List.range (g.syms.length + ids.length) ++ [(g.syms ++ ids.map (declared ⟨1, .left⟩)).length] } := by
  unfold newFromDecls
  rw [h, declAssoc_fresh _ hg hn ht hf]
  simp only
  rw [symbolNew_fresh (by simp) (by simp)]
  · simp only [hr, Bool.false_eq_true, if_false]
  · intro b hb
    rcases List.mem_append.1 hb with hb | hb
    · exact hd b hb
    · obtain ⟨i, _, rfl⟩ := List.mem_map.1 hb
      simp [declared]

theorem wide_decls : newFromDecls wide = .ok wideG := by
  refine newFromDecls_assoc (parse_two ((List.range 128).map U)) before_symbols (List.nodup_range.map (fun a b h => by simpa [U] using h)) ?_ ?_ ?_ before_rules
  · intro i hi
    obtain ⟨n, _, rfl⟩ := List.mem_map.1 hi
    rfl
  · intro i hi b hm e
    obtain ⟨n, hn, rfl⟩ := List.mem_map.1 hi
    have hn := List.mem_range.1 hn
    rcases before_mem hm with h | h | h | h <;> rw [e] at h <;> simp [U, L] at h
    omega
  · intro b hm e
    rcases before_mem hm with h | h | h | h <;> rw [e] at h <;> cases h

theorem wide_bad : badB wideG = true := by decide +kernel

end Intex

open Intex in
/-- C37 fails: with 128 unused tokens `YY_REDUCE_OFST` is an array of `i8` with the entry -130. -/
theorem C37_false : ¬ C37_statement := by
  intro h
  obtain ⟨t, h1, h2, h3⟩ := badB_iff wide_decls wide_bad
  exact h3 (h id OrdOk.id wide t h1 h2)

namespace Intex
open Tests (U L s r)
open Examples

-- few symbols
example : LiteralsFit (tablesOf Tests.optional) :=
  C37_small_partial OrdOk.id (compiles_iff (by decide +kernel)) (countableB_iff (by decide +kernel)) (by decide +kernel)

end Intex

end Pomelo
