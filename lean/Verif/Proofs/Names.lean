import Verif.Proofs.DeclGlob
import Verif.Spec.Exchange
/-! # The names in the grammar are those written -/

namespace Pomelo

open Spec

/-- There is a symbol of this name. -/
def Grammar.has (g : Grammar) (i : Ident) : Prop := ∃ b ∈ g.syms, b.name = .ident i

theorem has_iff {g : Grammar} {i : Ident} : g.has i ↔ ∃ s, s < g.syms.length ∧ (g.sym s).name = .ident i := by
  unfold Grammar.has
  constructor
  · rintro ⟨b, hb, hn⟩
    obtain ⟨s, hs, rfl⟩ := List.getElem_of_mem hb
    exact ⟨s, hs, by simpa [Grammar.sym, List.getElem?_eq_getElem hs] using hn⟩
  · rintro ⟨s, hs, hn⟩
    refine ⟨g.syms[s], List.getElem_mem hs, ?_⟩
    simpa [Grammar.sym, List.getElem?_eq_getElem hs] using hn

theorem has_modify {g : Grammar} {s : SymbolId} {f : Symbol → Symbol} (hn : ∀ b, (f b).name = b.name) (i : Ident) :
    (g.modifySym s f).has i ↔ g.has i := by
  rw [has_iff, has_iff]
  simp only [length_modifySym, proj_modifySym Symbol.name hn]

theorem has_congr {g g' : Grammar} (h : g'.syms = g.syms) (i : Ident) : g'.has i ↔ g.has i := by
  unfold Grammar.has; rw [h]

/-- The invariant needed here: symbols are numbered in the order of creation. -/
def Grammar.Num (g : Grammar) : Prop := g.symbols = List.range g.syms.length

theorem Grammar.Num.symbolNew {g : Grammar} (h : g.Num) (n : SymName) (k : SymKind) : (g.symbolNew n k).1.Num := by
  rcases symbolNew_cases h n k with ⟨s, _, _, _, he⟩ | ⟨_, he⟩ <;> rw [he] <;> unfold Grammar.Num
  · rw [length_modifySym]; exact h
  · rw [length_pushSym, List.range_succ, ← show g.symbols = _ from h]; rfl

theorem Grammar.Num.modify {g : Grammar} (h : g.Num) (s : SymbolId) (f : Symbol → Symbol) : (g.modifySym s f).Num := by
  unfold Grammar.Num; rw [length_modifySym]; exact h

theorem has_symbolNew {g : Grammar} (h : g.Num) (n : SymName) (k : SymKind) (i : Ident) :
    (g.symbolNew n k).1.has i ↔ g.has i ∨ n = .ident i := by
  rcases symbolNew_cases h n k with ⟨s, hs, hn, _, he⟩ | ⟨_, he⟩ <;> rw [he]
  · rw [has_modify (fun b => by rfl)]
    constructor
    · exact .inl
    · rintro (h1 | rfl)
      · exact h1
      · exact has_iff.2 ⟨s, hs, hn⟩
  · unfold Grammar.has Grammar.pushSym
    simp only [List.mem_append, List.mem_singleton]
    constructor
    · rintro ⟨b, hb | rfl, hn⟩
      · exact .inl ⟨b, hb, hn⟩
      · exact .inr hn
    · rintro (⟨b, hb, hn⟩ | hn)
      · exact ⟨b, .inl hb, hn⟩
      · exact ⟨_, .inr rfl, hn⟩

theorem has_symbolNew' {g : Grammar} (h : g.Num) (j : Ident) (k : SymKind) (i : Ident) :
    (g.symbolNew (.ident j) k).1.has i ↔ g.has i ∨ i = j := by
  rw [has_symbolNew h, SymName.ident.injEq, eq_comm (a := j)]

theorem has_declTokens {e : GErr} : ∀ {ids : List Ident} {g g' : Grammar} {ss : List SymbolId}, g.Num →
    g.declTokens e ids = .ok (g', ss) → g'.Num ∧ ∀ i, g'.has i ↔ g.has i ∨ i ∈ ids := by
  intro ids
  induction ids with
  | nil => intro g g' ss h he; cases he; exact ⟨h, by simp⟩
  | cons id ids ih =>
    intro g g' ss h he
    unfold Grammar.declTokens at he
    split at he
    · cases he
    · simp only at he
      split at he
      · rename_i g2 ss' h2
        cases he
        obtain ⟨i1, i2⟩ := ih (h.symbolNew _ _) h2
        refine ⟨i1, fun i => ?_⟩
        rw [i2, has_symbolNew' h, List.mem_cons, or_assoc]
      · cases he

theorem has_declAssoc {p : Precedence} : ∀ {ids : List Ident} {g g' : Grammar}, g.Num →
    g.declAssoc p ids = .ok g' → g'.Num ∧ ∀ i, g'.has i ↔ g.has i ∨ i ∈ ids := by
  intro ids
  induction ids with
  | nil => intro g g' h he; cases he; exact ⟨h, by simp⟩
  | cons id ids ih =>
    intro g g' h he
    unfold Grammar.declAssoc at he
    split at he
    · cases he
    · simp only at he
      split at he
      · cases he
      · obtain ⟨i1, i2⟩ := ih ((h.symbolNew _ _).modify _ _) he
        refine ⟨i1, fun i => ?_⟩
        rw [i2, has_modify (fun _ => by rfl), has_symbolNew' h, List.mem_cons, or_assoc]

theorem has_setFallbacks {f : SymbolId} : ∀ {ss : List SymbolId} {g g' : Grammar}, g.Num →
    g.setFallbacks f ss = .ok g' → g'.Num ∧ ∀ i, g'.has i ↔ g.has i := by
  intro ss
  induction ss with
  | nil => intro g g' h he; cases he; exact ⟨h, fun _ => Iff.rfl⟩
  | cons s ss ih =>
    intro g g' h he
    unfold Grammar.setFallbacks at he
    split at he
    · cases he
    · obtain ⟨i1, i2⟩ := ih (g := { g.modifySym s (fun b => { b with fallback := some f }) with hasFallback := true }) (h.modify s _) he
      refine ⟨i1, fun i => ?_⟩
      rw [i2, ← has_modify (g := g) (s := s) (f := fun b => { b with fallback := some f }) (fun _ => rfl)]
      exact has_congr rfl i

theorem has_declClass {tk : SymbolId} : ∀ {ids : List Ident} {g g' : Grammar}, g.Num →
    g.declClass tk ids = .ok g' → g'.Num ∧ ∀ i, g'.has i ↔ g.has i ∨ i ∈ ids := by
  intro ids
  induction ids with
  | nil => intro g g' h he; cases he; exact ⟨h, by simp⟩
  | cons id ids ih =>
    intro g g' h he
    unfold Grammar.declClass at he
    split at he
    · cases he
    · simp only at he
      obtain ⟨i1, i2⟩ := ih ((h.symbolNew _ _).modify _ _) he
      refine ⟨i1, fun i => ?_⟩
      rw [i2, has_modify (fun _ => by rfl), has_symbolNew' h, List.mem_cons, or_assoc]

theorem has_declElem {g g' : Grammar} {e : RhsElem} {x : RhsSym} (h : g.Num) (he : g.declElem e = .ok (g', x)) :
    g'.Num ∧ ∀ i, g'.has i ↔ g.has i ∨ i ∈ e.toks := by
  unfold Grammar.declElem at he
  split at he
  · rename_i tok htoks
    simp only at he
    split at he
    · cases he
    · rename_i k _
      have h1 := h.symbolNew (.ident tok) k
      have h2 := has_symbolNew' h tok k
      rw [htoks]
      simp only [List.mem_singleton]
      split at he
      · split at he
        · cases he; exact ⟨h1, h2⟩
        · cases he
          refine ⟨h1.symbolNew _ _, fun i => ?_⟩
          rw [← h2]
          refine (has_congr (g := ((g.symbolNew (.ident tok) k).1.symbolNew (.opt (g.symbolNew (.ident tok) k).1.optionals.length) .nonTerminal).1) rfl i).trans ?_
          rw [has_symbolNew h1]
          simp
      · cases he; exact ⟨h1, h2⟩
  · simp only at he
    split at he
    · cases he
    · rename_i g2 ss h2
      cases he
      obtain ⟨i1, i2⟩ := has_declTokens (h.symbolNew _ _) h2
      refine ⟨i1.modify _ _, fun i => ?_⟩
      rw [has_modify (fun _ => by rfl), i2, has_symbolNew h]
      simp

theorem has_declRhs : ∀ {es : List RhsElem} {g g' : Grammar} {xs : List RhsSym}, g.Num → g.declRhs es = .ok (g', xs) →
    g'.Num ∧ ∀ i, g'.has i ↔ g.has i ∨ i ∈ es.flatMap (·.toks) := by
  intro es
  induction es with
  | nil => intro g g' xs h he; cases he; exact ⟨h, by simp⟩
  | cons e es ih =>
    intro g g' xs h he
    unfold Grammar.declRhs at he
    split at he
    · cases he
    · rename_i g1 x h1
      split at he
      · cases he
      · rename_i g2 xs' h2
        cases he
        obtain ⟨i1, i2⟩ := has_declElem h h1
        obtain ⟨j1, j2⟩ := ih i1 h2
        refine ⟨j1, fun i => ?_⟩
        rw [j2, i2, List.flatMap_cons, List.mem_append, or_assoc]

theorem has_createRule {g : Grammar} (h : g.Num) (l : SymbolId) (rs : List RhsSym) (c : Option Code) (p : Option SymbolId) :
    (g.createRule l rs c p).Num ∧ ∀ i, (g.createRule l rs c p).has i ↔ g.has i := by
  unfold Grammar.createRule
  simp only
  refine ⟨Grammar.Num.modify (g := { g with rules := _ }) h _ _, fun i => ?_⟩
  rw [has_modify (fun _ => by rfl)]
  exact has_congr rfl i

/-- The names a declaration mentions -/
def mentions : Decl → List Ident
  | .type _ i _ => [i]
  | .assoc _ ids => ids
  | .startSymbol i => [i]
  | .fallback f ids => f :: ids
  | .wildcard i => [i]
  | .tokenClass t ids => t :: ids
  | .rule l rhs _ p => l :: (rhs.flatMap (·.toks) ++ p.toList)
  | _ => []

theorem has_parseOneDecl {g g' : Grammar} {d : Decl} (h : g.Num) (he : g.parseOneDecl d = .ok g') :
    g'.Num ∧ ∀ i, g'.has i ↔ g.has i ∨ i ∈ mentions d := by
  cases d with
  | type a id ty =>
    unfold Grammar.parseOneDecl at he
    simp only at he
    split at he
    · cases he
    · split at he
      · cases he
      · cases he
        refine ⟨(h.symbolNew _ _).modify _ _, fun i => ?_⟩
        rw [has_modify (fun _ => by rfl), has_symbolNew' h]
        simp [mentions]
  | assoc a ids =>
    obtain ⟨h1, h2⟩ := has_declAssoc (g := { g with prec := g.prec + 1 }) h he
    exact ⟨h1, fun i => by rw [h2]; exact Iff.rfl⟩
  | startSymbol id =>
    unfold Grammar.parseOneDecl at he
    simp only at he
    split at he
    · cases he
    · split at he
      · cases he
      · cases he
        refine ⟨h.symbolNew _ _, fun i => ?_⟩
        have := has_symbolNew' h id .nonTerminal i
        simpa [mentions, Grammar.has] using this
  | wildcard id =>
    unfold Grammar.parseOneDecl at he
    simp only at he
    split at he
    · cases he
    · split at he
      · cases he
      · cases he
        refine ⟨h.symbolNew _ _, fun i => ?_⟩
        have := has_symbolNew' h id .terminal i
        simpa [mentions, Grammar.has] using this
  | fallback f ids =>
    unfold Grammar.parseOneDecl at he
    simp only at he
    split at he
    · cases he
    · rename_i g1 ss h1
      split at he
      · cases he
      · split at he
        · cases he
        · obtain ⟨i1, i2⟩ := has_declTokens h h1
          obtain ⟨j1, j2⟩ := has_setFallbacks (i1.symbolNew _ _) he
          refine ⟨j1, fun i => ?_⟩
          rw [j2, has_symbolNew' i1, i2]
          simp only [mentions, List.mem_cons]
          tauto
  | tokenClass t ids =>
    unfold Grammar.parseOneDecl at he
    simp only at he
    split at he
    · cases he
    · obtain ⟨i1, i2⟩ := has_declClass (h.symbolNew _ _) he
      refine ⟨i1, fun i => ?_⟩
      rw [i2, has_symbolNew' h]
      simp only [mentions, List.mem_cons, or_assoc]
  | rule l rhs c p =>
    unfold Grammar.parseOneDecl at he
    simp only at he
    split at he
    · cases he
    · split at he
      · cases he
      · rename_i g1 rs h1
        obtain ⟨i1, i2⟩ := has_declRhs (h.symbolNew _ _) h1
        cases p with
        | none =>
          cases he
          obtain ⟨j1, j2⟩ := has_createRule i1 (g.symbolNew (.ident l) .nonTerminal).2 rs (c.map Code.user) none
          refine ⟨j1, fun i => ?_⟩
          rw [j2, i2, has_symbolNew' h]
          simp only [mentions, List.mem_cons, List.mem_append, Option.toList_none, List.not_mem_nil, or_false, or_assoc]
        | some id =>
          simp only at he
          split at he
          · cases he
          · cases he
            obtain ⟨j1, j2⟩ := has_createRule (i1.symbolNew (.ident id) .terminal) (g.symbolNew (.ident l) .nonTerminal).2 rs (c.map Code.user)
              (some (g1.symbolNew (.ident id) .terminal).2)
            refine ⟨j1, fun i => ?_⟩
            rw [j2, has_symbolNew' i1, i2, has_symbolNew' h]
            simp only [mentions, List.mem_cons, List.mem_append, Option.toList_some, List.not_mem_nil, or_false, or_assoc]
  | «module» => cases he; exact ⟨h, by simp [mentions]⟩
  | «include» => cases he; exact ⟨h, by simp [mentions]⟩
  | verbose => cases he; exact ⟨h, by simp [mentions]⟩
  | _ =>
    unfold Grammar.parseOneDecl at he
    simp only at he
    split at he
    · cases he
    · cases he
      exact ⟨h, fun i => by simp [mentions, Grammar.has]⟩

theorem has_parseDecls : ∀ {ds : List Decl} {g g' : Grammar}, g.Num → g.parseDecls ds = .ok g' →
    ∀ i, g'.has i ↔ g.has i ∨ ∃ d ∈ ds, i ∈ mentions d := by
  intro ds
  induction ds with
  | nil => intro g g' h he i; cases he; simp
  | cons d ds ih =>
    intro g g' h he i
    unfold Grammar.parseDecls at he
    split at he
    · cases he
    · rename_i g1 h1
      obtain ⟨i1, i2⟩ := has_parseOneDecl h h1
      rw [ih i1 he, i2, List.exists_mem_cons_iff, or_assoc]

end Pomelo
