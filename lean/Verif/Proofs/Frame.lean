import Verif.Proofs.Order
/-!
# What does not depend on the order of the optional symbols

The frame of a grammar is all of it but the rules, the lists of rules of the symbols and the first sets.
-/

namespace Pomelo
open Spec

/-- A symbol without its rules and its first set -/
def Symbol.frame (b : Symbol) : Symbol := { b with rules := [], firstSet := [], lambda := false }

/-- A grammar without its symbols and its rules -/
def Grammar.hull (g : Grammar) : Grammar := { g with syms := [], rules := [] }

/-- A grammar without its rules -/
def Grammar.frame (g : Grammar) : Grammar := { g with syms := g.syms.map Symbol.frame, rules := [] }

variable {g g' : Grammar}

theorem frame_default : Symbol.frame default = default := rfl

theorem frame_sym (g : Grammar) (x : SymbolId) : g.frame.sym x = (g.sym x).frame := by
  unfold Grammar.frame Grammar.sym
  simp only [List.getD_eq_getElem?_getD, List.getElem?_map]
  cases g.syms[x]? <;> rfl

theorem frame_iff : g'.frame = g.frame ↔ g'.hull = g.hull ∧
    g'.syms.length = g.syms.length ∧ ∀ x, (g'.sym x).frame = (g.sym x).frame := by
  constructor
  · intro h
    refine ⟨?_, ?_, fun x => ?_⟩
    · have := congrArg Grammar.hull h
      exact this
    · have := congrArg (fun k : Grammar => k.syms.length) h
      simpa [Grammar.frame] using this
    · rw [← frame_sym, ← frame_sym, h]
  · rintro ⟨h1, h2, h3⟩
    have : g'.syms.map Symbol.frame = g.syms.map Symbol.frame := by
      apply List.ext_getElem?
      intro x
      rw [List.getElem?_map, List.getElem?_map]
      have := h3 x
      unfold Grammar.sym at this
      simp only [List.getD_eq_getElem?_getD] at this
      by_cases hx : x < g.syms.length
      · rw [List.getElem?_eq_getElem hx, List.getElem?_eq_getElem (h2 ▸ hx)] at this ⊢
        simpa using this
      · rw [List.getElem?_eq_none (by omega), List.getElem?_eq_none (by omega)]
    unfold Grammar.frame
    rw [this]
    have := congrArg (fun k : Grammar => ({ k with syms := g.syms.map Symbol.frame, rules := [] } : Grammar)) h1
    exact this

/-! ## The steps after `prepare` keep the frame -/

theorem frame_rules (g : Grammar) (rs : List Rule) : ({ g with rules := rs } : Grammar).frame = g.frame := rfl

theorem frame_markStart (g : Grammar) (s : SymbolId) : (g.markStart s).frame = g.frame := by
  unfold Grammar.markStart
  split <;> rfl

theorem frame_firstSets (h : g.findFirstSets = .ok g') : g'.frame = g.frame := by
  obtain ⟨h1, h2⟩ := findFirstSets_only h
  rw [frame_iff]
  refine ⟨?_, h2.len, fun x => ?_⟩
  · rw [h1]; rfl
  · exact h2.proj Symbol.frame (fun _ _ => rfl) (fun _ _ => rfl) x

theorem frame_automaton {ord} {g0 : Grammar} {sts : List LState} (h : g0.automaton ord = .ok (g, sts)) : g.frame = (g0.prepare ord).frame := by
  obtain ⟨s⟩ := automaton_spec h
  obtain ⟨rules, h1⟩ := normalizeRules_spec s.norm
  rw [s.marked, frame_markStart, frame_firstSets s.first, h1.1]
  rfl

/-! ## `prepare` -/

theorem hull_addOptional (g : Grammar) (o : SymbolId × SymbolId) : (g.addOptional o).hull = g.hull := rfl

theorem hull_addOptionals (g : Grammar) (l : List (SymbolId × SymbolId)) : (l.foldl Grammar.addOptional g).hull = g.hull := by
  induction l generalizing g with
  | nil => rfl
  | cons o l ih => rw [List.foldl_cons, ih, hull_addOptional]

theorem length_addOptionals' (g : Grammar) (l : List (SymbolId × SymbolId)) : (l.foldl Grammar.addOptional g).syms.length = g.syms.length := by
  induction l generalizing g with
  | nil => rfl
  | cons o l ih => rw [List.foldl_cons, ih, length_addOptional]

/-- The frame but for the type -/
def Symbol.untyped (b : Symbol) : Symbol := { b.frame with dataType := none }

theorem frame_of_untyped {a b : Symbol} (h1 : a.untyped = b.untyped) (h2 : a.dataType = b.dataType) : a.frame = b.frame := by
  have := congrArg (fun c : Symbol => ({ c with dataType := a.dataType } : Symbol)) h1
  simp only [Symbol.untyped] at this
  rw [h2] at this
  have e : a.frame = { a.frame with dataType := b.dataType } := by rw [← h2]; rfl
  rw [e]
  exact this

theorem frame_prepare {ord ord' : List (SymbolId × SymbolId) → List (SymbolId × SymbolId)} (ho : OrdOk ord) (ho' : OrdOk ord') {ds : List Decl} {g0 : Grammar}
    (h0 : newFromDecls ds = .ok g0) : (g0.prepare ord').frame = (g0.prepare ord).frame := by
  obtain ⟨b, hb⟩ := bridgeP (ord := ord) h0
  subst hb
  have hopts : ((b.gD.pushSym { name := .dflt, kind := .nonTerminal }).indexed).addExtraToken.optionals = b.gD.optionals := by
    rw [(addExtraToken_fields _).2.1, (indexed_fields _).2.2.2.2.1]; rfl
  have hlen : ((b.gD.pushSym { name := .dflt, kind := .nonTerminal }).indexed).addExtraToken.syms.length = b.gD.syms.length + 1 := by
    rw [(addExtraToken_shape _).len, (indexed_fields _).1, length_pushSym]
  rw [prepare_eq, prepare_eq]
  unfold Grammar.addOptionals
  rw [hopts]
  generalize ((b.gD.pushSym { name := .dflt, kind := .nonTerminal }).indexed).addExtraToken = gI at *
  have hdt : ∀ {ord : List (SymbolId × SymbolId) → List (SymbolId × SymbolId)}, OrdOk ord →
      (∀ o ∈ b.gD.optionals, (((ord b.gD.optionals).foldl Grammar.addOptional gI).sym o.2).dataType = some (.option (((gI.sym o.1).dataType).getD .unit))) ∧
      (∀ x, (∀ o ∈ b.gD.optionals, x ≠ o.2) → (((ord b.gD.optionals).foldl Grammar.addOptional gI).sym x).dataType = (gI.sym x).dataType) := by
    intro ord ho
    have hmem : ∀ o, o ∈ ord b.gD.optionals ↔ o ∈ b.gD.optionals := fun o => (ho b.gD.optionals).mem_iff
    obtain ⟨f1, f2⟩ := dataType_addOptionals_foldl (l := ord b.gD.optionals) (g := gI)
      (fun o ho' => by rw [hlen]; exact Nat.lt_succ_of_lt (b.opt_name ((hmem o).1 ho')).2.1)
      (by
        intro o h1 o' h2 e
        obtain ⟨_, _, h3, _⟩ := b.opt_name ((hmem o).1 h1)
        obtain ⟨_, _, _, k, _, h4⟩ := b.opt_name ((hmem o').1 h2)
        rw [e, h4] at h3
        simp [SymName.isTok, SymName.isNt] at h3)
      (fun o h1 o' h2 e => b.opt_inj ((hmem o).1 h1) ((hmem o').1 h2) e)
    exact ⟨fun o h => f1 o ((hmem o).2 h), fun x hx => f2 x (fun o h => hx o ((hmem o).1 h))⟩
  have hun : ∀ (l : List (SymbolId × SymbolId)) x, ((l.foldl Grammar.addOptional gI).sym x).untyped = (gI.sym x).untyped := by
    intro l x
    clear hopts hlen hdt
    induction l generalizing gI with
    | nil => rfl
    | cons o l ih =>
      rw [List.foldl_cons, ih, proj_addOptional Symbol.untyped (fun _ _ => rfl) (fun _ _ => rfl)]
  rw [frame_iff]
  refine ⟨?_, ?_, fun x => ?_⟩
  · have h1 := hull_addOptionals gI (ord b.gD.optionals)
    have h2 := hull_addOptionals gI (ord' b.gD.optionals)
    have := congrArg (fun k : Grammar => ({ k with optionals := [] } : Grammar)) (h2.trans h1.symm)
    exact this
  · show (List.foldl Grammar.addOptional gI (ord' b.gD.optionals)).syms.length = (List.foldl Grammar.addOptional gI (ord b.gD.optionals)).syms.length
    rw [length_addOptionals', length_addOptionals']
  · show ((List.foldl Grammar.addOptional gI (ord' b.gD.optionals)).sym x).frame = ((List.foldl Grammar.addOptional gI (ord b.gD.optionals)).sym x).frame
    apply frame_of_untyped
    · rw [hun, hun]
    · by_cases hx : ∀ o ∈ b.gD.optionals, x ≠ o.2
      · rw [(hdt ho').2 x hx, (hdt ho).2 x hx]
      · push Not at hx
        obtain ⟨o, h1, rfl⟩ := hx
        rw [(hdt ho').1 o h1, (hdt ho).1 o h1]

/-- The two grammars have the same frame. -/
theorem frame_automata {ord ord' : List (SymbolId × SymbolId) → List (SymbolId × SymbolId)} (ho : OrdOk ord) (ho' : OrdOk ord') {ds : List Decl} {g0 : Grammar}
    (h0 : newFromDecls ds = .ok g0) {sts sts' : List LState} (h : g0.automaton ord = .ok (g, sts)) (h' : g0.automaton ord' = .ok (g', sts')) : g'.frame = g.frame := by
  rw [frame_automaton h, frame_automaton h', frame_prepare ho ho' h0]

end Pomelo
