import Verif.Proofs.Generate
import Verif.Proofs.DeclGlob
/-! # From the declarations to the grammar the automaton is built for -/

namespace Pomelo

/-- The part of a symbol that does not change after the declarations -/
def Symbol.keep (b : Symbol) : SymName × SymKind × List SymbolId × Option SymbolId × Option Precedence × Nat × Nat × Bool :=
  (b.name, b.kind, b.subs, b.fallback, b.precedence, b.useCnt, b.dtNum, b.attributes)

/-- The grammar after the declarations and after `prepare` -/
structure BridgeP (ord : List (SymbolId × SymbolId) → List (SymbolId × SymbolId)) (ds : List Decl) where
  gD : Grammar
  gP : Grammar
  parsed : Grammar.initial.parseDecls ds = .ok gD
  dinv : DInv gD
  recs : RulesRec gD ds
  nonempty : gD.rules ≠ []
  decl : Declared gD ds
  gP_eq : gP = (gD.pushSym { name := .dflt, kind := .nonTerminal }).prepare ord
  lenP : gP.syms.length = gD.syms.length + 1
  keepP : ∀ x, x < gD.syms.length → (gP.sym x).keep = (gD.sym x).keep
  rulesP : gP.rules = gD.rules ++ (ord gD.optionals).flatMap optRules

/-- The same and the grammar of the automaton -/
structure Bridge0 (ord : List (SymbolId × SymbolId) → List (SymbolId × SymbolId)) (ds : List Decl) (g : Grammar) extends BridgeP ord ds where
  len : g.syms.length = gD.syms.length + 1
  keep : ∀ x, x < gD.syms.length → (g.sym x).keep = (gD.sym x).keep
  types : ∀ x, (g.sym x).dataType = (gP.sym x).dataType
  rules : List.Forall₂ (fun a b => ∃ c, gP.normalizeRule (gP.rulePrec a) = .ok c ∧
    b = { c with lhsStart := b.lhsStart }) gP.rules g.rules
  start : g.start = some (gD.start.getD (gD.rule 0).lhs)
  wildcard : g.wildcard = gD.wildcard
  defaultType : g.defaultType = gD.defaultType

/-- The same for a grammar that has an automaton -/
structure Bridge (ord : List (SymbolId × SymbolId) → List (SymbolId × SymbolId)) (ds : List Decl) (g : Grammar) extends Bridge0 ord ds g where
  noStart : ∀ r, r < g.rules.length → ∀ x ∈ g.rhsSyms r, some x ≠ g.start

theorem getD_default {α : Type} [Inhabited α] (l : List α) (i : Nat) (h : i < l.length) : l[i]? = some (l.getD i default) := by
  simp [List.getElem?_eq_getElem h]

theorem markStart_rules (g : Grammar) (sp : SymbolId) :
    (g.markStart sp).syms = g.syms ∧ (g.markStart sp).defaultType = g.defaultType ∧ (g.markStart sp).stackLimit = g.stackLimit ∧
    List.Forall₂ (fun a b => b = { a with lhsStart := b.lhsStart }) g.rules (g.markStart sp).rules := by
  have refl : ∀ l : List Rule, List.Forall₂ (fun a b : Rule => b = { a with lhsStart := b.lhsStart }) l l := by
    intro l; induction l with
    | nil => exact .nil
    | cons a l ih => exact .cons rfl ih
  have trans : ∀ {a b c : List Rule}, List.Forall₂ (fun a b : Rule => b = { a with lhsStart := b.lhsStart }) a b →
      List.Forall₂ (fun a b : Rule => b = { a with lhsStart := b.lhsStart }) b c →
      List.Forall₂ (fun a b : Rule => b = { a with lhsStart := b.lhsStart }) a c := by
    intro a b c h1
    induction h1 generalizing c with
    | nil => intro h2; cases h2; exact .nil
    | cons h1 _ ih =>
      intro h2
      cases h2 with
      | cons h3 h4 => exact .cons (by rw [h3, h1]) (ih h4)
  have one : ∀ (l : List Rule) (k : Nat), List.Forall₂ (fun a b : Rule => b = { a with lhsStart := b.lhsStart }) l
      (l.modify k (fun r => { r with lhsStart := true })) := by
    intro l
    induction l with
    | nil => intro k; cases k <;> exact .nil
    | cons a l ih =>
      intro k
      cases k with
      | zero => exact .cons rfl (refl l)
      | succ k => exact .cons rfl (ih k)
  have key : ∀ (l : List RuleId) (rs : List Rule), List.Forall₂ (fun a b : Rule => b = { a with lhsStart := b.lhsStart }) rs
      (l.foldl (fun rs rp => rs.modify rp (fun r => { r with lhsStart := true })) rs) := by
    intro l
    induction l with
    | nil => intro rs; exact refl rs
    | cons x l ih => intro rs; exact trans (one rs x) (ih _)
  unfold Grammar.markStart
  split
  · exact ⟨rfl, rfl, rfl, key _ _⟩
  · exact ⟨rfl, rfl, rfl, refl _⟩

theorem bridgeP {ord} {ds : List Decl} {g0 : Grammar} (h0 : newFromDecls ds = .ok g0) :
    ∃ b : BridgeP ord ds, g0 = b.gD.pushSym { name := .dflt, kind := .nonTerminal } := by
  obtain ⟨gD, hp, hd, hrec, hne, rfl⟩ := newFromDecls_spec h0
  have hdecl := declared hp
  generalize hgP : (gD.pushSym { name := .dflt, kind := .nonTerminal }).prepare ord = gP at *
  -- fields of the prepared grammar
  have hkeepP : ∀ x, x < gD.syms.length → (gP.sym x).keep = (gD.sym x).keep := by
    intro x hx
    rw [← hgP, prepare_eq, proj_addOptionals Symbol.keep (fun _ _ => rfl) (fun _ _ => rfl),
      proj_addExtraToken Symbol.keep (fun _ _ => rfl), proj_indexed Symbol.keep (fun _ _ => rfl), sym_pushSym_lt hx]
  have hlenP : gP.syms.length = gD.syms.length + 1 := by
    rw [← hgP, prepare_eq]
    have : ∀ (l : List (SymbolId × SymbolId)) (g : Grammar), (List.foldl Grammar.addOptional g l).syms.length = g.syms.length := by
      intro l
      induction l with
      | nil => intro g; rfl
      | cons o l ih => intro g; rw [List.foldl_cons, ih, length_addOptional]
    unfold Grammar.addOptionals
    show (List.foldl Grammar.addOptional _ _).syms.length = _
    rw [this, (addExtraToken_shape _).len, (indexed_fields _).1, length_pushSym]
  have hrulesP : gP.rules = gD.rules ++ (ord gD.optionals).flatMap optRules := by
    rw [← hgP, prepare_eq, rules_addOptionals, (addExtraToken_fields _).1, (addExtraToken_fields _).2.1,
      (indexed_fields _).2.1, (indexed_fields _).2.2.2.2.1]
    rfl
  exact ⟨⟨gD, gP, hp, hd, hrec, hne, hdecl, hgP.symm, hlenP, hkeepP, hrulesP⟩, rfl⟩

theorem BridgeP.bridge0 {ord} (ho : OrdOk ord) {ds : List Decl} (b : BridgeP ord ds) {gN gF : Grammar}
    (hnorm : b.gP.findRulePrecedences.normalizeRules = .ok gN) (hfirst : gN.findFirstSets = .ok gF) :
    Nonempty (Bridge0 ord ds (gF.markStart (gF.start.getD 0))) := by
  have hgi := (GInv.prepare b.dinv b.nonempty ho)
  have hsh : Shape b.gP (gF.markStart (gF.start.getD 0)) :=
    (((findRulePrecedences_shape _).trans (normalizeRules_shape hnorm)).trans (findFirstSets_shape hfirst)).trans (markStart_shape _ _)
  obtain ⟨gD, gP, hp, hd, hrec, hne, hdecl, hgP, hlenP, hkeepP, hrulesP⟩ := b
  simp only at hnorm hgi hsh
  have hgP := hgP.symm
  generalize hmk : gF.markStart (gF.start.getD 0) = g at *
  have hmk := hmk.symm
  have hopt : ∀ (l : List (SymbolId × SymbolId)) (g : Grammar), (List.foldl Grammar.addOptional g l).start = g.start ∧
      (List.foldl Grammar.addOptional g l).wildcard = g.wildcard ∧
      (List.foldl Grammar.addOptional g l).defaultType = g.defaultType := by
    intro l
    induction l with
    | nil => intro g; exact ⟨rfl, rfl, rfl⟩
    | cons o l ih =>
      intro g
      rw [List.foldl_cons]
      obtain ⟨h1, h2, h3⟩ := ih (g.addOptional o)
      exact ⟨h1, h2, h3⟩
  have hstartP : gP.start = some (gD.start.getD (gD.rule 0).lhs) := by
    rw [← hgP, prepare_eq]
    unfold Grammar.addOptionals
    show (List.foldl Grammar.addOptional _ _).start = _
    rw [(hopt _ _).1, (addExtraToken_shape _).start, (indexed_fields _).2.2.2.2.2]
    rfl
  have hwildP : gP.wildcard = gD.wildcard := by
    rw [← hgP, prepare_eq]
    unfold Grammar.addOptionals
    show (List.foldl Grammar.addOptional _ _).wildcard = _
    rw [(hopt _ _).2.1, (addExtraToken_shape _).wild, (indexed_fields _).2.2.2.1]
    rfl
  have hidxDT : ∀ (l : List SymbolId) (g : Grammar) (i : Nat), (g.assignIndices i l).defaultType = g.defaultType := by
    intro l
    induction l with
    | nil => intro g i; rfl
    | cons s l ih =>
      intro g i
      unfold Grammar.assignIndices
      simp only
      split <;> rw [ih] <;> rfl
  have hdtP : gP.defaultType = gD.defaultType := by
    rw [← hgP, prepare_eq]
    unfold Grammar.addOptionals
    show (List.foldl Grammar.addOptional _ _).defaultType = _
    rw [(hopt _ _).2.2, (addExtraToken_fields _).2.2]
    unfold Grammar.indexed
    show (Grammar.assignIndices _ _ _).defaultType = _
    rw [hidxDT]
    rfl
  -- the rest of the way
  obtain ⟨rulesN, hgN, hfN⟩ := normalizeRules_spec hnorm
  obtain ⟨hgF, hfo⟩ := findFirstSets_only hfirst
  obtain ⟨m1, m2, m3, m4⟩ := markStart_rules gF (gF.start.getD 0)
  have hsyms : g.syms = gF.syms := by rw [hmk]; exact m1
  have hproj : ∀ {β : Type} (π : Symbol → β), (∀ (x : Symbol) l, π { x with lambda := l } = π x) →
    (∀ (x : Symbol) l, π { x with firstSet := l } = π x) → ∀ x, π (g.sym x) = π (gP.sym x) := by
    intro β π p1 p2 x
    unfold Grammar.sym
    rw [hsyms, hfo.proj π p1 p2, hgN]
    rfl
  have hrulesF : gF.rules = rulesN := by rw [hgF, hgN]
  have hdt : g.defaultType = gD.defaultType := by rw [hmk, m2, hgF, hgN]; exact hdtP
  refine ⟨⟨⟨gD, gP, hp, hd, hrec, hne, hdecl, hgP.symm, hlenP, hkeepP, hrulesP⟩, by rw [hsh.len, hlenP], ?_, ?_, ?_,
    by rw [hsh.start, hstartP], by rw [hsh.wild, hwildP], hdt⟩⟩
  · intro x hx
    rw [hproj Symbol.keep (fun _ _ => rfl) (fun _ _ => rfl), hkeepP x hx]
  · intro x; exact hproj Symbol.dataType (fun _ _ => rfl) (fun _ _ => rfl) x
  · have e : g.rules = (gF.markStart (gF.start.getD 0)).rules := by rw [hmk]
    rw [e]
    rw [hrulesF] at m4
    have hfN2 : List.Forall₂ (fun a b => gP.normalizeRule (gP.rulePrec a) = .ok b) gP.rules rulesN := by
      have : List.Forall₂ (fun a b => gP.normalizeRule a = .ok b) (gP.rules.map gP.rulePrec) rulesN := hfN
      rw [List.forall₂_map_left_iff] at this
      exact this
    generalize (gF.markStart (gF.start.getD 0)).rules = rm at m4
    generalize gP.rules = rp at hfN2
    clear * - hfN2 m4
    induction hfN2 generalizing rm with
    | nil => cases m4; exact .nil
    | cons h1 _ ih =>
      cases m4 with
      | cons h2 h3 => exact .cons ⟨_, h1, h2⟩ (ih _ h3)

theorem bridge {ord} (ho : OrdOk ord) {ds : List Decl} {g0 g : Grammar} {sts : List LState} (h0 : newFromDecls ds = .ok g0)
    (ha : g0.automaton ord = .ok (g, sts)) : Nonempty (Bridge ord ds g) := by
  obtain ⟨bP, rfl⟩ := bridgeP (ord := ord) h0
  obtain ⟨s⟩ := automaton_spec ha
  have hnorm := s.norm
  have hfirst := s.first
  have hmk := s.marked
  have hns := s.noStart
  rw [← bP.gP_eq] at hnorm
  generalize s.gN = gN at *
  generalize s.gF = gF at *
  clear s
  obtain ⟨b⟩ := bP.bridge0 ho hnorm hfirst
  rw [← hmk] at b
  refine ⟨⟨b, ?_⟩⟩
  intro r hr x hx hxs
  have hst : g.start = gF.start := by rw [hmk]; exact (markStart_shape _ _).start
  have hx2 : x ∈ gF.rhsSyms r := by
    rw [hmk, (markStart_shape _ _).rhs] at hx; exact hx
  have hr2 : r < gF.rules.length := by
    rw [hmk, (markStart_shape _ _).rlen] at hr; exact hr
  rw [List.any_eq_false] at hns
  have hmem : gF.rule r ∈ gF.rules := by
    unfold Grammar.rule
    rw [getD_of_lt hr2]; exact List.getElem_mem hr2
  have h2 := hns _ hmem
  unfold Grammar.rhsSyms at hx2
  obtain ⟨y, hy, rfl⟩ := List.mem_map.1 hx2
  rw [hst] at hxs
  apply h2
  rw [List.any_eq_true]
  exact ⟨y, hy, by rw [← hxs]; simp⟩

namespace Bridge0
variable {ord : List (SymbolId × SymbolId) → List (SymbolId × SymbolId)} {ds : List Decl} {g : Grammar}

theorem name (b : Bridge0 ord ds g) {x : SymbolId} (hx : x < b.gD.syms.length) : (g.sym x).name = (b.gD.sym x).name :=
  congrArg (·.1) (b.keep x hx)
theorem kind (b : Bridge0 ord ds g) {x : SymbolId} (hx : x < b.gD.syms.length) : (g.sym x).kind = (b.gD.sym x).kind :=
  congrArg (·.2.1) (b.keep x hx)
theorem subs (b : Bridge0 ord ds g) {x : SymbolId} (hx : x < b.gD.syms.length) : (g.sym x).subs = (b.gD.sym x).subs :=
  congrArg (·.2.2.1) (b.keep x hx)
theorem fallback (b : Bridge0 ord ds g) {x : SymbolId} (hx : x < b.gD.syms.length) : (g.sym x).fallback = (b.gD.sym x).fallback :=
  congrArg (·.2.2.2.1) (b.keep x hx)
theorem precedence (b : Bridge0 ord ds g) {x : SymbolId} (hx : x < b.gD.syms.length) :
    (g.sym x).precedence = (b.gD.sym x).precedence := congrArg (·.2.2.2.2.1) (b.keep x hx)

end Bridge0

end Pomelo
