import Verif.Proofs.StateReport
import Verif.Props.Causes
import Verif.Examples
/-!
# C55: the report of the states
-/

namespace Pomelo

open Spec

variable {ord : List (SymbolId × SymbolId) → List (SymbolId × SymbolId)} {ds : List Decl}

theorem verboseOf_iff : verboseOf ds = true ↔ .verbose ∈ ds := by
  unfold verboseOf
  rw [List.any_eq_true]
  constructor
  · rintro ⟨d, h1, h2⟩
    cases d <;> first | exact h1 | cases h2
  · intro h; exact ⟨_, h, rfl⟩

/-- The parts of a report -/
theorem macroReport_parts {rep : Report} {e : Bool} (h : macroReport ord ds = some (rep, e)) :
    ∃ g0 g sts acts n, newFromDecls ds = .ok g0 ∧ g0.automaton ord = .ok (g, sts) ∧ g.findActions sts = .ok (acts, n) ∧
      rep = g.report sts acts (verboseOf ds) ∧ e = decide (n > 0) := by
  unfold macroReport at h
  split at h
  · cases h
  rename_i g0 h0
  split at h
  · cases h
  rename_i g sts h1
  split at h
  · cases h
  rename_i acts n h2
  split at h
  · simp only [Option.some.injEq, Prod.mk.injEq] at h
    exact ⟨g0, g, sts, acts, n, h0, h1, h2, h.1.symm, h.2.symm⟩
  · cases h

/-- C55: the report has one block for each state.  The block lists the items of the state, the shifts and reductions with their
lookaheads, and its remarks have the reasons that the precedences give.  It is in the error message exactly if some line says that there is a
conflict.  With `%verbose`, the table gives each symbol its number. -/
theorem C55 (ho : OrdOk ord) {rep : Report} {e : Bool} (h : macroReport ord ds = some (rep, e)) :
    ∃ g blk, Numbered ord ds g ∧ Covers g blk rep ∧ (e = true ↔ 0 < conflictLines rep) ∧ (rep.symbols.isSome = true ↔ .verbose ∈ ds) ∧
      ∀ tab, rep.symbols = some tab → ∀ i n, (i, n) ∈ tab ↔ ∃ s, s < g.syms.length ∧ (g.sym s).index = i ∧ (g.sym s).name = n := by
  obtain ⟨g0, g, sts, acts, n, h0, h1, h2, rfl, rfl⟩ := macroReport_parts h
  have hi := GInv.automaton h0 ho h1
  have ha := automaton_auto ho h0 h1
  refine ⟨g, stateOf g sts, ⟨g0, sts, h0, h1⟩, report_covers hi ha h2 _, ?_, ?_, ?_⟩
  · rw [report_count hi ha h2]; simp
  · rw [← verboseOf_iff]
    unfold Grammar.report
    cases verboseOf ds <;> simp
  · intro tab ht i nm
    have ht : tab = g.symbols.zipIdx.map fun (s, i) => (i, (g.sym s).name) := by
      unfold Grammar.report at ht
      cases hv : verboseOf ds <;> simp [hv] at ht
      exact ht.symm
    subst ht
    rw [List.mem_map]
    constructor
    · rintro ⟨⟨s, j⟩, h3, h4⟩
      simp only [Prod.mk.injEq] at h4
      obtain ⟨rfl, rfl⟩ := h4
      rw [List.mem_zipIdx_iff_getElem?] at h3
      obtain ⟨hj, he⟩ := List.getElem?_eq_some_iff.1 h3
      simp only at hj he
      obtain ⟨h5, h6⟩ := hi.index j (by rw [← hi.slen]; exact hj)
      rw [getD_of_lt hj, he] at h5 h6
      exact ⟨s, h5, h6, rfl⟩
    · rintro ⟨s, h3, rfl, rfl⟩
      obtain ⟨h4, h5⟩ := hi.perm s h3
      refine ⟨(s, (g.sym s).index), ?_, rfl⟩
      rw [List.mem_zipIdx_iff_getElem?]
      have hj : (g.sym s).index < g.symbols.length := by rw [hi.slen]; exact h4
      rw [getD_of_lt hj] at h5
      simp only
      rw [List.getElem?_eq_getElem hj, h5]

/-- C55: the macro fails with the report exactly if there are conflicts; if it succeeds, it prints a report exactly if there is `%verbose`. -/
theorem C55_when (ho : OrdOk ord) : (compile ord ds = .error .conflicts ↔ ∃ rep, macroReport ord ds = some (rep, true)) ∧
    ∀ t, compile ord ds = .ok t → ((∃ rep, macroReport ord ds = some (rep, false)) ↔ .verbose ∈ ds) := by
  unfold compile Grammar.build macroReport
  cases h0 : newFromDecls ds with
  | error e =>
    have hf := (C46_refused ds e).1 h0
    simp only [bind, Except.bind]
    refine ⟨⟨fun h => ?_, fun ⟨_, h⟩ => (by cases h)⟩, fun t h => (by cases h)⟩
    cases h
    rcases hf with ⟨l, d, r, _, _, h⟩ | ⟨_, _, h⟩
    · generalize he : GErr.conflicts = e at h
      cases h with
      | assoc h => rcases assocFault_err h with rfl | rfl <;> cases he
      | ruleElem _ h =>
        obtain ⟨x, _, h⟩ := List.exists_of_findSome?_eq_some h
        rcases elemFault_err h with rfl | rfl <;> cases he
      | _ => cases he
    · cases h
  | ok g0 =>
    simp only [bind, Except.bind, throw, throwThe, MonadExceptOf.throw]
    cases h1 : g0.automaton ord with
    | error e =>
      refine ⟨⟨fun h => ?_, fun ⟨_, h⟩ => (by cases h)⟩, fun t h => (by cases h)⟩
      cases h
      cases stage h0 ho with
      | uncoded _ h3 => rw [h1] at h3; cases h3
      | startUsed _ _ h3 => rw [h1] at h3; cases h3
      | missing _ _ _ h3 => rw [h1] at h3; cases h3
      | ok _ _ _ h3 => rw [h1] at h3; cases h3
    | ok x =>
      obtain ⟨g, sts⟩ := x
      have hi := GInv.automaton h0 ho h1
      simp only
      cases h2 : g.findActions sts with
      | error e =>
        refine ⟨⟨fun h => ?_, fun ⟨_, h⟩ => (by cases h)⟩, fun t h => (by cases h)⟩
        cases h
        rcases findActions_err h2 with h | ⟨h, _⟩ <;> cases h
      | ok y =>
        obtain ⟨acts, n⟩ := y
        simp only
        by_cases hn : n > 0
        · simp [hn]
        · simp only [hn, if_false, decide_false, Bool.or_false]
          constructor
          · constructor
            · intro h
              exfalso
              split at h
              · rename_i h3
                cases h
                cases (compressTables_err hi h3).1
              · obtain ⟨b⟩ := bridge ho h0 h1
                rcases generate_causes ho b.toBridge0 (given h0 h1) hi _ |>.err h with ⟨h, _⟩ | h | ⟨_, (⟨h, _⟩ | ⟨h, _⟩ | ⟨h, _⟩) | ⟨h, _⟩ | ⟨h, _⟩ | ⟨h, _⟩⟩ <;> cases h
            · rintro ⟨rep, h⟩
              split at h <;> simp at h
          · intro t _
            rw [← verboseOf_iff]
            cases verboseOf ds <;> simp

namespace Reportex

open Tests Examples

/-- `s ::= e; e ::= e Plus e; e ::= e Eq e; e ::= e Up e; e ::= Num;` with `%nonassoc Eq; %left Plus;` and more -/
def ops (extra : List Decl) : List Decl :=
  [.assoc .none [U 2], .assoc .left [U 0]] ++ extra ++
   [r (L 0) [s (L 1)], r (L 1) [s (L 1), s (U 0), s (L 1)], r (L 1) [s (L 1), s (U 2), s (L 1)], r (L 1) [s (L 1), s (U 3), s (L 1)], r (L 1) [s (U 1)]]

/-- The same with `%right Up; %verbose;` -/
def settled : List Decl := ops [.assoc .right [U 3], .verbose]

/-- The report, if there is one -/
def rep (ds : List Decl) : Report := ((macroReport id ds).map Prod.fst).getD ⟨[], none⟩

/-- Is there a report, and is it an error? -/
def inError (ds : List Decl) : Option Bool := (macroReport id ds).map Prod.snd

theorem rep_iff {ds : List Decl} {e : Bool} (h : inError ds = some e) : macroReport id ds = some (rep ds, e) := by
  unfold inError at h
  unfold rep
  cases hm : macroReport id ds with
  | none => rw [hm] at h; cases h
  | some x => rw [hm] at h; cases h; rfl

-- Nothing is said about `Up`: there are five conflicts, and the report is the error.
example : inError (ops []) = some true ∧ conflictLines (rep (ops [])) = 5 ∧ (rep (ops [])).symbols = none := by decide +kernel
example : compile id (ops []) = .error .conflicts := (C55_when (ord := id) (fun _ => List.Perm.refl _)).1.2 ⟨_, rep_iff (by decide +kernel)⟩
-- the state after `e Eq e`: its items, a tie with `Eq`, a reduction that gives way to `Plus`, a conflict about `Up`
example : (rep (ops [])).blocks[5]? = some ⟨5,
    [⟨none, .ident (L 1), [.name (.ident (L 1)), .dot, .name (.ident (U 0)), .name (.ident (L 1))]⟩,
     ⟨none, .ident (L 1), [.name (.ident (L 1)), .dot, .name (.ident (U 2)), .name (.ident (L 1))]⟩,
     ⟨some 2, .ident (L 1), [.name (.ident (L 1)), .name (.ident (U 2)), .name (.ident (L 1)), .dot]⟩,
     ⟨none, .ident (L 1), [.name (.ident (L 1)), .dot, .name (.ident (U 3)), .name (.ident (L 1))]⟩],
    [⟨.dollar, .reduce 2, .plain⟩, ⟨.ident (U 2), .error, .plain⟩, ⟨.ident (U 2), .reduce 2, .plain⟩, ⟨.ident (U 0), .shift 2, .plain⟩,
     ⟨.ident (U 0), .reduce 2, .dropped⟩, ⟨.ident (U 3), .shift 6, .plain⟩, ⟨.ident (U 3), .reduce 2, .conflict⟩]⟩ := by decide +kernel

-- with `%right Up; %verbose;` the report is printed, with the symbols, and the macro goes on
example : compiles settled = true ∧ inError settled = some false ∧ conflictLines (rep settled) = 0 ∧
    (rep settled).symbols = some [(0, .dollar), (1, .ident (U 2)), (2, .ident (U 0)), (3, .ident (U 3)), (4, .ident (U 1)), (5, .ident .error),
      (6, .ident (L 0)), (7, .ident (L 1)), (8, .dflt)] := by decide +kernel

/-- `s ::= A|B C; s ::= A D;`: a token read in two ways -/
def twoWays : List Decl := [r (L 0) [⟨[U 0, U 1], false, false⟩, s (U 2)], r (L 0) [s (U 0), s (U 3)]]

-- a class is written by its members
example : inError twoWays = some true ∧ (rep twoWays).blocks[0]? = some ⟨0,
    [⟨none, .ident (L 0), [.dot, .alts [.ident (U 0), .ident (U 1)], .name (.ident (U 2))]⟩, ⟨none, .ident (L 0), [.dot, .name (.ident (U 0)), .name (.ident (U 3))]⟩],
    [⟨.ident (U 0), .shift 1, .plain⟩, ⟨.ident (U 0), .shift 3, .conflict⟩, ⟨.ident (U 1), .shift 1, .plain⟩, ⟨.ident (L 0), .accept, .plain⟩]⟩ := by decide +kernel

/-- The parser refuses the last of the tokens, and no earlier one. -/
def refusedAt (ds : List Decl) (l : List Nat) (n : Nat) : Bool :=
  match Pomelo.feed (tablesOf ds) strictSem 1000 (Parser.new strictSem []) (tk l), Pomelo.feed (tablesOf ds) strictSem 1000 (Parser.new strictSem []) (tk (l ++ [n])) with
  | some (.ok _ _), some (.err _ _) => true
  | _, _ => false

end Reportex

open Reportex Tests Examples in
/-- An unmarked line need not be what the parser does: after `Num Eq Num` the report has for `Eq` an unmarked `error` and an unmarked
`reduce`; the parser refuses `Eq`. -/
theorem C55_tie : macroReport id settled = some (rep settled, false) ∧
    (∃ b ∈ (rep settled).blocks, ⟨.ident (U 2), .error, .plain⟩ ∈ b.lines ∧ ⟨.ident (U 2), .reduce 2, .plain⟩ ∈ b.lines) ∧
    refusedAt settled [4, 1, 4] 1 = true :=
  ⟨rep_iff (by decide +kernel), by decide +kernel, by decide +kernel⟩

end Pomelo
