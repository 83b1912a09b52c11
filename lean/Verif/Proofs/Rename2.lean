import Verif.Proofs.Rename
/-! # Renaming: the emitted interface, the report, the parser -/

namespace Pomelo

open Spec

variable {ρ : Renaming}

section
variable (hρ : ρ.Distinct)
include hρ

omit hρ in
theorem type_unit {t : Ty} : ρ.type t = .unit ↔ t = .unit := by cases t <;> simp [Renaming.type]

theorem api_ren (g : Grammar) : (g.ren ρ).api = ρ.api g.api := by
  unfold Grammar.api
  have hg : ∀ o : Option Ty, (o.map ρ.type).getD .unit = ρ.type (o.getD .unit) := by intro o; cases o <;> rfl
  have hif : ∀ (c : Ty) (a b : Option Ty), (if ρ.type c = .unit then a.map ρ.type else b.map ρ.type) = (if c = .unit then a else b).map ρ.type := by
    intro c a b
    by_cases h : c = .unit
    · rw [if_pos h, if_pos ((type_unit).2 h)]
    · rw [if_neg h, if_neg (fun h' => h ((type_unit).1 h'))]
  simp only [gren_arg, gren_start, gren_sym, sren_type, gren_errorSymbol, gren_errType, gren_extraToken, hg, Renaming.api]
  congr 1
  · rw [List.map_map]
    show g.tokenSyms.map _ = _
    apply List.map_congr_left
    intro s _
    unfold Grammar.tokVariant
    simp only [gren_sym]
    rfl
  · cases g.extraToken with
    | none => rfl
    | some e =>
      simp only [Option.map_some]
      congr 2
      show (g.tokenSyms.filterMap _) = _
      rw [List.map_filterMap]
      congr 1
      funext s
      unfold Grammar.extraArm
      simp only [gren_sym, sren_type, sren_name]
      cases (g.sym s).dataType with
      | none => rfl
      | some t =>
        simp only [Option.map_some, Option.some.injEq, ExtraArm.mk.injEq, true_and]
        rw [Bool.eq_iff_iff, beq_iff_eq, beq_iff_eq]
        exact type_eq hρ
  · exact hif _ none (some (g.arg.getD .unit))
  · by_cases h : g.arg.getD .unit = .unit
    · rw [if_pos h, if_pos ((type_unit).2 h)]
    · rw [if_neg h, if_neg (fun h' => h ((type_unit).1 h'))]
      rfl
  · exact hif _ none (some (g.arg.getD .unit))

theorem apiOf_ren (ds : List Decl) (ord) : apiOf ord (ds.map ρ.decl) = (apiOf ord ds).map ρ.api := by
  unfold apiOf
  rw [newFromDecls_ren hρ]
  cases newFromDecls ds with
  | error e => rfl
  | ok g =>
    simp only [Except.map, bind, Except.bind, automaton_ren]
    cases g.automaton ord with
    | error e => rfl
    | ok x =>
      simp only [gren_symbols]
      have h := assignTypes_ren hρ x.1.symbols x.1 []
      rw [List.map_nil] at h
      rw [h]
      cases x.1.assignTypes [] x.1.symbols with
      | error e => rfl
      | ok y =>
        simp only [Except.map, api_ren hρ]
        rfl

omit hρ in
theorem payload_ren (types : List Ty) (n : Nat) : payload (types.map ρ.type) n = ρ.type (payload types n) := by
  cases n with
  | zero => rfl
  | succ n =>
    simp only [payload, List.getD_eq_getElem?_getD, List.getElem?_map]
    cases types[n]? <;> rfl

omit hρ in
theorem ruleText_ren (g : Grammar) (types : List Ty) (r : Rule) (rc : RuleCode) :
    (g.ren ρ).ruleText (types.map ρ.type) (r.ren ρ) { rc with code := rc.code.map ρ.code } = ρ.text (g.ruleText types r rc) := by
  unfold Grammar.ruleText Renaming.text
  simp only [rren_lhs, gren_sym, sren_type, payload_ren, List.map_map]
  congr 1
  · apply List.map_congr_left
    intro o _
    cases o with
    | none => rfl
    | some n => simp [payload_ren]
  · cases (g.sym r.lhs).dataType <;> rfl

theorem textOf_ren (ds : List Decl) (ord) : textOf ord (ds.map ρ.decl) = (textOf ord ds).map (List.map ρ.text) := by
  unfold textOf
  rw [newFromDecls_ren hρ]
  cases newFromDecls ds with
  | error e => rfl
  | ok g =>
    simp only [Except.map, bind, Except.bind, automaton_ren]
    cases g.automaton ord with
    | error e => rfl
    | ok x =>
      simp only [gren_symbols]
      have h := assignTypes_ren hρ x.1.symbols x.1 []
      rw [List.map_nil] at h
      rw [h]
      cases x.1.assignTypes [] x.1.symbols with
      | error e => rfl
      | ok y =>
        simp only [Except.map, gren_rules]
        rw [mapM_ren (translateCode_ren y.1)]
        cases y.1.rules.mapM y.1.translateCode with
        | error e => rfl
        | ok rc =>
          simp only [Except.map]
          show Except.ok _ = Except.ok _
          congr 1
          rw [List.zipWith_map, List.map_zipWith]
          congr 1
          funext r c
          exact ruleText_ren ..

omit hρ in
theorem word_ren (g : Grammar) (s : SymbolId) : (g.ren ρ).word s = ρ.word (g.word s) := by
  unfold Grammar.word
  simp only [gren_sym, sren_kind, sren_subs, sren_name]
  cases (g.sym s).kind <;> simp [Renaming.word]

omit hρ in
theorem words_ren (g : Grammar) (dot len : Nat) (l : List SymbolId) : ∀ i, (g.ren ρ).words dot len i l = (g.words dot len i l).map ρ.word := by
  induction l with
  | nil => intro i; unfold Grammar.words; split <;> rfl
  | cons s l ih =>
    intro i
    rw [Grammar.words, Grammar.words, ih, word_ren, List.map_append, List.map_cons]
    split <;> rfl

omit hρ in
theorem report_ren (g : Grammar) (sts : List LState) (acts : List (List Action)) (v : Bool) :
    (g.ren ρ).report sts acts v = ρ.report (g.report sts acts v) := by
  have hi : ∀ it, (g.ren ρ).itemLine it = { number := (g.itemLine it).number, lhs := ρ.name (g.itemLine it).lhs, words := (g.itemLine it).words.map ρ.word } := by
    intro it
    unfold Grammar.itemLine
    simp only [rhsSyms_ren, gren_rule, rren_lhs, gren_sym, sren_name, words_ren]
  have ha : ∀ a, (g.ren ρ).actLine a = (g.actLine a).map (fun l => { la := ρ.name l.la, deed := l.deed, mark := l.mark }) := by
    intro a
    unfold Grammar.actLine
    simp only [gren_sym, sren_name]
    cases a.detail <;> rfl
  have ha' : (g.ren ρ).actLine = fun a => (g.actLine a).map (fun l => { la := ρ.name l.la, deed := l.deed, mark := l.mark }) := funext ha
  unfold Grammar.report Renaming.report
  congr 1
  · rw [List.map_map]
    apply List.map_congr_left
    intro x _
    obtain ⟨st, q⟩ := x
    simp only [Function.comp, hi, ha', List.map_map, List.map_filterMap]
    rfl
  · cases v
    · rfl
    · simp

theorem macroReport_ren (ds : List Decl) (ord) : macroReport ord (ds.map ρ.decl) = (macroReport ord ds).map (fun x => (ρ.report x.1, x.2)) := by
  have hv : verboseOf (ds.map ρ.decl) = verboseOf ds := by
    unfold verboseOf
    rw [List.any_map]
    congr 1
    funext d
    cases d <;> rfl
  unfold macroReport
  rw [newFromDecls_ren hρ, hv]
  cases newFromDecls ds with
  | error e => rfl
  | ok g =>
    simp only [Except.map, automaton_ren]
    cases g.automaton ord with
    | error e => rfl
    | ok x =>
      simp only [findActions_ren]
      cases x.1.findActions x.2 with
      | error e => rfl
      | ok y =>
        simp only [report_ren]
        split <;> rfl

end

/-! ## The parser -/

variable {V X E : Type}

@[simp] theorem tables_lookup (t : Tables) : (ρ.tables t).lookup = t.lookup := rfl
@[simp] theorem tables_dfltAct (t : Tables) : (ρ.tables t).dfltAct = t.dfltAct := rfl

theorem tables_findShiftFuel (t : Tables) (s n : Nat) : ∀ la, (ρ.tables t).findShiftFuel s n la = t.findShiftFuel s n la := by
  induction n with
  | zero => intro la; rfl
  | succ n ih =>
    intro la
    rw [Tables.findShiftFuel, Tables.findShiftFuel]
    simp only [ih, tables_lookup, tables_dfltAct]
    rfl

theorem tables_findShift (t : Tables) : (ρ.tables t).findShift = t.findShift := by
  funext s la
  exact tables_findShiftFuel t s _ la

theorem tables_findReduce (t : Tables) : (ρ.tables t).findReduce = t.findReduce := rfl

theorem tables_expected (t : Tables) : (ρ.tables t).expected = t.expected := by
  funext s
  unfold Tables.expected
  rw [tables_findShift]
  rfl

theorem tables_shift (t : Tables) (sem : Sem V X E) : shift (ρ.tables t) sem = shift t (ρ.sem sem) := rfl

theorem tables_runCode (sem : Sem V X E) (c : Option Code) : runCode sem (c.map ρ.code) = runCode (ρ.sem sem) c := by
  cases c with
  | none => rfl
  | some c => cases c <;> rfl

theorem tables_reduce (t : Tables) (sem : Sem V X E) (p : Parser V X) (r : Nat) : reduce (ρ.tables t) sem p r = reduce t (ρ.sem sem) p r := by
  unfold reduce
  rw [show (ρ.tables t).ruleCode = t.ruleCode.map fun c => { c with code := c.code.map ρ.code } from rfl, List.getElem?_map]
  cases t.ruleCode[r]? with
  | none => rfl
  | some rc => simp only [Option.map_some, tables_runCode]; rfl

theorem tables_recover (t : Tables) (sem : Sem V X E) (major : Nat) (m : Minor V) (exp : List Nat) (l : List (Entry V)) : ∀ p,
    recover (ρ.tables t) sem major m exp l p = recover t (ρ.sem sem) major m exp l p := by
  induction l with
  | nil => intro p; rfl
  | cons e l ih =>
    intro p
    rw [recover, recover]
    simp only [ih]
    rfl

theorem tables_onError (t : Tables) (sem : Sem V X E) (p : Parser V X) (top : Entry V) (major : Nat) (m : Minor V) :
    onError (ρ.tables t) sem p top major m = onError t (ρ.sem sem) p top major m := by
  unfold onError
  simp only [tables_expected, tables_recover]
  rfl

theorem tables_step (t : Tables) (sem : Sem V X E) (p : Parser V X) (major : Nat) (m : Minor V) :
    step (ρ.tables t) sem p major m = step t (ρ.sem sem) p major m := by
  unfold step
  simp only [tables_findShift, tables_reduce, tables_onError]
  rfl

theorem tables_loop (t : Tables) (sem : Sem V X E) (major : Nat) (m : Minor V) (n : Nat) : ∀ p : Parser V X,
    loop (ρ.tables t) sem major m n p = loop t (ρ.sem sem) major m n p := by
  induction n with
  | zero => intro p; rfl
  | succ n ih =>
    intro p
    rw [loop, loop]
    simp only [ih, tables_step]

theorem tables_parseToken (t : Tables) (sem : Sem V X E) (n : Nat) (p : Parser V X) (major : Nat) (m : Minor V) :
    parseToken (ρ.tables t) sem n p major m = parseToken t (ρ.sem sem) n p major m := by
  unfold parseToken
  simp only [tables_loop]

theorem tables_parse (t : Tables) (sem : Sem V X E) (n : Nat) (p : Parser V X) (tok : Tok V) :
    Pomelo.parse (ρ.tables t) sem n p tok = Pomelo.parse t (ρ.sem sem) n p tok := by
  unfold Pomelo.parse
  simp only [tables_parseToken]
  rfl

theorem tables_end (t : Tables) (sem : Sem V X E) (n : Nat) (p : Parser V X) :
    endOfInput (ρ.tables t) sem n p = endOfInput t (ρ.sem sem) n p := by
  unfold endOfInput
  simp only [tables_parseToken]
  rfl

theorem tables_feed (t : Tables) (sem : Sem V X E) (n : Nat) (toks : List (Tok V)) : ∀ p : Parser V X,
    Pomelo.feed (ρ.tables t) sem n p toks = Pomelo.feed t (ρ.sem sem) n p toks := by
  induction toks with
  | nil => intro p; rfl
  | cons a toks ih =>
    intro p
    unfold Pomelo.feed
    simp only [tables_parse, ih]

theorem tables_runAll (t : Tables) (sem : Sem V X E) (n : Nat) (x : X) (toks : List (Tok V)) :
    Pomelo.runAll (ρ.tables t) sem n x toks = Pomelo.runAll t (ρ.sem sem) n x toks := by
  unfold Pomelo.runAll
  simp only [tables_feed, tables_end]
  rfl

end Pomelo
