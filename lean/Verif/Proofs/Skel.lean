import Verif.Spec.Plain
import Verif.Proofs.Outer
/-!
# The automaton does not depend on types and blocks

What is left of a grammar without types, aliases, blocks and outer directives, and that every pass up to the packed tables works on it.
-/

namespace Pomelo

open Spec

def Symbol.skel (b : Symbol) : Symbol := { b with dataType := none, dtNum := 0, attributes := false }

def RhsSym.skel (s : RhsSym) : RhsSym := ⟨s.sym, false⟩

def Rule.skel (r : Rule) : Rule := { r with code := none, rhs := r.rhs.map RhsSym.skel }

def Grammar.skel (g : Grammar) : Grammar :=
  { g with
    syms := g.syms.map Symbol.skel, rules := g.rules.map Rule.skel, defaultType := none, extraToken := none
    arg := none, errType := none, syntaxError := false, parseFail := false, stackOverflow := false
    tokenEnum := none, parserStruct := none, stackType := none, stackLimit := 100 }

section
variable {b : Symbol} {r : Rule} {g : Grammar}
@[simp] theorem ssk_name : b.skel.name = b.name := rfl
@[simp] theorem ssk_index : b.skel.index = b.index := rfl
@[simp] theorem ssk_kind : b.skel.kind = b.kind := rfl
@[simp] theorem ssk_rules : b.skel.rules = b.rules := rfl
@[simp] theorem ssk_first : b.skel.firstSet = b.firstSet := rfl
@[simp] theorem ssk_lambda : b.skel.lambda = b.lambda := rfl
@[simp] theorem ssk_subs : b.skel.subs = b.subs := rfl
@[simp] theorem ssk_fallback : b.skel.fallback = b.fallback := rfl
@[simp] theorem ssk_prec : b.skel.precedence = b.precedence := rfl
@[simp] theorem ssk_use : b.skel.useCnt = b.useCnt := rfl
@[simp] theorem ssk_isLambda : b.skel.isLambda = b.isLambda := rfl
@[simp] theorem rsk_lhs : r.skel.lhs = r.lhs := rfl
@[simp] theorem rsk_rhs : r.skel.rhs = r.rhs.map RhsSym.skel := rfl
@[simp] theorem rsk_start : r.skel.lhsStart = r.lhsStart := rfl
@[simp] theorem rsk_precSym : r.skel.precSym = r.precSym := rfl
@[simp] theorem rsk_prec : r.skel.precedence = r.precedence := rfl
@[simp] theorem xsk_sym {x : RhsSym} : x.skel.sym = x.sym := rfl
@[simp] theorem gsk_syms : g.skel.syms = g.syms.map Symbol.skel := rfl
@[simp] theorem gsk_symbols : g.skel.symbols = g.symbols := rfl
@[simp] theorem gsk_rules : g.skel.rules = g.rules.map Rule.skel := rfl
@[simp] theorem gsk_errorSymbol : g.skel.errorSymbol = g.errorSymbol := rfl
@[simp] theorem gsk_wildcard : g.skel.wildcard = g.wildcard := rfl
@[simp] theorem gsk_start : g.skel.start = g.start := rfl
@[simp] theorem gsk_hasFallback : g.skel.hasFallback = g.hasFallback := rfl
@[simp] theorem gsk_optionals : g.skel.optionals = g.optionals := rfl
@[simp] theorem gsk_precs : g.skel.prec = g.prec := rfl
@[simp] theorem gsk_num : g.skel.numTerminals = g.numTerminals := rfl
@[simp] theorem gsk_dflt : g.skel.defaultIndex = g.defaultIndex := rfl
end

@[simp] theorem getD_skel (l : List Symbol) (s : Nat) : (l.map Symbol.skel).getD s default = (l.getD s default).skel := by
  rw [List.getD_eq_getElem?_getD, List.getD_eq_getElem?_getD, List.getElem?_map]
  cases l[s]? <;> rfl

@[simp] theorem gsk_sym (g : Grammar) (s : SymbolId) : g.skel.sym s = (g.sym s).skel := getD_skel g.syms s

@[simp] theorem gsk_rule (g : Grammar) (r : RuleId) : g.skel.rule r = (g.rule r).skel := by
  show (g.rules.map Rule.skel).getD r default = _
  rw [List.getD_eq_getElem?_getD, List.getElem?_map]
  unfold Grammar.rule
  rw [List.getD_eq_getElem?_getD]
  cases g.rules[r]? <;> rfl

theorem modifySym_skel {f f' : Symbol → Symbol} (h : ∀ b : Symbol, f' (b.skel) = (f b).skel) (g : Grammar) (s : SymbolId) :
    g.skel.modifySym s f' = (g.modifySym s f).skel := by
  show ({ g.skel with syms := _ } : Grammar) = _
  rw [gsk_syms, modify_map _ h]
  rfl

theorem foldl_skel {α : Type} {F F' : Grammar → α → Grammar} (h : ∀ g a, F' g.skel a = (F g a).skel) (l : List α) :
    ∀ g : Grammar, l.foldl F' g.skel = (l.foldl F g).skel := by
  induction l with
  | nil => intro g; rfl
  | cons a l ih => intro g; rw [List.foldl_cons, List.foldl_cons, h, ih]

theorem sortSymbols_skel (g : Grammar) : g.skel.sortSymbols = g.sortSymbols.skel := by
  unfold Grammar.sortSymbols
  simp only [gsk_sym, ssk_kind]
  rfl

theorem assignIndices_skel (ss : List SymbolId) : ∀ (g : Grammar) (i : Nat), g.skel.assignIndices i ss = (g.assignIndices i ss).skel := by
  induction ss with
  | nil => intro g i; rfl
  | cons s ss ih =>
    intro g i
    rw [Grammar.assignIndices, Grammar.assignIndices, modifySym_skel (f := fun b => { b with index := i }) (fun b => rfl)]
    simp only [gsk_sym, ssk_kind]
    rw [← ih]
    cases ((g.modifySym s fun b => { b with index := i }).sym s).kind <;> rfl

theorem prep0_skel (g : Grammar) : prep0 g.skel = (prep0 g).skel := by
  unfold prep0
  rw [sortSymbols_skel]
  rfl

theorem prep1_skel (g : Grammar) : prep1 g.skel = (prep1 g).skel := by
  unfold prep1
  rw [gsk_rule]
  rfl

theorem symPrec_skel (g : Grammar) (s : SymbolId) : g.skel.symPrec s = g.symPrec s := by
  unfold Grammar.symPrec
  simp only [gsk_sym, ssk_kind, ssk_subs, ssk_prec]

theorem rulePrec_skel (g : Grammar) (r : Rule) : g.skel.rulePrec r.skel = (g.rulePrec r).skel := by
  unfold Grammar.rulePrec
  simp only [symPrec_skel, rsk_precSym, rsk_rhs, gsk_sym, ssk_prec]
  cases r.precSym with
  | some p => rfl
  | none =>
    simp only [List.find?_map]
    rw [show ((fun s : RhsSym => (g.symPrec s.sym).isSome) ∘ RhsSym.skel) = fun s => (g.symPrec s.sym).isSome from rfl]
    cases r.rhs.find? (fun s => (g.symPrec s.sym).isSome) <;> rfl

theorem findRulePrecedences_skel (g : Grammar) : g.skel.findRulePrecedences = g.findRulePrecedences.skel := by
  unfold Grammar.findRulePrecedences
  simp only [Grammar.skel, List.map_map]
  congr 1
  apply List.map_congr_left
  intro r _
  exact rulePrec_skel g r

theorem lambdaStep_skel (acc : List Symbol × Bool) (r : Rule) :
    lambdaStep (acc.1.map Symbol.skel, acc.2) r.skel = ((lambdaStep acc r).1.map Symbol.skel, (lambdaStep acc r).2) := by
  unfold lambdaStep
  simp only [getD_skel, ssk_isLambda, rsk_lhs, rsk_rhs, List.all_map]
  rw [show ((fun s : RhsSym => (acc.1.getD s.sym default).isLambda) ∘ RhsSym.skel) = fun s => (acc.1.getD s.sym default).isLambda from rfl]
  by_cases h1 : (acc.1.getD r.lhs default).isLambda = true
  · simp only [h1, if_true]
  · simp only [if_neg h1]
    by_cases h2 : (r.rhs.all fun s => (acc.1.getD s.sym default).isLambda) = true
    · simp only [h2, if_true]
      rw [modify_map Symbol.skel (f := fun b => { b with lambda := true }) (fun b => rfl)]
    · simp only [if_neg h2]

theorem foldl_ssk {F : List Symbol × Bool → Rule → List Symbol × Bool}
    (h : ∀ acc r, F (acc.1.map Symbol.skel, acc.2) r.skel = ((F acc r).1.map Symbol.skel, (F acc r).2)) (l : List Rule) :
    ∀ acc, (l.map Rule.skel).foldl F (acc.1.map Symbol.skel, acc.2) = ((l.foldl F acc).1.map Symbol.skel, (l.foldl F acc).2) := by
  induction l with
  | nil => intro acc; rfl
  | cons r l ih => intro acc; rw [List.map_cons, List.foldl_cons, List.foldl_cons, h, ih]

theorem lambdaLoop_skel (rules : List Rule) (n : Nat) : ∀ syms : List Symbol, lambdaLoop (rules.map Rule.skel) n (syms.map Symbol.skel) =
    (lambdaLoop rules n syms).map (List.map Symbol.skel) := by
  induction n with
  | zero => intro syms; rfl
  | succ n ih =>
    intro syms
    rw [lambdaLoop, lambdaLoop]
    have := foldl_ssk lambdaStep_skel rules (syms, false)
    simp only at this
    rw [this]
    simp only
    split
    · exact ih _
    · rfl

theorem growFirst_skel (acc : List Symbol × Bool) (s : SymbolId) (add : List Nat) :
    growFirst (acc.1.map Symbol.skel, acc.2) s add = ((growFirst acc s add).1.map Symbol.skel, (growFirst acc s add).2) := by
  unfold growFirst
  simp only [getD_skel, ssk_first]
  rw [modify_map Symbol.skel (f := fun b => { b with firstSet := setUnion (acc.1.getD s default).firstSet add }) (fun b => rfl)]

theorem firstRhs_skel (s1 : SymbolId) (xs : List RhsSym) : ∀ acc : List Symbol × Bool,
    firstRhs s1 (acc.1.map Symbol.skel, acc.2) xs = ((firstRhs s1 acc xs).1.map Symbol.skel, (firstRhs s1 acc xs).2) := by
  induction xs with
  | nil => intro acc; rfl
  | cons x xs ih =>
    intro acc
    rw [firstRhs, firstRhs]
    simp only [getD_skel, ssk_isLambda, ssk_kind, ssk_index, ssk_subs, ssk_first, ssk_lambda]
    by_cases h1 : s1 = x.sym
    · simp only [if_pos h1]
      by_cases h2 : (acc.1.getD s1 default).isLambda = true
      · simp only [h2, if_true]; exact ih acc
      · simp only [if_neg h2]
    · simp only [if_neg h1]
      cases (acc.1.getD x.sym default).kind with
      | terminal => exact growFirst_skel ..
      | multiTerminal => exact growFirst_skel ..
      | nonTerminal =>
        simp only [growFirst_skel]
        by_cases h2 : (acc.1.getD x.sym default).lambda = true
        · simp only [h2, if_true]; exact ih _
        · simp only [if_neg h2]

theorem firstRhs_map (l : SymbolId) : ∀ (rhs : List RhsSym) (acc : List Symbol × Bool), firstRhs l acc (rhs.map RhsSym.skel) = firstRhs l acc rhs
  | [], acc => rfl
  | s :: rest, acc => by
    rw [List.map_cons, firstRhs, firstRhs]
    simp only [xsk_sym, firstRhs_map l rest]

theorem firstLoop_skel (rules : List Rule) (n : Nat) : ∀ syms : List Symbol, firstLoop (rules.map Rule.skel) n (syms.map Symbol.skel) =
    (firstLoop rules n syms).map (List.map Symbol.skel) := by
  induction n with
  | zero => intro syms; rfl
  | succ n ih =>
    intro syms
    rw [firstLoop, firstLoop]
    have := foldl_ssk (F := fun acc r => firstRhs r.lhs acc r.rhs) (fun acc r => (congrArg (firstRhs r.lhs _) rfl).trans ((firstRhs_map r.lhs r.rhs _).trans (firstRhs_skel r.lhs r.rhs acc))) rules (syms, false)
    simp only at this
    rw [this]
    simp only
    split
    · exact ih _
    · rfl

theorem findFirstSets_skel (g : Grammar) : g.skel.findFirstSets = g.findFirstSets.map (Grammar.skel) := by
  unfold Grammar.findFirstSets
  rw [gsk_rules, gsk_syms, List.length_map, lambdaLoop_skel]
  cases lambdaLoop g.rules (g.syms.length + 1) g.syms with
  | error e => rfl
  | ok syms =>
    simp only [Except.map]
    rw [firstLoop_skel]
    cases firstLoop g.rules (g.syms.length * g.syms.length + 1) syms <;> rfl

/-! ## States -/

theorem rhsSyms_skel (g : Grammar) (r : RuleId) : g.skel.rhsSyms r = g.rhsSyms r := by
  unfold Grammar.rhsSyms
  simp

theorem followOf_skel (g : Grammar) (xs : List SymbolId) : g.skel.followOf xs = g.followOf xs := by
  induction xs with
  | nil => rfl
  | cons x xs ih =>
    rw [Grammar.followOf, Grammar.followOf]
    simp only [gsk_sym, ssk_kind, ssk_index, ssk_subs, ssk_lambda, ssk_first, ih]

theorem closeItem_skel (g : Grammar) (sid : StateId) (cur : List Cfg) (c : Item) : g.skel.closeItem sid cur c = g.closeItem sid cur c := by
  unfold Grammar.closeItem
  simp only [rhsSyms_skel, gsk_sym, ssk_kind, ssk_rules, followOf_skel, gsk_errorSymbol]
  rfl

theorem closureLoop_skel (g : Grammar) (sid : StateId) (n : Nat) : ∀ i cur, g.skel.closureLoop sid n i cur = g.closureLoop sid n i cur := by
  induction n with
  | zero => intro i cur; rfl
  | succ n ih =>
    intro i cur
    rw [Grammar.closureLoop, Grammar.closureLoop]
    simp only [closeItem_skel, ih]

theorem closure_skel (g : Grammar) (sid : StateId) (cur : List Cfg) : g.skel.closure sid cur = g.closure sid cur := by
  unfold Grammar.closure
  simp only [closureLoop_skel, gsk_rules, List.length_map]

theorem next_skel (g : Grammar) (i : Item) : g.skel.next i = g.next i := by
  unfold Grammar.next
  rw [rhsSyms_skel]

theorem shiftActions_skel (g : Grammar) (sp : SymbolId) (t : StateId) : g.skel.shiftActions sp t = g.shiftActions sp t := by
  unfold Grammar.shiftActions
  simp only [gsk_sym, ssk_kind, ssk_subs]

theorem shiftBasis_skel (g : Grammar) (sid : StateId) (sp : SymbolId) (l : List Cfg) : g.skel.shiftBasis sid sp l = g.shiftBasis sid sp l := by
  unfold Grammar.shiftBasis
  simp only [next_skel]

theorem shiftsLoop_skel (g : Grammar) (get) (sid : StateId) (n : Nat) : ∀ sts pending aps,
    g.skel.shiftsLoop get sid n sts pending aps = g.shiftsLoop get sid n sts pending aps := by
  induction n with
  | zero => intro _ _ _; rfl
  | succ n ih =>
    intro sts pending aps
    unfold Grammar.shiftsLoop
    simp only [next_skel, shiftBasis_skel, shiftActions_skel, ih]

theorem getState_skel (g : Grammar) (n : Nat) : ∀ sts cur, g.skel.getState n sts cur = g.getState n sts cur := by
  induction n with
  | zero => intro _ _; rfl
  | succ n ih =>
    intro sts cur
    rw [Grammar.getState, Grammar.getState]
    have : g.skel.getState n = g.getState n := funext fun a => funext fun b => ih a b
    simp only [closure_skel, shiftsLoop_skel, this]

theorem startBasis_skel (g : Grammar) (sp : SymbolId) : g.skel.startBasis sp = g.startBasis sp := by
  unfold Grammar.startBasis
  simp only [gsk_sym, ssk_kind, ssk_rules]

theorem markStart_skel (g : Grammar) (sp : SymbolId) : g.skel.markStart sp = (g.markStart sp).skel := by
  have h : ∀ (l : List RuleId) (rs : List Rule), l.foldl (fun rs rp => rs.modify rp (fun r => { r with lhsStart := true })) (rs.map Rule.skel) =
      (l.foldl (fun rs rp => rs.modify rp (fun r => { r with lhsStart := true })) rs).map Rule.skel := by
    intro l
    induction l with
    | nil => intro rs; rfl
    | cons a l ih =>
      intro rs
      rw [List.foldl_cons, List.foldl_cons, modify_map Rule.skel (f := fun r => { r with lhsStart := true }) (fun r => rfl), ih]
  unfold Grammar.markStart
  simp only [gsk_sym, ssk_kind, ssk_rules, gsk_rules, h]
  cases (g.sym sp).kind <;> rfl

theorem numItems_skel (g : Grammar) : g.skel.numItems = g.numItems := by
  unfold Grammar.numItems
  rw [gsk_rules, List.map_map]
  congr 1
  apply List.map_congr_left
  intro r _
  simp [Function.comp]

theorem findStates_skel (g : Grammar) : g.skel.findStates = g.findStates.map (fun x => (x.1.skel, x.2)) := by
  unfold Grammar.findStates
  have e : (g.skel.rules.any fun r => r.rhs.any fun s => decide (s.sym = g.skel.start.getD 0)) =
      g.rules.any fun r => r.rhs.any fun s => decide (s.sym = g.start.getD 0) := by
    rw [gsk_rules, List.any_map]
    congr 1
    funext r
    simp only [Function.comp, rsk_rhs, List.any_map]
    rfl
  by_cases h : (g.rules.any fun r => r.rhs.any fun s => decide (s.sym = g.start.getD 0)) = true
  · simp only [if_pos h]
    exact (if_pos (e.trans h)).trans rfl
  · simp only [if_neg h]
    refine (if_neg (fun w => h (e.symm.trans w))).trans ?_
    simp only [gsk_start, startBasis_skel, markStart_skel, getState_skel, numItems_skel]
    cases (g.markStart (g.start.getD 0)).getState (2 ^ (g.markStart (g.start.getD 0)).numItems + 1) [] (g.startBasis (g.start.getD 0)) <;> rfl

theorem actionLt_skel (g : Grammar) (a b : Action) : g.skel.actionLt a b = g.actionLt a b := by
  unfold Grammar.actionLt
  simp only [gsk_sym, ssk_index]

theorem reduceActions_skel (g : Grammar) (st : LState) : g.skel.reduceActions st = g.reduceActions st := by
  unfold Grammar.reduceActions
  simp only [rhsSyms_skel, gsk_num, gsk_symbols]

theorem rawActions_skel (g : Grammar) (q : StateId) (st : LState) : g.skel.rawActions q st = g.rawActions q st := by
  unfold Grammar.rawActions
  simp only [reduceActions_skel, gsk_start]

theorem resolveConflict_skel (g : Grammar) (x y : Action) : g.skel.resolveConflict x y = g.resolveConflict x y := by
  unfold Grammar.resolveConflict
  simp only [gsk_sym, gsk_rule, ssk_prec, rsk_prec]

theorem resolveFrom_skel (g : Grammar) (ys : List Action) : ∀ x, g.skel.resolveFrom x ys = g.resolveFrom x ys := by
  induction ys with
  | nil => intro x; rfl
  | cons y ys ih =>
    intro x
    rw [Grammar.resolveFrom, Grammar.resolveFrom]
    simp only [resolveConflict_skel, ih]

theorem resolveAll_skel (g : Grammar) (n : Nat) : ∀ l, g.skel.resolveAll n l = g.resolveAll n l := by
  induction n with
  | zero => intro l; rfl
  | succ n ih =>
    intro l
    cases l with
    | nil => rfl
    | cons x xs =>
      rw [Grammar.resolveAll, Grammar.resolveAll]
      simp only [resolveFrom_skel, ih]

theorem resolveState_skel (g : Grammar) (acts : List Action) : g.skel.resolveState acts = g.resolveState acts := by
  unfold Grammar.resolveState
  have : g.skel.actionLt = g.actionLt := funext fun a => funext fun b => actionLt_skel g a b
  simp only [resolveAll_skel, this]

theorem findActions_skel (g : Grammar) (sts : List LState) : g.skel.findActions sts = g.findActions sts := by
  unfold Grammar.findActions
  simp only [rawActions_skel, resolveState_skel, gsk_rules, List.length_map]

theorem fallbackDiffers_skel (g : Grammar) (acts : List Action) (d : Detail) (n : Nat) : ∀ s, g.skel.fallbackDiffers acts d n s = g.fallbackDiffers acts d n s := by
  induction n with
  | zero => intro s; rfl
  | succ n ih =>
    intro s
    rw [Grammar.fallbackDiffers, Grammar.fallbackDiffers]
    simp only [gsk_sym, ssk_fallback, ih]

theorem ignoredActions_skel (g : Grammar) (acts : List Action) : g.skel.ignoredActions acts = g.ignoredActions acts := by
  unfold Grammar.ignoredActions
  simp only [gsk_hasFallback, fallbackDiffers_skel, gsk_syms, List.length_map]

theorem findBest_skel (g : Grammar) (ig : List SymbolId) (l : List Action) : ∀ b, g.skel.findBest ig b l = g.findBest ig b l := by
  induction l with
  | nil => intro b; rfl
  | cons a l ih =>
    intro b
    rw [Grammar.findBest, Grammar.findBest]
    simp only [ih, gsk_wildcard, gsk_rule, rsk_start]
    rfl

theorem compressState_skel (g : Grammar) (d : SymbolId) (acts : List Action) : g.skel.compressState d acts = g.compressState d acts := by
  unfold Grammar.compressState
  have : g.skel.actionLt = g.actionLt := funext fun a => funext fun b => actionLt_skel g a b
  simp only [ignoredActions_skel, findBest_skel, this]

theorem symbolFind_skel (g : Grammar) (n : SymName) : g.skel.symbolFind n = g.symbolFind n := by
  unfold Grammar.symbolFind
  simp only [gsk_sym, ssk_name, gsk_symbols]

theorem compressTables_skel (g : Grammar) (acts : List (List Action)) : g.skel.compressTables acts = g.compressTables acts := by
  unfold Grammar.compressTables
  have h := symbolFind_skel g .dflt
  have h' : ∀ d, g.skel.compressState d = g.compressState d := fun d => funext fun a => compressState_skel g d a
  simp only [h, h']

theorem rstate_skel (g : Grammar) (n : Nat) (id : StateId) (acts : List Action) : g.skel.rstate n id acts = g.rstate n id acts := by
  unfold Grammar.rstate
  simp only [gsk_sym, ssk_index, gsk_num, gsk_dflt, gsk_rules, List.length_map]

theorem resortStates_skel (g : Grammar) (acts : List (List Action)) : g.skel.resortStates acts = g.resortStates acts := by
  unfold Grammar.resortStates
  simp only [rstate_skel]

/-! ## `generate_source` -/

theorem row_skel (g : Grammar) (sts : List RState) (b : Bool) (acts : List Action) : g.skel.row sts b acts = g.row sts b acts := by
  unfold Grammar.row
  simp only [gsk_sym, ssk_index, gsk_num, gsk_dflt, gsk_rules, List.length_map]

theorem pack_skel (g : Grammar) (sts : List RState) : g.skel.pack sts = g.pack sts := by
  unfold Grammar.pack
  have : g.skel.packOne sts = g.packOne sts := by
    funext p a
    unfold Grammar.packOne
    simp only [row_skel]
  rw [this]

/-! ## Declarations -/

theorem symbolNew_skel (g : Grammar) (n : SymName) (k : SymKind) :
    g.skel.symbolNew n k = ((g.symbolNew n k).1.skel, (g.symbolNew n k).2) := by
  unfold Grammar.symbolNew
  simp only [symbolFind_skel]
  split
  · rename_i s _
    rw [modifySym_skel (f := fun b => { b with
        useCnt := b.useCnt + 1
        kind := if k = .multiTerminal ∧ b.kind = .terminal then .multiTerminal else b.kind }) (fun b => rfl)]
  · simp [Grammar.skel, Symbol.skel]

theorem createRule_skel (g : Grammar) (l : SymbolId) (rhs : List RhsSym) (c : Option Code) (p : Option SymbolId) :
    (g.createRule l rhs c p).skel = g.skel.createRule l (rhs.map RhsSym.skel) none p := by
  unfold Grammar.createRule
  simp only
  rw [← modifySym_skel (f' := fun b => { b with rules := b.rules ++ [g.rules.length] }) (fun b => rfl)]
  simp [Grammar.skel, Rule.skel]

theorem declTokens_skel (e : GErr) (ids : List Ident) : ∀ g : Grammar, g.skel.declTokens e ids =
    (g.declTokens e ids).map (fun x => (x.1.skel, x.2)) := by
  induction ids with
  | nil => intro g; rfl
  | cons i ids ih =>
    intro g
    unfold Grammar.declTokens
    split
    · rfl
    · simp only [symbolNew_skel, ih]
      cases (g.symbolNew (.ident i) .terminal).1.declTokens e ids <;> rfl

theorem declAssoc_skel (p : Precedence) (ids : List Ident) : ∀ g : Grammar, g.skel.declAssoc p ids = (g.declAssoc p ids).map Grammar.skel := by
  induction ids with
  | nil => intro g; rfl
  | cons i ids ih =>
    intro g
    unfold Grammar.declAssoc
    split
    · rfl
    · simp only [symbolNew_skel, gsk_sym, ssk_prec]
      split
      · rfl
      · rw [modifySym_skel (f := fun b => { b with precedence := some p }) (fun b => rfl), ih]

theorem setFallbacks_skel (fb : SymbolId) (ss : List SymbolId) : ∀ g : Grammar, g.skel.setFallbacks fb ss = (g.setFallbacks fb ss).map Grammar.skel := by
  induction ss with
  | nil => intro g; rfl
  | cons s ss ih =>
    intro g
    unfold Grammar.setFallbacks
    simp only [gsk_sym, ssk_fallback]
    split
    · rfl
    · rw [modifySym_skel (f := fun b => { b with fallback := some fb }) (fun b => rfl)]
      exact ih { g.modifySym s (fun b => { b with fallback := some fb }) with hasFallback := true }

theorem fallbackWalk_skel (g : Grammar) (ts : List SymbolId) : ∀ n s, g.skel.fallbackWalk ts n s = g.fallbackWalk ts n s
  | 0, _ => rfl
  | n + 1, s => by
    unfold Grammar.fallbackWalk
    simp only [gsk_sym, ssk_fallback, fallbackWalk_skel g ts n]

theorem declClass_skel (tk : SymbolId) (ids : List Ident) : ∀ g : Grammar, g.skel.declClass tk ids = (g.declClass tk ids).map Grammar.skel := by
  induction ids with
  | nil => intro g; rfl
  | cons i ids ih =>
    intro g
    unfold Grammar.declClass
    split
    · rfl
    · simp only [symbolNew_skel]
      rw [modifySym_skel (f := fun b => { b with subs := b.subs ++ [_] }) (fun b => rfl), ih]

theorem declElem_skel (e : RhsElem) (g : Grammar) : g.skel.declElem e.plain = (g.declElem e).map (fun x => (x.1.skel, x.2.skel)) := by
  unfold Grammar.declElem
  rw [show e.plain.toks = e.toks from rfl, show e.plain.optional = e.optional from rfl]
  split
  · simp only
    split
    · rfl
    · simp only [symbolNew_skel, gsk_optionals]
      split
      · split <;> rfl
      · rfl
  · simp only [symbolNew_skel, declTokens_skel]
    cases (g.symbolNew .anon .multiTerminal).1.declTokens .compoundNonTerminal e.toks with
    | error e => rfl
    | ok x =>
      simp only [Except.map]
      rw [modifySym_skel (f := fun b => { b with subs := b.subs ++ x.2 }) (fun b => rfl)]
      rfl

theorem declRhs_skel (es : List RhsElem) : ∀ g : Grammar, g.skel.declRhs (es.map RhsElem.plain) =
    (g.declRhs es).map (fun x => (x.1.skel, x.2.map RhsSym.skel)) := by
  induction es with
  | nil => intro g; rfl
  | cons e es ih =>
    intro g
    rw [List.map_cons]
    unfold Grammar.declRhs
    rw [declElem_skel]
    cases g.declElem e with
    | error e => rfl
    | ok x =>
      simp only [Except.map, ih]
      cases x.1.declRhs es <;> rfl

/-- A declaration that is accepted -/
theorem parseOneDecl_skel {d : Decl} {g g1 : Grammar} (h : g.parseOneDecl d = .ok g1) :
    match d.plain with
    | none => g1.skel = g.skel
    | some d' => g.skel.parseOneDecl d' = .ok g1.skel := by
  have key : ∀ {α β : Type} {f : α → β} {e : Except GErr α} {a : α}, e = .ok a → e.map f = .ok (f a) := by
    intro α β f e a h; rw [h]; rfl
  cases d with
  | «module» | «include» | verbose => cases h; rfl
  | syntaxError | parseFail | stackOverflow | extraArgument | error | token | parser | stackSize | defaultType | extraToken =>
    simp only [Grammar.parseOneDecl] at h
    split at h
    · cases h
    · cases h; rfl
  | type a i ty =>
    simp only [Grammar.parseOneDecl, Decl.plain] at h ⊢
    split at h
    · cases h
    · rename_i nst hn
      split at h
      · cases h
      · cases h
        have hn' : (if i.isTerminal = true then (.ok .terminal : Except GErr SymKind) else if i.isNonTerminal = true then
            if (false : Bool) = true then .error .attributesOnNonTerminal else .ok .nonTerminal else .error .badSymbol) = .ok nst := by
          split at hn
          · rename_i w; rw [if_pos w]; exact hn
          · rename_i w; rw [if_neg w]
            split at hn
            · rename_i w; rw [if_pos w]
              split at hn
              · cases hn
              · exact hn
            · cases hn
        rw [hn']
        simp only [symbolNew_skel, gsk_sym]
        refine (if_neg (fun w => by cases w)).trans ?_
        rw [modifySym_skel (f := fun b => { b with dataType := ty, attributes := a }) (fun b => rfl)]
  | assoc a ids => exact (declAssoc_skel ⟨g.prec + 1, a⟩ ids { g with prec := g.prec + 1 }).trans (key h)
  | startSymbol i =>
    refine Eq.trans ?_ (key (f := Grammar.skel) h)
    simp only [Grammar.parseOneDecl, symbolNew_skel, gsk_start]
    split
    · rfl
    · split <;> rfl
  | wildcard i =>
    refine Eq.trans ?_ (key (f := Grammar.skel) h)
    simp only [Grammar.parseOneDecl, symbolNew_skel, gsk_wildcard]
    split
    · rfl
    · split <;> rfl
  | fallback f ids =>
    refine Eq.trans ?_ (key (f := Grammar.skel) h)
    simp only [Grammar.parseOneDecl, declTokens_skel]
    cases g.declTokens .fallbackNotToken ids with
    | error e => rfl
    | ok x =>
      simp only [Except.map, symbolNew_skel, fallbackWalk_skel, gsk_syms, List.length_map]
      split
      · rfl
      · cases (x.1.symbolNew (.ident f) .terminal).1.fallbackWalk x.2 ((x.1.symbolNew (.ident f) .terminal).1.syms.length + 1) (x.1.symbolNew (.ident f) .terminal).2 with
        | error e => rfl
        | ok u => exact setFallbacks_skel _ _ _
  | tokenClass t ids =>
    refine Eq.trans ?_ (key (f := Grammar.skel) h)
    simp only [Grammar.parseOneDecl, symbolNew_skel]
    split
    · rfl
    · exact declClass_skel _ _ _
  | rule l rhs c p =>
    refine Eq.trans ?_ (key (f := Grammar.skel) h)
    simp only [Grammar.parseOneDecl, symbolNew_skel, declRhs_skel]
    split
    · rfl
    · cases (g.symbolNew (.ident l) .nonTerminal).1.declRhs rhs with
      | error e => rfl
      | ok x =>
        simp only [Except.map, symbolNew_skel]
        cases p with
        | none => simp only [createRule_skel]; rfl
        | some i =>
          simp only
          split
          · rfl
          · simp only [createRule_skel]; rfl

theorem parseDecls_skel : ∀ {ds : List Decl} {g g1 : Grammar}, g.parseDecls ds = .ok g1 → g.skel.parseDecls (plain ds) = .ok g1.skel
  | [], g, g1, h => by cases h; rfl
  | d :: ds, g, g1, h => by
    rw [Grammar.parseDecls] at h
    cases h1 : g.parseOneDecl d with
    | error e => rw [h1] at h; cases h
    | ok g2 =>
      rw [h1] at h
      have hd := parseOneDecl_skel h1
      have ih := parseDecls_skel h
      unfold plain at ih ⊢
      rw [List.filterMap_cons]
      cases hp : d.plain with
      | none => rw [hp] at hd; rw [← hd]; exact ih
      | some d' =>
        rw [hp] at hd
        simp only [Grammar.parseDecls]
        rw [hd]
        exact ih

theorem newFromDecls_skel {ds : List Decl} {g : Grammar} (h : newFromDecls ds = .ok g) : newFromDecls (plain ds) = .ok g.skel := by
  unfold newFromDecls at h ⊢
  cases h1 : Grammar.initial.parseDecls ds with
  | error e => rw [h1] at h; cases h
  | ok g1 =>
    rw [h1] at h
    have := parseDecls_skel h1
    rw [show Grammar.initial.skel = Grammar.initial from rfl] at this
    rw [this]
    simp only [symbolNew_skel, gsk_rules, List.isEmpty_map] at h ⊢
    split at h
    · cases h
    · rename_i w; rw [if_neg w]; cases h; rfl

/-! ## Passes that change types -/

/-- The rules of an optional symbol -/
def addOptS (g : Grammar) (o : SymbolId × SymbolId) : Grammar :=
  (g.createRule o.2 [] none none).createRule o.2 [⟨o.1, false⟩] none none

/-- `prepare` without types -/
def prepS (ord : List (SymbolId × SymbolId) → List (SymbolId × SymbolId)) (g : Grammar) : Grammar :=
  let g1 := prep1 ((prep0 g).assignIndices 0 (prep0 g).symbols)
  { (ord g1.optionals).foldl addOptS g1 with optionals := [] }

theorem modifySym_types {f : Symbol → Symbol} (h : ∀ b, (f b).skel = b.skel) (g : Grammar) (s : SymbolId) : (g.modifySym s f).skel = g.skel := by
  rw [← modifySym_skel (f' := id) (fun b => (h b).symm)]
  show ({ g.skel with syms := _ } : Grammar) = _
  rw [List.modify_id]

theorem addExtraToken_types (g : Grammar) : g.addExtraToken.skel = g.skel := by
  unfold Grammar.addExtraToken
  split
  · rfl
  · generalize (g.symbols.take g.numTerminals).drop 1 = l
    induction l generalizing g with
    | nil => rfl
    | cons s l ih =>
      rw [List.foldl_cons]
      refine (ih _ (by assumption)).trans (modifySym_types ?_ g s)
      intro b
      rfl

theorem addOptional_skel (g : Grammar) (o : SymbolId × SymbolId) : addOptS g.skel o = (g.addOptional o).skel := by
  unfold Grammar.addOptional addOptS
  simp only [createRule_skel]
  rw [modifySym_types (f := fun b => { b with dataType := some (.option ((g.sym o.1).dataType.getD .unit)) }) (by intro b; rfl)]
  rfl

theorem prepare_skel (g : Grammar) (ord) : (g.prepare ord).skel = prepS ord g.skel := by
  rw [prepare_parts]
  unfold prepS Grammar.addOptionals
  simp only [prep0_skel, gsk_symbols, assignIndices_skel, prep1_skel]
  have h := addExtraToken_types (prep1 ((prep0 g).assignIndices 0 (prep0 g).symbols))
  rw [← h]
  generalize (prep1 ((prep0 g).assignIndices 0 (prep0 g).symbols)).addExtraToken = g'
  rw [foldl_skel (F := Grammar.addOptional) addOptional_skel]
  rfl

theorem normalizeRules_types {g g1 : Grammar} (h : g.normalizeRules = .ok g1) : g1.skel = g.skel := by
  unfold Grammar.normalizeRules at h
  cases hm : g.rules.mapM g.normalizeRule with
  | error e => rw [hm] at h; cases h
  | ok rs =>
    rw [hm] at h
    cases h
    have key : ∀ {l l' : List Rule}, l.mapM g.normalizeRule = .ok l' → l'.map Rule.skel = l.map Rule.skel := by
      intro l
      induction l with
      | nil => intro l' h; cases h; rfl
      | cons r l ih =>
        intro l' h
        rw [List.mapM_cons] at h
        cases h1 : g.normalizeRule r with
        | error e => rw [h1] at h; cases h
        | ok r' =>
          cases h2 : l.mapM g.normalizeRule with
          | error e => rw [h1, h2] at h; cases h
          | ok l2 =>
            rw [h1, h2] at h
            cases h
            rw [List.map_cons, List.map_cons, ih h2]
            congr 1
            unfold Grammar.normalizeRule at h1
            split at h1
            · split at h1
              · cases h1
                simp only [Rule.skel, List.map_map]
                congr 1
                apply List.map_congr_left
                intro s _
                simp only [Function.comp]
                split <;> rfl
              · cases h1
            · cases h1; rfl
    simp only [Grammar.skel, key hm]

/-- The automaton of a grammar without types -/
def autoS (ord : List (SymbolId × SymbolId) → List (SymbolId × SymbolId)) (g : Grammar) : Except GErr (Grammar × List LState) := do
  let g ← (prepS ord g).findRulePrecedences.findFirstSets
  let (g, sts) ← g.findStates
  let sts ← findFollowSets g.syms.length (findLinks sts)
  return (g, sts)

theorem automaton_skel {g g1 : Grammar} {ord} {sts : List LState} (h : g.automaton ord = .ok (g1, sts)) : autoS ord g.skel = .ok (g1.skel, sts) := by
  unfold Grammar.automaton at h
  simp only at h
  unfold autoS
  rw [← prepare_skel, findRulePrecedences_skel]
  cases h1 : (g.prepare ord).findRulePrecedences.normalizeRules with
  | error e => rw [h1] at h; cases h
  | ok g2 =>
    rw [h1] at h
    rw [← normalizeRules_types h1, findFirstSets_skel]
    simp only [bind, Except.bind] at h ⊢
    cases h2 : g2.findFirstSets with
    | error e => rw [h2] at h; cases h
    | ok g3 =>
      rw [h2] at h
      simp only [Except.map] at h ⊢
      rw [findStates_skel]
      cases h3 : g3.findStates with
      | error e => rw [h3] at h; cases h
      | ok x =>
        rw [h3] at h
        simp only [Except.map, gsk_syms, List.length_map] at h ⊢
        cases h4 : findFollowSets x.1.syms.length (findLinks x.2) with
        | error e => rw [h4] at h; cases h
        | ok y => rw [h4] at h; cases h; rfl

theorem assignTypes_types : ∀ {ss : List SymbolId} {g : Grammar} {types} {x : Grammar × List Ty}, g.assignTypes types ss = .ok x → x.1.skel = g.skel
  | [], g, types, x, h => by cases h; rfl
  | s :: ss, g, types, x, h => by
    rw [Grammar.assignTypes] at h
    split at h
    · exact assignTypes_types h
    · split at h
      · cases h
      · refine (assignTypes_types h).trans (modifySym_types ?_ g s)
        intro b
        rfl
      · refine (assignTypes_types h).trans (modifySym_types ?_ g s)
        intro b
        rfl

/-- The fallback table without the check of types -/
def fallbackS (g : Grammar) : List Nat :=
  let mx := match (List.range g.symbols.length).reverse.find?
      (fun i => ((g.sym (g.symbols.getD i 0)).fallback).isSome) with
    | some x => x + 1
    | none => 0
  (g.symbols.take mx).map fun p =>
    match (g.sym p).fallback with
    | none => 0
    | some fb => (g.sym fb).index

theorem mapM_ok_map {α β γ : Type} {f : α → Except GErr β} {k : β → γ} {f' : α → γ} (hf : ∀ a b, f a = .ok b → k b = f' a) :
    ∀ {l : List α} {l' : List β}, l.mapM f = .ok l' → l'.map k = l.map f'
  | [], l', h => by cases h; rfl
  | a :: l, l', h => by
    rw [List.mapM_cons] at h
    cases h1 : f a with
    | error e => rw [h1] at h; cases h
    | ok b =>
      cases h2 : l.mapM f with
      | error e => rw [h1, h2] at h; cases h
      | ok l2 =>
        rw [h1, h2] at h
        cases h
        rw [List.map_cons, List.map_cons, mapM_ok_map hf h2, hf a b h1]

theorem fallbackTable_skel {g : Grammar} {l : List Nat} (h : g.fallbackTable = .ok l) : l = fallbackS g.skel := by
  unfold Grammar.fallbackTable at h
  unfold fallbackS
  simp only [gsk_sym, ssk_fallback, gsk_symbols, ssk_index]
  refine (List.map_id l).symm.trans (mapM_ok_map (k := id) ?_ h)
  intro p n hp
  split at hp
  · cases hp; rename_i w; rw [w]; rfl
  · rename_i w
    split at hp
    · cases hp; rw [w]; rfl
    · cases hp

/-- The tables without types and blocks -/
def coreS (g : Grammar) (sts : List RState) : Tables :=
  match g.pack sts with
  | none => default
  | some p =>
    match ofstTable sts.length p.tkn, ofstTable sts.length p.nt with
    | some sh, some rd =>
      { nState := sts.length
        nRule := g.rules.length
        errorSymbol := if (g.sym g.errorSymbol).useCnt > 1 then (g.sym g.errorSymbol).index else 0
        wildcard := match g.wildcard with | some w => (g.sym w).index | none => 0
        noCode := g.symbols.length
        stackLimit := 0
        action := p.tab.map (fun c => match c with
          | none => sts.length + g.rules.length + 2
          | some a => a.act)
        lookahead := p.tab.map (fun c => match c with
          | none => g.defaultIndex
          | some a => a.la)
        shiftUseDflt := minOfst p.tkn - 1
        shiftOfst := sh
        reduceUseDflt := minOfst p.nt - 1
        reduceOfst := rd
        dflt := sts.map (·.dflt)
        fallback := fallbackS g
        ruleInfo := g.rules.map (fun r => (g.sym r.lhs).index)
        numTerminals := g.numTerminals
        tokenNames := (g.symbols.take g.numTerminals).map (fun s => (g.sym s).name)
        tokenDt := []
        errorDt := 0
        rootDt := none
        ruleCode := g.rules.map fun r => ⟨r.rhs.map fun _ => none, none, 0⟩ }
    | _, _ => default

theorem generate_skel {g : Grammar} {sts : List RState} {t : Tables} (s : GenSpec g sts t) : t.core = coreS g.skel sts := by
  rcases t with ⟨_, _, _, _, _, _, _, _, _, _, _, _, _, fb', _, _, _, _, _, _, rc'⟩
  obtain ⟨gT, types, p, sh, rd, fb, rc, hw, hT, hit, hp, hsh, hrd, hfb, hrc, e1, e2, e3, e4, e5, e6, e7, e8, e9, e10, e11, e12, e13, e14, e15, e16,
    e17, e18, e19, e20, e21⟩ := s
  subst_vars
  rw [← assignTypes_types hT]
  have hf := fallbackTable_skel hfb
  simp only at hrc hf ⊢
  unfold coreS
  rw [pack_skel, hp]
  simp only [hsh, hrd, Tables.core, gsk_rules, List.length_map, gsk_sym, gsk_errorSymbol, ssk_use, ssk_index, gsk_wildcard, gsk_symbols,
    gsk_dflt, gsk_num, ssk_name, List.map_map, hf]
  have e : rc'.map (fun c => (⟨c.pats.map fun _ => none, none, 0⟩ : RuleCode)) =
      gT.rules.map ((fun r => (⟨r.rhs.map fun _ => none, none, 0⟩ : RuleCode)) ∘ Rule.skel) := by
    refine mapM_ok_map ?_ hrc
    intro r c hc
    unfold Grammar.translateCode at hc
    split at hc
    · cases hc
    · split at hc
      · cases hc
      · cases hc; simp [Function.comp]
  rw [e]
  rfl

/-- What `build` makes of a grammar, without types and blocks -/
def buildS (ord : List (SymbolId × SymbolId) → List (SymbolId × SymbolId)) (g : Grammar) : Except GErr Tables := do
  let (g, sts) ← autoS ord g
  let (acts, _) ← g.findActions sts
  let acts ← g.compressTables acts
  return coreS g (g.resortStates acts)

theorem compile_skel {ds : List Decl} {ord} {t : Tables} (h : compile ord ds = .ok t) :
    ∃ g, newFromDecls (plain ds) = .ok g ∧ buildS ord g = .ok t.core := by
  obtain ⟨s⟩ := compile_cspec h
  refine ⟨s.g0.skel, newFromDecls_skel s.decls, ?_⟩
  unfold buildS
  rw [automaton_skel s.auto]
  simp only [bind, Except.bind]
  rw [findActions_skel, s.actions]
  simp only
  rw [compressTables_skel, s.compress]
  simp only [pure, Except.pure]
  rw [generate_skel s.gen, resortStates_skel]

end Pomelo
