import Verif.Spec.Outer
import Verif.Spec.Causes
import Verif.Spec.Height
import Verif.Spec.Reading
import Verif.Proofs.Rename
import Verif.Proofs.GenCauses
/-!
# The tables do not depend on the text around the parser
-/

namespace Pomelo

open Spec

/-- What the outer directives leave in the grammar -/
structure Dress where
  arg : Option Ty := none
  errType : Option Ty := none
  syntaxError : Bool := false
  parseFail : Bool := false
  stackOverflow : Bool := false
  tokenEnum : Option Skeleton := none
  parserStruct : Option Skeleton := none
  stackType : Option Ty := none
  stackLimit : Nat := 100

def Grammar.dress (o : Dress) (g : Grammar) : Grammar :=
  { g with
    arg := o.arg, errType := o.errType, syntaxError := o.syntaxError, parseFail := o.parseFail, stackOverflow := o.stackOverflow
    tokenEnum := o.tokenEnum, parserStruct := o.parserStruct, stackType := o.stackType, stackLimit := o.stackLimit }

variable {o : Dress}

theorem modifySym_dress (g : Grammar) (s : SymbolId) (f : Symbol → Symbol) : (g.dress o).modifySym s f = (g.modifySym s f).dress o := rfl

theorem symbolNew_dress (g : Grammar) (n : SymName) (k : SymKind) :
    (g.dress o).symbolNew n k = ((g.symbolNew n k).1.dress o, (g.symbolNew n k).2) := by
  unfold Grammar.symbolNew
  have : (g.dress o).symbolFind n = g.symbolFind n := rfl
  simp only [this]
  split <;> rfl

theorem declTokens_dress (e : GErr) (ids : List Ident) : ∀ g : Grammar, (g.dress o).declTokens e ids =
    (g.declTokens e ids).map (fun x => (x.1.dress o, x.2)) := by
  induction ids with
  | nil => intro g; rfl
  | cons i ids ih =>
    intro g
    unfold Grammar.declTokens
    split
    · rfl
    · simp only [symbolNew_dress, ih]
      cases (g.symbolNew (.ident i) .terminal).1.declTokens e ids <;> rfl

theorem declAssoc_dress (p : Precedence) (ids : List Ident) : ∀ g : Grammar, (g.dress o).declAssoc p ids = (g.declAssoc p ids).map (Grammar.dress o) := by
  induction ids with
  | nil => intro g; rfl
  | cons i ids ih =>
    intro g
    unfold Grammar.declAssoc
    split
    · rfl
    · simp only [symbolNew_dress]
      rw [show (((g.symbolNew (.ident i) .terminal).1.dress o).sym (g.symbolNew (.ident i) .terminal).2).precedence =
        ((g.symbolNew (.ident i) .terminal).1.sym (g.symbolNew (.ident i) .terminal).2).precedence from rfl]
      split
      · rfl
      · rw [modifySym_dress, ih]

theorem setFallbacks_dress (fb : SymbolId) (ss : List SymbolId) : ∀ g : Grammar, (g.dress o).setFallbacks fb ss = (g.setFallbacks fb ss).map (Grammar.dress o) := by
  induction ss with
  | nil => intro g; rfl
  | cons s ss ih =>
    intro g
    unfold Grammar.setFallbacks
    rw [show ((g.dress o).sym s).fallback = (g.sym s).fallback from rfl]
    split
    · rfl
    · exact ih { g.modifySym s (fun b => { b with fallback := some fb }) with hasFallback := true }

theorem fallbackWalk_dress (g : Grammar) (ts : List SymbolId) : ∀ n s, (g.dress o).fallbackWalk ts n s = g.fallbackWalk ts n s
  | 0, _ => rfl
  | n + 1, s => by
    unfold Grammar.fallbackWalk
    rw [show ((g.dress o).sym s).fallback = (g.sym s).fallback from rfl]
    split
    · rfl
    · rw [fallbackWalk_dress g ts n]

theorem declClass_dress (tk : SymbolId) (ids : List Ident) : ∀ g : Grammar, (g.dress o).declClass tk ids = (g.declClass tk ids).map (Grammar.dress o) := by
  induction ids with
  | nil => intro g; rfl
  | cons i ids ih =>
    intro g
    unfold Grammar.declClass
    split
    · rfl
    · simp only [symbolNew_dress]
      rw [modifySym_dress, ih]

theorem declElem_dress (e : RhsElem) (g : Grammar) : (g.dress o).declElem e = (g.declElem e).map (fun x => (x.1.dress o, x.2)) := by
  unfold Grammar.declElem
  split
  · simp only
    split
    · rfl
    · rename_i nst _
      simp only [symbolNew_dress]
      split
      · rw [show ((g.symbolNew (.ident _) nst).1.dress o).optionals = (g.symbolNew (.ident _) nst).1.optionals from rfl]
        split <;> rfl
      · rfl
  · simp only [symbolNew_dress, declTokens_dress]
    cases (g.symbolNew .anon .multiTerminal).1.declTokens .compoundNonTerminal e.toks <;> rfl

theorem declRhs_dress (es : List RhsElem) : ∀ g : Grammar, (g.dress o).declRhs es = (g.declRhs es).map (fun x => (x.1.dress o, x.2)) := by
  induction es with
  | nil => intro g; rfl
  | cons e es ih =>
    intro g
    unfold Grammar.declRhs
    rw [declElem_dress]
    cases g.declElem e with
    | error e => rfl
    | ok x =>
      simp only [Except.map, ih]
      cases x.1.declRhs es <;> rfl

theorem parseOneDecl_dress {d : Decl} (hd : outer d = false) (g : Grammar) : (g.dress o).parseOneDecl d = (g.parseOneDecl d).map (Grammar.dress o) := by
  cases d with
  | «module» | «include» | verbose | syntaxError | parseFail | stackOverflow | extraArgument | error | token | parser | stackSize => cases hd
  | type a i ty =>
    simp only [Grammar.parseOneDecl]
    split
    · rfl
    · simp only [symbolNew_dress]
      split
      · rename_i h; rw [if_pos (by exact h)]; rfl
      · rename_i h; rw [if_neg (by exact h)]; rfl
  | assoc a ids => exact declAssoc_dress (o := o) ⟨g.prec + 1, a⟩ ids { g with prec := g.prec + 1 }
  | defaultType ty => simp only [Grammar.parseOneDecl]; cases h : g.defaultType <;> simp [h, Grammar.dress, Except.map]
  | extraToken ty => simp only [Grammar.parseOneDecl]; cases h : g.extraToken <;> simp [h, Grammar.dress, Except.map]
  | startSymbol i =>
    simp only [Grammar.parseOneDecl, symbolNew_dress]
    rw [show (g.dress o).start = g.start from rfl]
    split
    · rfl
    · split <;> rfl
  | wildcard i =>
    simp only [Grammar.parseOneDecl, symbolNew_dress]
    rw [show (g.dress o).wildcard = g.wildcard from rfl]
    split
    · rfl
    · split <;> rfl
  | fallback f ids =>
    simp only [Grammar.parseOneDecl, declTokens_dress]
    cases g.declTokens .fallbackNotToken ids with
    | error e => rfl
    | ok x =>
      simp only [Except.map, symbolNew_dress, fallbackWalk_dress]
      split
      · rfl
      · rw [show ((x.1.symbolNew (.ident f) .terminal).1.dress o).syms = (x.1.symbolNew (.ident f) .terminal).1.syms from rfl]
        cases (x.1.symbolNew (.ident f) .terminal).1.fallbackWalk x.2 ((x.1.symbolNew (.ident f) .terminal).1.syms.length + 1) (x.1.symbolNew (.ident f) .terminal).2 with
        | error e => rfl
        | ok u => exact setFallbacks_dress _ _ _
  | tokenClass t ids =>
    simp only [Grammar.parseOneDecl, symbolNew_dress]
    split
    · rfl
    · exact declClass_dress _ _ _
  | rule l rhs c p =>
    simp only [Grammar.parseOneDecl, symbolNew_dress, declRhs_dress]
    split
    · rfl
    · cases (g.symbolNew (.ident l) .nonTerminal).1.declRhs rhs with
      | error e => rfl
      | ok x =>
        simp only [Except.map, symbolNew_dress]
        cases p with
        | none => rfl
        | some i =>
          simp only
          split <;> rfl

/-- Effect of an outer directive -/
def Dress.step (o : Dress) : Decl → Dress
  | .syntaxError => { o with syntaxError := true }
  | .parseFail => { o with parseFail := true }
  | .stackOverflow => { o with stackOverflow := true }
  | .extraArgument t => { o with arg := some t }
  | .error t => { o with errType := some t }
  | .token it => { o with tokenEnum := some it }
  | .parser it => { o with parserStruct := some it }
  | .stackSize l t => { o with stackLimit := l, stackType := t }
  | _ => o

/-- What must hold before it -/
def Dress.free (o : Dress) : Decl → Bool
  | .syntaxError => !o.syntaxError
  | .parseFail => !o.parseFail
  | .stackOverflow => !o.stackOverflow
  | .extraArgument _ => o.arg.isNone
  | .error _ => o.errType.isNone
  | .token _ => o.tokenEnum.isNone
  | .parser _ => o.parserStruct.isNone
  | .stackSize _ _ => o.stackType.isNone
  | _ => true

theorem parseOneDecl_outer {d : Decl} (hd : outer d = true) (g : Grammar) :
    (g.dress o).parseOneDecl d = if o.free d then .ok (g.dress (o.step d)) else .error .alreadyDefined := by
  rcases o with ⟨a1, a2, a3, a4, a5, a6, a7, a8, a9⟩
  cases d with
  | type | assoc | defaultType | extraToken | startSymbol | wildcard | fallback | tokenClass | rule => cases hd
  | «module» | «include» | verbose => rfl
  | syntaxError => cases a3 <;> rfl
  | parseFail => cases a4 <;> rfl
  | stackOverflow => cases a5 <;> rfl
  | extraArgument t => cases a1 <;> rfl
  | error t => cases a2 <;> rfl
  | token it => cases a6 <;> rfl
  | parser it => cases a7 <;> rfl
  | stackSize n t => cases a8 <;> rfl

/-- All directives find their places free. -/
def Dress.freeAll (o : Dress) : List Decl → Bool
  | [] => true
  | d :: ds => o.free d && (o.step d).freeAll ds

theorem step_inner {d : Decl} (hd : outer d = false) (o : Dress) : o.step d = o ∧ o.free d = true := by
  cases d <;> first | exact ⟨rfl, rfl⟩ | cases hd

theorem parseDecls_dress : ∀ (ds : List Decl) (o : Dress) (g : Grammar), o.freeAll ds = true →
    (g.dress o).parseDecls ds = (g.parseDecls (bare ds)).map (Grammar.dress (ds.foldl Dress.step o)) := by
  intro ds
  induction ds with
  | nil => intro o g _; rfl
  | cons d ds ih =>
    intro o g h
    rw [Dress.freeAll, Bool.and_eq_true] at h
    simp only [Grammar.parseDecls, bare, List.filter_cons, List.foldl_cons]
    cases hd : outer d with
    | true =>
      rw [parseOneDecl_outer hd, if_pos h.1]
      exact ih _ g h.2
    | false =>
      rw [parseOneDecl_dress hd]
      simp only [Bool.not_false, if_true, Grammar.parseDecls]
      cases g.parseOneDecl d with
      | error e => rfl
      | ok g' =>
        have := ih (o.step d) g' h.2
        rw [(step_inner hd o).1] at this ⊢
        exact this

theorem parseDecls_free : ∀ (ds : List Decl) (o : Dress) (g g' : Grammar), (g.dress o).parseDecls ds = .ok g' → o.freeAll ds = true := by
  intro ds
  induction ds with
  | nil => intro o g g' _; rfl
  | cons d ds ih =>
    intro o g g' h
    simp only [Grammar.parseDecls] at h
    rw [Dress.freeAll, Bool.and_eq_true]
    cases hd : outer d with
    | true =>
      rw [parseOneDecl_outer hd] at h
      cases hf : o.free d with
      | true => rw [hf, if_pos rfl] at h; exact ⟨rfl, ih _ _ _ h⟩
      | false => rw [hf] at h; cases h
    | false =>
      rw [parseOneDecl_dress hd] at h
      cases hg : g.parseOneDecl d with
      | error e => rw [hg] at h; cases h
      | ok g2 =>
        rw [hg] at h
        rw [(step_inner hd o).1, (step_inner hd o).2]
        exact ⟨rfl, ih _ _ _ h⟩

theorem newFromDecls_dress {ds : List Decl} (h : Dress.freeAll {} ds = true) :
    newFromDecls ds = (newFromDecls (bare ds)).map (Grammar.dress (ds.foldl Dress.step {})) := by
  unfold newFromDecls
  rw [show Grammar.initial = Grammar.initial.dress {} from rfl, parseDecls_dress ds {} _ h, show Grammar.initial.dress {} = Grammar.initial from rfl]
  cases Grammar.initial.parseDecls (bare ds) with
  | error e => rfl
  | ok g =>
    simp only [Except.map, symbolNew_dress]
    rw [show ((g.symbolNew .dflt .nonTerminal).1.dress (ds.foldl Dress.step {})).rules = (g.symbolNew .dflt .nonTerminal).1.rules from rfl]
    split <;> rfl

theorem newFromDecls_free {ds : List Decl} {g : Grammar} (h : newFromDecls ds = .ok g) : Dress.freeAll {} ds = true := by
  unfold newFromDecls at h
  cases hp : Grammar.initial.parseDecls ds with
  | error e => rw [hp] at h; cases h
  | ok g' => exact parseDecls_free ds {} Grammar.initial g' hp

/-! ## The passes -/

theorem foldl_dress {α : Type} {F : Grammar → α → Grammar} (h : ∀ g a, F (g.dress o) a = (F g a).dress o) (l : List α) :
    ∀ g : Grammar, l.foldl F (g.dress o) = (l.foldl F g).dress o := by
  induction l with
  | nil => intro g; rfl
  | cons a l ih => intro g; rw [List.foldl_cons, h, ih]; rfl

theorem assignIndices_dress (ss : List SymbolId) : ∀ (g : Grammar) (i : Nat), (g.dress o).assignIndices i ss = (g.assignIndices i ss).dress o := by
  induction ss with
  | nil => intro g i; rfl
  | cons s ss ih =>
    intro g i
    unfold Grammar.assignIndices
    simp only [modifySym_dress]
    rw [show (((g.modifySym s fun b => { b with index := i }).dress o).sym s).kind = ((g.modifySym s fun b => { b with index := i }).sym s).kind from rfl]
    cases ((g.modifySym s fun b => { b with index := i }).sym s).kind with
    | terminal => exact ih { g.modifySym s (fun b => { b with index := i }) with numTerminals := i + 1 } (i + 1)
    | nonTerminal => exact ih { g.modifySym s (fun b => { b with index := i }) with defaultIndex := i } (i + 1)
    | multiTerminal => exact ih _ (i + 1)

theorem addExtraToken_dress (g : Grammar) : (g.dress o).addExtraToken = g.addExtraToken.dress o := by
  unfold Grammar.addExtraToken
  rw [show (g.dress o).extraToken = g.extraToken from rfl]
  split
  · rfl
  · rw [← foldl_dress]
    · rfl
    · intros; rfl

theorem addOptionals_dress (g : Grammar) (ord) : (g.dress o).addOptionals ord = (g.addOptionals ord).dress o := by
  unfold Grammar.addOptionals
  rw [show (g.dress o).optionals = g.optionals from rfl, foldl_dress]
  · rfl
  · intros; rfl

theorem prepare_dress (g : Grammar) (ord) : (g.dress o).prepare ord = (g.prepare ord).dress o := by
  rw [prepare_parts, prepare_parts, show prep0 (g.dress o) = (prep0 g).dress o from rfl, show ((prep0 g).dress o).symbols = (prep0 g).symbols from rfl,
    assignIndices_dress]
  rw [show ∀ g : Grammar, prep1 (g.dress o) = (prep1 g).dress o from fun _ => rfl, addExtraToken_dress, addOptionals_dress]

theorem normalizeRules_dress (g : Grammar) : (g.dress o).normalizeRules = g.normalizeRules.map (Grammar.dress o) := by
  unfold Grammar.normalizeRules
  rw [show (g.dress o).rules.mapM (g.dress o).normalizeRule = g.rules.mapM g.normalizeRule from rfl]
  cases g.rules.mapM g.normalizeRule <;> rfl

theorem findFirstSets_dress (g : Grammar) : (g.dress o).findFirstSets = g.findFirstSets.map (Grammar.dress o) := by
  unfold Grammar.findFirstSets
  rw [show (g.dress o).rules = g.rules from rfl, show (g.dress o).syms = g.syms from rfl]
  cases lambdaLoop g.rules (g.syms.length + 1) g.syms with
  | error e => rfl
  | ok syms =>
    simp only
    cases firstLoop g.rules (g.syms.length * g.syms.length + 1) syms <;> rfl

theorem followOf_dress (g : Grammar) : ∀ l, (g.dress o).followOf l = g.followOf l
  | [] => rfl
  | s :: ss => by
    unfold Grammar.followOf
    rw [followOf_dress g ss]
    rfl

theorem closeItem_dress (g : Grammar) (sid : StateId) (cur : List Cfg) (c : Item) : (g.dress o).closeItem sid cur c = g.closeItem sid cur c := by
  unfold Grammar.closeItem
  simp only [followOf_dress]
  rfl

theorem closureLoop_dress (g : Grammar) (sid : StateId) (n : Nat) : ∀ i cur, (g.dress o).closureLoop sid n i cur = g.closureLoop sid n i cur := by
  induction n with
  | zero => intro i cur; rfl
  | succ n ih => intro i cur; unfold Grammar.closureLoop; simp only [closeItem_dress, ih]

theorem shiftsLoop_dress (g : Grammar) (get) (sid : StateId) (n : Nat) : ∀ sts pending aps,
    (g.dress o).shiftsLoop get sid n sts pending aps = g.shiftsLoop get sid n sts pending aps := by
  induction n with
  | zero => intro sts pending aps; rfl
  | succ n ih =>
    intro sts pending aps
    unfold Grammar.shiftsLoop
    simp only [ih]
    rfl

theorem getState_dress (g : Grammar) (n : Nat) : ∀ sts cur, (g.dress o).getState n sts cur = g.getState n sts cur := by
  induction n with
  | zero => intro sts cur; rfl
  | succ n ih =>
    have hg : (g.dress o).getState n = g.getState n := funext fun a => funext fun b => ih a b
    intro sts cur
    unfold Grammar.getState Grammar.closure
    simp only [hg, closureLoop_dress, shiftsLoop_dress]
    rfl

theorem markStart_dress (g : Grammar) (sp : SymbolId) : (g.dress o).markStart sp = (g.markStart sp).dress o := by
  unfold Grammar.markStart
  rw [show ((g.dress o).sym sp).kind = (g.sym sp).kind from rfl]
  cases (g.sym sp).kind <;> rfl

theorem findStates_dress (g : Grammar) : (g.dress o).findStates = g.findStates.map (fun x => (x.1.dress o, x.2)) := by
  unfold Grammar.findStates
  simp only [markStart_dress, getState_dress]
  rw [show (g.dress o).start = g.start from rfl, show (g.dress o).rules = g.rules from rfl]
  split
  · rfl
  · rw [show ((g.markStart (g.start.getD 0)).dress o).numItems = (g.markStart (g.start.getD 0)).numItems from rfl,
      show (g.dress o).startBasis (g.start.getD 0) = g.startBasis (g.start.getD 0) from rfl]
    cases (g.markStart (g.start.getD 0)).getState (2 ^ (g.markStart (g.start.getD 0)).numItems + 1) [] (g.startBasis (g.start.getD 0)) <;> rfl

theorem automaton_dress (g : Grammar) (ord) : (g.dress o).automaton ord = (g.automaton ord).map (fun x => (x.1.dress o, x.2)) := by
  unfold Grammar.automaton
  simp only [prepare_dress]
  rw [show ((g.prepare ord).dress o).findRulePrecedences = (g.prepare ord).findRulePrecedences.dress o from rfl, normalizeRules_dress]
  cases (g.prepare ord).findRulePrecedences.normalizeRules with
  | error e => rfl
  | ok g =>
    simp only [Except.map, bind, Except.bind]
    rw [findFirstSets_dress]
    cases g.findFirstSets with
    | error e => rfl
    | ok g =>
      simp only [Except.map]
      rw [findStates_dress]
      cases g.findStates with
      | error e => rfl
      | ok x =>
        simp only [Except.map]
        rw [show (x.1.dress o).syms = x.1.syms from rfl]
        cases findFollowSets x.1.syms.length (findLinks x.2) <;> rfl

theorem resolveFrom_dress (g : Grammar) (ys : List Action) : ∀ x, (g.dress o).resolveFrom x ys = g.resolveFrom x ys := by
  induction ys with
  | nil => intro x; rfl
  | cons y ys ih => intro x; unfold Grammar.resolveFrom; simp only [ih]; rfl

theorem resolveAll_dress (g : Grammar) (n : Nat) : ∀ l, (g.dress o).resolveAll n l = g.resolveAll n l := by
  induction n with
  | zero => intro l; rfl
  | succ n ih => intro l; cases l <;> simp only [Grammar.resolveAll, ih, resolveFrom_dress]

theorem resolveState_dress (g : Grammar) (acts : List Action) : (g.dress o).resolveState acts = g.resolveState acts := by
  unfold Grammar.resolveState
  simp only [resolveAll_dress]
  rfl

theorem findActions_dress (g : Grammar) (sts : List LState) : (g.dress o).findActions sts = g.findActions sts := by
  unfold Grammar.findActions
  simp only [resolveState_dress]
  rfl

theorem fallbackDiffers_dress (g : Grammar) (acts : List Action) (d : Detail) (n : Nat) : ∀ s, (g.dress o).fallbackDiffers acts d n s = g.fallbackDiffers acts d n s := by
  induction n with
  | zero => intro s; rfl
  | succ n ih => intro s; unfold Grammar.fallbackDiffers; simp only [ih]; rfl

theorem ignoredActions_dress (g : Grammar) (acts : List Action) : (g.dress o).ignoredActions acts = g.ignoredActions acts := by
  unfold Grammar.ignoredActions
  simp only [fallbackDiffers_dress]
  rfl

theorem findBest_dress (g : Grammar) (ig : List SymbolId) (l : List Action) : ∀ b, (g.dress o).findBest ig b l = g.findBest ig b l := by
  induction l with
  | nil => intro b; rfl
  | cons a l ih => intro b; unfold Grammar.findBest; simp only [ih]; rfl

theorem compressState_dress (g : Grammar) (d : SymbolId) (acts : List Action) : (g.dress o).compressState d acts = g.compressState d acts := by
  unfold Grammar.compressState
  simp only [ignoredActions_dress, findBest_dress]
  rfl

theorem compressTables_dress (g : Grammar) (acts : List (List Action)) : (g.dress o).compressTables acts = g.compressTables acts := by
  unfold Grammar.compressTables
  rw [show (g.dress o).symbolFind = g.symbolFind from rfl]
  split
  · rfl
  · rename_i dflt _
    rw [show (g.dress o).compressState dflt = g.compressState dflt from funext fun a => compressState_dress g dflt a]

theorem assignTypes_dress (ss : List SymbolId) : ∀ (g : Grammar) (types : List Ty), (g.dress o).assignTypes types ss =
    (g.assignTypes types ss).map (fun x => (x.1.dress o, x.2)) := by
  induction ss with
  | nil => intro g types; rfl
  | cons s ss ih =>
    intro g types
    unfold Grammar.assignTypes
    rw [show (g.dress o).wildcard = g.wildcard from rfl, show (g.dress o).finalType s = g.finalType s from rfl]
    split
    · exact ih g types
    · cases g.finalType s with
      | error e => rfl
      | ok t =>
        cases t with
        | none => simp only [modifySym_dress, ih]
        | some t => simp only [modifySym_dress, ih]

/-- The items of `%token` and `%parser` fit. -/
def Dress.items (o : Dress) : Except GErr Unit := Grammar.checkItems (Grammar.dress o {})

theorem generate_dress (g : Grammar) (sts : List RState) (h : o.items = .ok ()) :
    (g.dress o).generate sts = ((g.dress {}).generate sts).map fun t => { t with stackLimit := o.stackLimit } := by
  unfold Grammar.generate
  refine ite_map_aux Iff.rfl rfl ?_
  rw [show (g.dress o).symbols = g.symbols from rfl, show (g.dress {}).symbols = g.symbols from rfl, assignTypes_dress, assignTypes_dress]
  cases g.assignTypes [] g.symbols with
  | error e => rfl
  | ok x =>
    obtain ⟨g, types⟩ := x
    simp only [Except.map]
    rw [show (g.dress o).checkItems = o.items from rfl, show (g.dress {}).checkItems = .ok () from rfl, h, show (g.dress o).pack = g.pack from rfl,
      show (g.dress {}).pack = g.pack from rfl, show (g.dress o).fallbackTable = g.fallbackTable from rfl, show (g.dress {}).fallbackTable = g.fallbackTable from rfl,
      show (g.dress o).translateCode = g.translateCode from rfl, show (g.dress {}).translateCode = g.translateCode from rfl, show (g.dress o).rules = g.rules from rfl,
      show (g.dress {}).rules = g.rules from rfl]
    simp only
    cases g.pack sts with
    | none => rfl
    | some p =>
      simp only
      cases ofstTable sts.length p.tkn with
      | none => rfl
      | some sh =>
        cases ofstTable sts.length p.nt with
        | none => rfl
        | some rd =>
          simp only
          cases g.fallbackTable with
          | error e => rfl
          | ok fb =>
            simp only
            cases g.rules.mapM g.translateCode <;> rfl

theorem ite_ok {α : Type} {c : Prop} [Decidable c] {e : GErr} {x : Except GErr α} {a : α} (h : (if c then .error e else x) = .ok a) : x = .ok a := by
  by_cases hc : c
  · rw [if_pos hc] at h; cases h
  · rwa [if_neg hc] at h

theorem generate_items (g : Grammar) (sts : List RState) {t : Tables} (h : (g.dress o).generate sts = .ok t) : o.items = .ok () := by
  unfold Grammar.generate at h
  have h := ite_ok h
  rw [assignTypes_dress] at h
  cases hx : g.assignTypes [] (g.dress o).symbols with
  | error e => rw [hx] at h; cases h
  | ok x =>
    rw [hx] at h
    simp only [Except.map] at h
    rw [show (x.1.dress o).checkItems = o.items from rfl] at h
    cases hi : o.items with
    | error e => rw [hi] at h; cases h
    | ok u => rfl

theorem build_dress (g : Grammar) (ord) (h : o.items = .ok ()) :
    (g.dress o).build ord = ((g.dress {}).build ord).map fun t => { t with stackLimit := o.stackLimit } := by
  unfold Grammar.build
  rw [automaton_dress, automaton_dress]
  cases g.automaton ord with
  | error e => rfl
  | ok x =>
    simp only [Except.map, bind, Except.bind, findActions_dress]
    cases x.1.findActions x.2 with
    | error e => rfl
    | ok y =>
      simp only
      by_cases hy : y.2 > 0
      · simp only [if_pos hy]; rfl
      · simp only [if_neg hy, compressTables_dress]
        cases x.1.compressTables y.1 with
        | error e => rfl
        | ok acts => exact generate_dress x.1 (x.1.resortStates acts) h

theorem build_items (g : Grammar) (ord) {t : Tables} (h : (g.dress o).build ord = .ok t) : o.items = .ok () := by
  unfold Grammar.build at h
  rw [automaton_dress] at h
  cases hx : g.automaton ord with
  | error e => rw [hx] at h; cases h
  | ok x =>
    rw [hx] at h
    simp only [Except.map, bind, Except.bind, findActions_dress] at h
    cases hy : x.1.findActions x.2 with
    | error e => rw [hy] at h; cases h
    | ok y =>
      rw [hy] at h
      simp only at h
      by_cases hc : y.2 > 0
      · simp only [if_pos hc] at h; cases h
      · simp only [if_neg hc, compressTables_dress] at h
        cases ha : x.1.compressTables y.1 with
        | error e => rw [ha] at h; cases h
        | ok acts => rw [ha] at h; exact generate_items x.1 _ h

theorem outer_bare (ds : List Decl) : ∀ d ∈ bare ds, outer d = false := by
  intro d h
  have := (List.mem_filter.1 h).2
  simpa using this

theorem dress_inner : ∀ (ds : List Decl) (o : Dress), (∀ d ∈ ds, outer d = false) → ds.foldl Dress.step o = o ∧ o.freeAll ds = true
  | [], _, _ => ⟨rfl, rfl⟩
  | d :: ds, o, h => by
    have h1 := step_inner (h d (List.mem_cons_self ..)) o
    have h2 := dress_inner ds o fun d hd => h d (List.mem_cons_of_mem _ hd)
    rw [List.foldl_cons, Dress.freeAll, h1.1, h1.2]
    exact ⟨h2.1, h2.2⟩

theorem bare_bare (ds : List Decl) : bare (bare ds) = bare ds := by simp [bare, List.filter_filter]

theorem bare_plain {ds : List Decl} {g : Grammar} (h : newFromDecls (bare ds) = .ok g) : g.dress {} = g := by
  have h1 := newFromDecls_dress (ds := bare ds) (dress_inner _ _ (outer_bare ds)).2
  rw [bare_bare, (dress_inner _ _ (outer_bare ds)).1, h] at h1
  exact (Except.ok.inj h1).symm

theorem compile_dress (ord) {ds : List Decl} (hf : Dress.freeAll {} ds = true) (hi : (ds.foldl Dress.step {}).items = .ok ()) :
    compile ord ds = (compile ord (bare ds)).map fun t => { t with stackLimit := (ds.foldl Dress.step {}).stackLimit } := by
  unfold compile
  rw [newFromDecls_dress hf]
  cases h2 : newFromDecls (bare ds) with
  | error e => rfl
  | ok g0 =>
    show (g0.dress (ds.foldl Dress.step {})).build ord = (g0.build ord).map _
    rw [build_dress g0 ord hi, bare_plain h2]

theorem compile_items {ord} {ds : List Decl} {t : Tables} (h : compile ord ds = .ok t) :
    Dress.freeAll {} ds = true ∧ (ds.foldl Dress.step {}).items = .ok () := by
  unfold compile at h
  cases h0 : newFromDecls ds with
  | error e => rw [h0] at h; cases h
  | ok g =>
    have hf := newFromDecls_free h0
    have h1 := newFromDecls_dress hf
    cases h2 : newFromDecls (bare ds) with
    | error e => rw [h2, h0] at h1; cases h1
    | ok g0 =>
      rw [h0, h2] at h1
      have h3 : g = g0.dress (ds.foldl Dress.step {}) := Except.ok.inj h1
      rw [h0, h3] at h
      exact ⟨hf, build_items g0 ord h⟩

/-! ## By the declarations -/

theorem step_free {o : Dress} {d : Decl} (h : o.free d = true) (d' : Decl) :
    (o.step d).free d' = true ↔ o.free d' = true ∧ (outer d' = true → ¬ Twice d d') := by
  cases d <;> cases d' <;> simp [Dress.free, Dress.step, outer, Twice] at h ⊢ <;> (try simp [h])
  rename_i a1 t1 a2 t2
  cases t1 <;> simp [Twice]

theorem freeAll_iff : ∀ (ds : List Decl) (o : Dress),
    o.freeAll ds = true ↔ (∀ d ∈ ds, o.free d = true) ∧ ds.Pairwise (fun d d' => outer d' = true → ¬ Twice d d')
  | [], o => by simp [Dress.freeAll]
  | d :: ds, o => by
    rw [Dress.freeAll, Bool.and_eq_true, freeAll_iff ds, List.pairwise_cons, List.forall_mem_cons]
    constructor
    · rintro ⟨h1, h2, h3⟩
      exact ⟨⟨h1, fun d' hd => ((step_free h1 d').1 (h2 d' hd)).1⟩, fun d' hd => ((step_free h1 d').1 (h2 d' hd)).2, h3⟩
    · rintro ⟨⟨h1, h2⟩, h3, h4⟩
      exact ⟨h1, fun d' hd => (step_free h1 d').2 ⟨h2 d' hd, h3 d' hd⟩, h4⟩

theorem free_new (d : Decl) : Dress.free {} d = true := by cases d <;> rfl

theorem steps_limit (ds : List Decl) : (ds.foldl Dress.step {}).stackLimit = stackSizeOf ds := by
  have : ∀ (ds : List Decl) (o : Dress), (ds.foldl Dress.step o).stackLimit = (ds.reverse.findSome? fun | .stackSize n _ => some n | _ => none).getD o.stackLimit := by
    intro ds
    induction ds with
    | nil => intro o; rfl
    | cons d ds ih =>
      intro o
      rw [List.foldl_cons, ih, List.reverse_cons, List.findSome?_append]
      cases (ds.reverse.findSome? fun | .stackSize n _ => some n | _ => none) with
      | some n => rfl
      | none => cases d <;> rfl
  exact this ds {}

theorem steps_items : ∀ (ds : List Decl) (o : Dress), o.freeAll ds = true →
    (ds.foldl Dress.step o).tokenEnum = o.tokenEnum.or (tokenItemOf ds) ∧ (ds.foldl Dress.step o).parserStruct = o.parserStruct.or (parserItemOf ds)
  | [], o, _ => by simp [tokenItemOf, parserItemOf]
  | d :: ds, o, h => by
    rw [Dress.freeAll, Bool.and_eq_true] at h
    obtain ⟨h1, h2⟩ := steps_items ds (o.step d) h.2
    rw [List.foldl_cons, h1, h2]
    have hf := h.1
    cases d <;> simp [Dress.step, tokenItemOf, parserItemOf, Dress.free] at hf ⊢ <;> simp [hf]

theorem items_iff {o : Dress} {ds : List Decl} (h1 : o.tokenEnum = tokenItemOf ds) (h2 : o.parserStruct = parserItemOf ds) :
    o.items = .ok () ↔ ¬ TokenFull ds ∧ ¬ ParserFull ds ∧ ¬ ParamMissing ds := by
  have h := checkItems_of (g := Grammar.dress o {}) h1 h2
  unfold Dress.items
  cases hc : (Grammar.dress o {}).checkItems with
  | ok u => rw [hc] at h; exact ⟨fun _ => h, fun _ => rfl⟩
  | error e =>
    rw [hc] at h
    refine ⟨fun h1 => (by cases h1), fun h' => ?_⟩
    rcases h with ⟨_, h⟩ | ⟨_, _, h⟩ | ⟨_, _, _, h⟩
    · exact absurd h h'.1
    · exact absurd h h'.2.1
    · exact absurd h h'.2.2

end Pomelo
