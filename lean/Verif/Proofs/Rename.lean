import Verif.Spec.Rename
/-! # Each step of the macro commutes with a renaming -/

namespace Pomelo

open Spec

variable {ρ : Renaming}

def Symbol.ren (ρ : Renaming) (b : Symbol) : Symbol := { b with name := ρ.name b.name, dataType := b.dataType.map ρ.type }

def Rule.ren (ρ : Renaming) (r : Rule) : Rule := { r with code := r.code.map ρ.code }

def Grammar.ren (ρ : Renaming) (g : Grammar) : Grammar :=
  { g with syms := g.syms.map (Symbol.ren ρ)
           rules := g.rules.map (Rule.ren ρ)
           defaultType := g.defaultType.map ρ.type
           extraToken := g.extraToken.map ρ.type
           arg := g.arg.map ρ.type
           errType := g.errType.map ρ.type
           stackType := g.stackType.map ρ.type }

section
variable (ρ : Renaming) (b : Symbol) (r : Rule) (g : Grammar)
@[simp] theorem sren_name : (b.ren ρ).name = ρ.name b.name := rfl
@[simp] theorem sren_index : (b.ren ρ).index = b.index := rfl
@[simp] theorem sren_kind : (b.ren ρ).kind = b.kind := rfl
@[simp] theorem sren_rules : (b.ren ρ).rules = b.rules := rfl
@[simp] theorem sren_first : (b.ren ρ).firstSet = b.firstSet := rfl
@[simp] theorem sren_lambda : (b.ren ρ).lambda = b.lambda := rfl
@[simp] theorem sren_subs : (b.ren ρ).subs = b.subs := rfl
@[simp] theorem sren_fallback : (b.ren ρ).fallback = b.fallback := rfl
@[simp] theorem sren_prec : (b.ren ρ).precedence = b.precedence := rfl
@[simp] theorem sren_use : (b.ren ρ).useCnt = b.useCnt := rfl
@[simp] theorem sren_type : (b.ren ρ).dataType = b.dataType.map ρ.type := rfl
@[simp] theorem sren_dt : (b.ren ρ).dtNum = b.dtNum := rfl
@[simp] theorem sren_isLambda : (b.ren ρ).isLambda = b.isLambda := rfl
@[simp] theorem sren_default : (default : Symbol).ren ρ = default := rfl
@[simp] theorem rren_lhs : (r.ren ρ).lhs = r.lhs := rfl
@[simp] theorem rren_rhs : (r.ren ρ).rhs = r.rhs := rfl
@[simp] theorem rren_start : (r.ren ρ).lhsStart = r.lhsStart := rfl
@[simp] theorem rren_code : (r.ren ρ).code = r.code.map ρ.code := rfl
@[simp] theorem rren_precSym : (r.ren ρ).precSym = r.precSym := rfl
@[simp] theorem rren_prec : (r.ren ρ).precedence = r.precedence := rfl
@[simp] theorem rren_default : (default : Rule).ren ρ = default := rfl
@[simp] theorem gren_syms : (g.ren ρ).syms = g.syms.map (Symbol.ren ρ) := rfl
@[simp] theorem gren_symbols : (g.ren ρ).symbols = g.symbols := rfl
@[simp] theorem gren_rules : (g.ren ρ).rules = g.rules.map (Rule.ren ρ) := rfl
@[simp] theorem gren_errorSymbol : (g.ren ρ).errorSymbol = g.errorSymbol := rfl
@[simp] theorem gren_wildcard : (g.ren ρ).wildcard = g.wildcard := rfl
@[simp] theorem gren_start : (g.ren ρ).start = g.start := rfl
@[simp] theorem gren_hasFallback : (g.ren ρ).hasFallback = g.hasFallback := rfl
@[simp] theorem gren_defaultType : (g.ren ρ).defaultType = g.defaultType.map ρ.type := rfl
@[simp] theorem gren_extraToken : (g.ren ρ).extraToken = g.extraToken.map ρ.type := rfl
@[simp] theorem gren_arg : (g.ren ρ).arg = g.arg.map ρ.type := rfl
@[simp] theorem gren_errType : (g.ren ρ).errType = g.errType.map ρ.type := rfl
@[simp] theorem gren_syntaxError : (g.ren ρ).syntaxError = g.syntaxError := rfl
@[simp] theorem gren_parseFail : (g.ren ρ).parseFail = g.parseFail := rfl
@[simp] theorem gren_stackOverflow : (g.ren ρ).stackOverflow = g.stackOverflow := rfl
@[simp] theorem gren_tokenEnum : (g.ren ρ).tokenEnum = g.tokenEnum := rfl
@[simp] theorem gren_parserStruct : (g.ren ρ).parserStruct = g.parserStruct := rfl
@[simp] theorem gren_stackType : (g.ren ρ).stackType = g.stackType.map ρ.type := rfl
@[simp] theorem gren_stackLimit : (g.ren ρ).stackLimit = g.stackLimit := rfl
@[simp] theorem gren_optionals : (g.ren ρ).optionals = g.optionals := rfl
@[simp] theorem gren_prec : (g.ren ρ).prec = g.prec := rfl
@[simp] theorem gren_num : (g.ren ρ).numTerminals = g.numTerminals := rfl
@[simp] theorem gren_dflt : (g.ren ρ).defaultIndex = g.defaultIndex := rfl
end

@[simp] theorem getD_ren (l : List Symbol) (s : Nat) : (l.map (Symbol.ren ρ)).getD s default = (l.getD s default).ren ρ := by
  rw [List.getD_eq_getElem?_getD, List.getD_eq_getElem?_getD, List.getElem?_map]
  cases l[s]? <;> rfl

@[simp] theorem gren_sym (g : Grammar) (s : SymbolId) : (g.ren ρ).sym s = (g.sym s).ren ρ := getD_ren g.syms s

@[simp] theorem gren_rule (g : Grammar) (r : RuleId) : (g.ren ρ).rule r = (g.rule r).ren ρ := by
  show (g.rules.map (Rule.ren ρ)).getD r default = _
  rw [List.getD_eq_getElem?_getD, List.getElem?_map]
  unfold Grammar.rule
  rw [List.getD_eq_getElem?_getD]
  cases g.rules[r]? <;> rfl

theorem modify_map {α β : Type} (F : α → β) {f : α → α} {f' : β → β} (h : ∀ b, f' (F b) = F (f b)) (l : List α) (s : Nat) :
    (l.map F).modify s f' = (l.modify s f).map F := by
  apply List.ext_getElem?
  intro i
  simp only [List.getElem?_modify, List.getElem?_map]
  cases l[i]? with
  | none => rfl
  | some b =>
    simp only [Option.map_some]
    split
    · simp [h]
    · simp

theorem modifySym_ren {f f' : Symbol → Symbol} (h : ∀ b : Symbol, f' (b.ren ρ) = (f b).ren ρ) (g : Grammar) (s : SymbolId) :
    (g.ren ρ).modifySym s f' = (g.modifySym s f).ren ρ := by
  show ({ g.ren ρ with syms := _ } : Grammar) = _
  rw [gren_syms, modify_map _ h]
  rfl

/-! ## Names -/

section
variable (hρ : ρ.Distinct)
include hρ

theorem ident_inj {a b : Ident} (h : ρ.ident a = ρ.ident b) : a = b := by
  cases a <;> cases b <;> simp only [Renaming.ident, Ident.upper.injEq, Ident.lower.injEq, Ident.other.injEq, reduceCtorEq] at h
  · rw [hρ.upper _ _ h]
  · rw [hρ.lower _ _ h]
  · rfl
  · rw [hρ.other _ _ h]

theorem name_inj {a b : SymName} (h : ρ.name a = ρ.name b) : a = b := by
  cases a <;> cases b <;> simp only [Renaming.name, SymName.ident.injEq, SymName.opt.injEq, reduceCtorEq] at h
  · rfl
  · rfl
  · rw [ident_inj hρ h]
  · rw [h]
  · rfl

theorem type_inj {a b : Ty} (h : ρ.type a = ρ.type b) : a = b := by
  induction a generalizing b with
  | unit => cases b <;> simp [Renaming.type] at h; rfl
  | named n =>
    cases b <;> simp only [Renaming.type, Ty.named.injEq, reduceCtorEq] at h
    rw [hρ.ty _ _ h]
  | option t ih =>
    cases b <;> simp only [Renaming.type, Ty.option.injEq, reduceCtorEq] at h
    rw [ih h]
  | pair a a' iha ihb =>
    cases b <;> simp only [Renaming.type, Ty.pair.injEq, reduceCtorEq] at h
    rw [iha h.1, ihb h.2]

theorem name_eq {a b : SymName} : ρ.name a = ρ.name b ↔ a = b := ⟨name_inj hρ, fun h => by rw [h]⟩

theorem type_eq {a b : Ty} : ρ.type a = ρ.type b ↔ a = b := ⟨type_inj hρ, fun h => by rw [h]⟩

end

@[simp] theorem ident_terminal (i : Ident) : (ρ.ident i).isTerminal = i.isTerminal := by cases i <;> rfl
@[simp] theorem ident_nonTerminal (i : Ident) : (ρ.ident i).isNonTerminal = i.isNonTerminal := by cases i <;> rfl

theorem name_anon {n : SymName} : ρ.name n = .anon ↔ n = .anon := by cases n <;> simp [Renaming.name]

/-! ## Reading of the declarations -/

section
variable (hρ : ρ.Distinct)
include hρ

theorem symbolFind_ren (g : Grammar) (n : SymName) : (g.ren ρ).symbolFind (ρ.name n) = g.symbolFind n := by
  unfold Grammar.symbolFind
  simp [name_eq hρ]

theorem symbolNew_ren (g : Grammar) (n : SymName) (k : SymKind) :
    (g.ren ρ).symbolNew (ρ.name n) k = ((g.symbolNew n k).1.ren ρ, (g.symbolNew n k).2) := by
  unfold Grammar.symbolNew
  simp only [name_anon, symbolFind_ren hρ]
  split
  · rename_i s hs
    rw [modifySym_ren]
    intro b; rfl
  · simp [Grammar.ren, Symbol.ren]

omit hρ in
theorem createRule_ren (g : Grammar) (l : SymbolId) (rhs : List RhsSym) (c : Option Code) (p : Option SymbolId) :
    (g.ren ρ).createRule l rhs (c.map ρ.code) p = (g.createRule l rhs c p).ren ρ := by
  unfold Grammar.createRule
  simp only [gren_rules, List.length_map]
  rw [← modifySym_ren (f' := fun b => { b with rules := b.rules ++ [g.rules.length] }) (fun b => rfl)]
  congr 1
  simp [Grammar.ren, Rule.ren]

theorem declTokens_ren (e : GErr) (ids : List Ident) : ∀ g : Grammar, (g.ren ρ).declTokens e (ids.map ρ.ident) =
    (g.declTokens e ids).map (fun x => (x.1.ren ρ, x.2)) := by
  induction ids with
  | nil => intro g; rfl
  | cons i ids ih =>
    intro g
    rw [List.map_cons, Grammar.declTokens, Grammar.declTokens, ident_terminal]
    split
    · rfl
    · rw [show SymName.ident (ρ.ident i) = ρ.name (.ident i) from rfl, symbolNew_ren hρ]
      simp only [ih]
      cases (g.symbolNew (.ident i) .terminal).1.declTokens e ids <;> rfl

theorem declAssoc_ren (p : Precedence) (ids : List Ident) : ∀ g : Grammar, (g.ren ρ).declAssoc p (ids.map ρ.ident) =
    (g.declAssoc p ids).map (Grammar.ren ρ) := by
  induction ids with
  | nil => intro g; rfl
  | cons i ids ih =>
    intro g
    rw [List.map_cons, Grammar.declAssoc, Grammar.declAssoc, ident_terminal]
    split
    · rfl
    · rw [show SymName.ident (ρ.ident i) = ρ.name (.ident i) from rfl, symbolNew_ren hρ]
      simp only [gren_sym, sren_prec]
      split
      · rfl
      · rw [modifySym_ren (f := fun b => { b with precedence := some p }) (fun b => rfl), ih]

omit hρ in
theorem fallbackWalk_ren (ts : List SymbolId) (g : Grammar) (n : Nat) : ∀ s, (g.ren ρ).fallbackWalk ts n s = g.fallbackWalk ts n s := by
  induction n with
  | zero => intro s; rfl
  | succ n ih =>
    intro s
    rw [Grammar.fallbackWalk, Grammar.fallbackWalk, gren_sym, sren_fallback]
    simp only [ih]

omit hρ in
theorem setFallbacks_ren (fb : SymbolId) (ss : List SymbolId) : ∀ g : Grammar, (g.ren ρ).setFallbacks fb ss = (g.setFallbacks fb ss).map (Grammar.ren ρ) := by
  induction ss with
  | nil => intro g; rfl
  | cons s ss ih =>
    intro g
    rw [Grammar.setFallbacks, Grammar.setFallbacks, gren_sym, sren_fallback]
    split
    · rfl
    · rw [modifySym_ren (f := fun b => { b with fallback := some fb }) (fun b => rfl), ← ih]
      rfl

theorem declClass_ren (tk : SymbolId) (ids : List Ident) : ∀ g : Grammar, (g.ren ρ).declClass tk (ids.map ρ.ident) =
    (g.declClass tk ids).map (Grammar.ren ρ) := by
  induction ids with
  | nil => intro g; rfl
  | cons i ids ih =>
    intro g
    rw [List.map_cons, Grammar.declClass, Grammar.declClass, ident_terminal]
    split
    · rfl
    · rw [show SymName.ident (ρ.ident i) = ρ.name (.ident i) from rfl, symbolNew_ren hρ]
      simp only
      rw [modifySym_ren (f := fun b => { b with subs := b.subs ++ [(g.symbolNew (.ident i) .terminal).2] }) (fun b => rfl), ih]

theorem declElem_ren (e : RhsElem) (g : Grammar) : (g.ren ρ).declElem (ρ.elem e) = (g.declElem e).map (fun x => (x.1.ren ρ, x.2)) := by
  have hmany : ∀ toks : List Ident, (match (g.ren ρ).symbolNew .anon .multiTerminal with
      | (g, mt) => match g.declTokens .compoundNonTerminal (toks.map ρ.ident) with
        | .error e => .error e
        | .ok (g, ss) => .ok (g.modifySym mt (fun b => { b with subs := b.subs ++ ss }), (⟨mt, e.alias⟩ : RhsSym))) =
      ((match g.symbolNew .anon .multiTerminal with
      | (g, mt) => match g.declTokens .compoundNonTerminal toks with
        | .error e => .error e
        | .ok (g, ss) => .ok (g.modifySym mt (fun b => { b with subs := b.subs ++ ss }), (⟨mt, e.alias⟩ : RhsSym)) :
        Except GErr (Grammar × RhsSym)).map (fun x => (x.1.ren ρ, x.2))) := by
    intro toks
    have := symbolNew_ren hρ g .anon .multiTerminal
    rw [show ρ.name .anon = .anon from rfl] at this
    rw [this]
    simp only [declTokens_ren hρ]
    cases (g.symbolNew .anon .multiTerminal).1.declTokens .compoundNonTerminal toks with
    | error e => rfl
    | ok x =>
      simp only [Except.map]
      rw [modifySym_ren (f := fun b => { b with subs := b.subs ++ x.2 }) (fun b => rfl)]
  obtain ⟨toks, opt, al⟩ := e
  match toks with
  | [] => exact hmany []
  | a :: b :: l => exact hmany (a :: b :: l)
  | [tok] =>
    simp only [Renaming.elem, List.map_cons, List.map_nil, Grammar.declElem, ident_terminal, ident_nonTerminal]
    split
    · rfl
    · rename_i nst _
      rw [show SymName.ident (ρ.ident tok) = ρ.name (.ident tok) from rfl, symbolNew_ren hρ]
      simp only [gren_optionals]
      split
      · split
        · rfl
        · have := symbolNew_ren hρ (g.symbolNew (.ident tok) nst).1 (.opt (g.symbolNew (.ident tok) nst).1.optionals.length) .nonTerminal
          rw [show ρ.name (.opt (g.symbolNew (.ident tok) nst).1.optionals.length) = .opt (g.symbolNew (.ident tok) nst).1.optionals.length from rfl] at this
          simp only [this]
          rfl
      · rfl

theorem declRhs_ren (es : List RhsElem) : ∀ g : Grammar, (g.ren ρ).declRhs (es.map ρ.elem) = (g.declRhs es).map (fun x => (x.1.ren ρ, x.2)) := by
  induction es with
  | nil => intro g; rfl
  | cons e es ih =>
    intro g
    rw [List.map_cons, Grammar.declRhs, Grammar.declRhs, declElem_ren hρ]
    cases g.declElem e with
    | error e => rfl
    | ok x =>
      simp only [Except.map, ih]
      cases x.1.declRhs es <;> rfl

theorem parseOneDecl_ren (d : Decl) (g : Grammar) : (g.ren ρ).parseOneDecl (ρ.decl d) = (g.parseOneDecl d).map (Grammar.ren ρ) := by
  have hn : ∀ i, SymName.ident (ρ.ident i) = ρ.name (.ident i) := fun _ => rfl
  cases d with
  | module => rfl
  | «include» => rfl
  | verbose => rfl
  | syntaxError => cases h : g.syntaxError <;> simp [Renaming.decl, Grammar.parseOneDecl, h, Except.map] <;> rfl
  | parseFail => cases h : g.parseFail <;> simp [Renaming.decl, Grammar.parseOneDecl, h, Except.map] <;> rfl
  | stackOverflow => cases h : g.stackOverflow <;> simp [Renaming.decl, Grammar.parseOneDecl, h, Except.map] <;> rfl
  | type a i t =>
    simp only [Renaming.decl, Grammar.parseOneDecl, ident_terminal, ident_nonTerminal]
    split
    · rfl
    · rw [hn, symbolNew_ren hρ]
      simp only [gren_sym, sren_type, Option.isSome_map]
      split
      · rfl
      · rw [modifySym_ren (f := fun b => { b with dataType := t, attributes := a }) (fun b => rfl)]
        rfl
  | assoc a is =>
    simp only [Renaming.decl, Grammar.parseOneDecl, gren_prec]
    exact declAssoc_ren hρ _ is { g with prec := g.prec + 1 }
  | defaultType t => cases h : g.defaultType <;> simp [Renaming.decl, Grammar.parseOneDecl, h, Except.map] <;> rfl
  | extraArgument t => cases h : g.arg <;> simp [Renaming.decl, Grammar.parseOneDecl, h, Except.map] <;> rfl
  | error t => cases h : g.errType <;> simp [Renaming.decl, Grammar.parseOneDecl, h, Except.map] <;> rfl
  | startSymbol i =>
    simp only [Renaming.decl, Grammar.parseOneDecl, gren_start, ident_nonTerminal]
    split
    · rfl
    · split
      · rfl
      · rw [hn, symbolNew_ren hρ]; rfl
  | fallback f is =>
    simp only [Renaming.decl, Grammar.parseOneDecl, declTokens_ren hρ]
    cases g.declTokens .fallbackNotToken is with
    | error e => rfl
    | ok x =>
      simp only [Except.map, ident_terminal]
      split
      · rfl
      · rw [hn, symbolNew_ren hρ]
        simp only [fallbackWalk_ren, setFallbacks_ren, gren_syms, List.length_map]
        split
        · rfl
        · rfl
  | wildcard i =>
    simp only [Renaming.decl, Grammar.parseOneDecl, gren_wildcard, ident_terminal]
    split
    · rfl
    · split
      · rfl
      · rw [hn, symbolNew_ren hρ]; rfl
  | tokenClass i is =>
    simp only [Renaming.decl, Grammar.parseOneDecl, ident_terminal]
    split
    · rfl
    · rw [hn, symbolNew_ren hρ]
      exact declClass_ren hρ _ is _
  | token i => cases h : g.tokenEnum <;> simp [Renaming.decl, Grammar.parseOneDecl, h, Except.map] <;> rfl
  | parser i => cases h : g.parserStruct <;> simp [Renaming.decl, Grammar.parseOneDecl, h, Except.map] <;> rfl
  | extraToken t => cases h : g.extraToken <;> simp [Renaming.decl, Grammar.parseOneDecl, h, Except.map] <;> rfl
  | stackSize n t => cases h : g.stackType <;> simp [Renaming.decl, Grammar.parseOneDecl, h, Except.map] <;> rfl
  | rule l r c p =>
    simp only [Renaming.decl, Grammar.parseOneDecl, ident_nonTerminal]
    split
    · rfl
    · rw [hn, symbolNew_ren hρ]
      simp only [declRhs_ren hρ]
      cases (g.symbolNew (.ident l) .nonTerminal).1.declRhs r with
      | error e => rfl
      | ok x =>
        have hc : (c.map ρ.block).map Code.user = (c.map Code.user).map ρ.code := by cases c <;> rfl
        cases p with
        | none =>
          simp only [Except.map, Option.map_none]
          rw [hc, createRule_ren]
        | some i =>
          simp only [Except.map, Option.map_some, ident_terminal]
          split
          · rfl
          · rw [hn, symbolNew_ren hρ]
            simp only [hc, createRule_ren]

theorem parseDecls_ren (ds : List Decl) : ∀ g : Grammar, (g.ren ρ).parseDecls (ds.map ρ.decl) = (g.parseDecls ds).map (Grammar.ren ρ) := by
  induction ds with
  | nil => intro g; rfl
  | cons d ds ih =>
    intro g
    rw [List.map_cons, Grammar.parseDecls, Grammar.parseDecls, parseOneDecl_ren hρ]
    cases g.parseOneDecl d with
    | error e => rfl
    | ok g => exact ih g

theorem newFromDecls_ren (ds : List Decl) : newFromDecls (ds.map ρ.decl) = (newFromDecls ds).map (Grammar.ren ρ) := by
  unfold newFromDecls
  have h := parseDecls_ren hρ ds Grammar.initial
  rw [show Grammar.initial.ren ρ = Grammar.initial from rfl] at h
  rw [h]
  cases Grammar.initial.parseDecls ds with
  | error e => rfl
  | ok g =>
    have := symbolNew_ren hρ g .dflt .nonTerminal
    rw [show ρ.name .dflt = .dflt from rfl] at this
    simp only [Except.map, this, gren_rules, List.isEmpty_map]
    split <;> rfl

end

/-! ## `prepare` -/

theorem foldl_ren {α : Type} {F F' : Grammar → α → Grammar} (h : ∀ g a, F' (g.ren ρ) a = (F g a).ren ρ) (l : List α) :
    ∀ g : Grammar, l.foldl F' (g.ren ρ) = (l.foldl F g).ren ρ := by
  induction l with
  | nil => intro g; rfl
  | cons a l ih => intro g; rw [List.foldl_cons, List.foldl_cons, h, ih]

theorem sortSymbols_ren (g : Grammar) : (g.ren ρ).sortSymbols = g.sortSymbols.ren ρ := by
  unfold Grammar.sortSymbols
  simp only [gren_sym, sren_kind]
  rfl

theorem assignIndices_ren (ss : List SymbolId) : ∀ (g : Grammar) (i : Nat), (g.ren ρ).assignIndices i ss = (g.assignIndices i ss).ren ρ := by
  induction ss with
  | nil => intro g i; rfl
  | cons s ss ih =>
    intro g i
    rw [Grammar.assignIndices, Grammar.assignIndices, modifySym_ren (f := fun b => { b with index := i }) (fun b => rfl)]
    simp only [gren_sym, sren_kind]
    rw [← ih]
    cases ((g.modifySym s fun b => { b with index := i }).sym s).kind <;> rfl

theorem addExtraToken_ren (g : Grammar) : (g.ren ρ).addExtraToken = g.addExtraToken.ren ρ := by
  unfold Grammar.addExtraToken
  rw [gren_extraToken]
  cases g.extraToken with
  | none => rfl
  | some et =>
    simp only [Option.map_some, gren_symbols, gren_num]
    exact foldl_ren (fun g s => modifySym_ren (fun b => by cases h : b.dataType <;> simp [Symbol.ren, h, Renaming.type]) g s) _ g

theorem addOptional_ren (g : Grammar) (o : SymbolId × SymbolId) : (g.ren ρ).addOptional o = (g.addOptional o).ren ρ := by
  unfold Grammar.addOptional
  have h : (((g.ren ρ).sym o.1).dataType).getD .unit = ρ.type (((g.sym o.1).dataType).getD .unit) := by
    rw [gren_sym, sren_type]
    cases (g.sym o.1).dataType <;> rfl
  simp only [h]
  rw [modifySym_ren (f := fun b => { b with dataType := some (.option (((g.sym o.1).dataType).getD .unit)) }) (fun b => rfl)]
  rw [show (some Code.optNone) = (some Code.optNone).map ρ.code from rfl, show (some Code.optSome) = (some Code.optSome).map ρ.code from rfl]
  rw [createRule_ren, createRule_ren]
  rfl

theorem addOptionals_ren (g : Grammar) (ord) : (g.ren ρ).addOptionals ord = (g.addOptionals ord).ren ρ := by
  unfold Grammar.addOptionals
  rw [gren_optionals, foldl_ren addOptional_ren]
  rfl

def prep0 (g : Grammar) : Grammar := { g.sortSymbols with numTerminals := 1, defaultIndex := 0 }

def prep1 (g : Grammar) : Grammar := { g with start := some (g.start.getD (g.rule 0).lhs) }

theorem prepare_parts (g : Grammar) (ord) : g.prepare ord = (prep1 ((prep0 g).assignIndices 0 (prep0 g).symbols)).addExtraToken.addOptionals ord := rfl

theorem prep0_ren (g : Grammar) : prep0 (g.ren ρ) = (prep0 g).ren ρ := by
  unfold prep0
  rw [sortSymbols_ren]
  rfl

theorem prep1_ren (g : Grammar) : prep1 (g.ren ρ) = (prep1 g).ren ρ := by
  unfold prep1
  rw [gren_rule]
  rfl

theorem prepare_ren (g : Grammar) (ord) : (g.ren ρ).prepare ord = (g.prepare ord).ren ρ := by
  rw [prepare_parts, prepare_parts, prep0_ren, gren_symbols, assignIndices_ren, prep1_ren, addExtraToken_ren, addOptionals_ren]

theorem symPrec_ren (g : Grammar) (s : SymbolId) : (g.ren ρ).symPrec s = g.symPrec s := by
  unfold Grammar.symPrec
  simp only [gren_sym, sren_kind, sren_subs, sren_prec]

theorem rulePrec_ren (g : Grammar) (r : Rule) : (g.ren ρ).rulePrec (r.ren ρ) = (g.rulePrec r).ren ρ := by
  unfold Grammar.rulePrec
  simp only [symPrec_ren, rren_precSym, rren_rhs, gren_sym, sren_prec]
  cases r.precSym with
  | some p => rfl
  | none =>
    simp only
    cases r.rhs.find? (fun s => (g.symPrec s.sym).isSome) <;> rfl

theorem findRulePrecedences_ren (g : Grammar) : (g.ren ρ).findRulePrecedences = g.findRulePrecedences.ren ρ := by
  unfold Grammar.findRulePrecedences
  simp only [Grammar.ren, List.map_map]
  congr 1
  apply List.map_congr_left
  intro r _
  exact rulePrec_ren g r

theorem typed_ren (g : Grammar) (s : SymbolId) : (g.ren ρ).typed s = g.typed s := by
  unfold Grammar.typed
  simp

theorem ite_map_aux {α β : Type} {c c' : Prop} [Decidable c] [Decidable c'] {a b : Except GErr α} {a' b' : Except GErr β} {f : α → β}
    (h : c' ↔ c) (ha : a' = a.map f) (hb : b' = b.map f) : (if c' then a' else b') = (if c then a else b).map f := by
  by_cases hc : c
  · rw [if_pos hc, if_pos (h.2 hc), ha]
  · rw [if_neg hc, if_neg (fun h' => hc (h.1 h')), hb]

theorem mapM_ren {α β α' β' : Type} {F : α → Except GErr β} {F' : α' → Except GErr β'} {p : α → α'} {q : β → β'}
    (h : ∀ a, F' (p a) = (F a).map q) : ∀ l : List α, (l.map p).mapM F' = (l.mapM F).map (List.map q) := by
  intro l
  induction l with
  | nil => rfl
  | cons a l ih =>
    rw [List.map_cons, List.mapM_cons, List.mapM_cons, h, ih]
    cases F a with
    | error e => rfl
    | ok b =>
      cases l.mapM F <;> rfl

theorem normalizeRule_ren (g : Grammar) (r : Rule) : (g.ren ρ).normalizeRule (r.ren ρ) = (g.normalizeRule r).map (Rule.ren ρ) := by
  unfold Grammar.normalizeRule
  simp only [typed_ren, rren_lhs, rren_rhs, rren_code, Option.isNone_map]
  by_cases h1 : (g.typed r.lhs && r.code.isNone) = true
  · simp only [h1, if_true]
    by_cases h2 : ((r.rhs.all fun s => !s.alias) && (r.rhs.filter fun s => g.typed s.sym).length == 1) = true
    · simp only [h2, if_true]; rfl
    · simp only [if_neg h2]; rfl
  · simp only [if_neg h1]; rfl

theorem normalizeRules_ren (g : Grammar) : (g.ren ρ).normalizeRules = g.normalizeRules.map (Grammar.ren ρ) := by
  unfold Grammar.normalizeRules
  rw [gren_rules, mapM_ren (normalizeRule_ren g)]
  cases g.rules.mapM g.normalizeRule <;> rfl

/-! ## `find_first_sets` -/

theorem lambdaStep_ren (acc : List Symbol × Bool) (r : Rule) :
    lambdaStep (acc.1.map (Symbol.ren ρ), acc.2) (r.ren ρ) = ((lambdaStep acc r).1.map (Symbol.ren ρ), (lambdaStep acc r).2) := by
  unfold lambdaStep
  simp only [getD_ren, sren_isLambda, rren_lhs, rren_rhs]
  by_cases h1 : (acc.1.getD r.lhs default).isLambda = true
  · simp only [h1, if_true]
  · simp only [if_neg h1]
    by_cases h2 : (r.rhs.all fun s => (acc.1.getD s.sym default).isLambda) = true
    · simp only [h2, if_true]
      rw [modify_map (Symbol.ren ρ) (f := fun b => { b with lambda := true }) (fun b => rfl)]
    · simp only [if_neg h2]

theorem foldl_sren {F : List Symbol × Bool → Rule → List Symbol × Bool}
    (h : ∀ acc r, F (acc.1.map (Symbol.ren ρ), acc.2) (r.ren ρ) = ((F acc r).1.map (Symbol.ren ρ), (F acc r).2)) (l : List Rule) :
    ∀ acc, (l.map (Rule.ren ρ)).foldl F (acc.1.map (Symbol.ren ρ), acc.2) = ((l.foldl F acc).1.map (Symbol.ren ρ), (l.foldl F acc).2) := by
  induction l with
  | nil => intro acc; rfl
  | cons r l ih => intro acc; rw [List.map_cons, List.foldl_cons, List.foldl_cons, h, ih]

theorem lambdaLoop_ren (rules : List Rule) (n : Nat) : ∀ syms : List Symbol, lambdaLoop (rules.map (Rule.ren ρ)) n (syms.map (Symbol.ren ρ)) =
    (lambdaLoop rules n syms).map (List.map (Symbol.ren ρ)) := by
  induction n with
  | zero => intro syms; rfl
  | succ n ih =>
    intro syms
    rw [lambdaLoop, lambdaLoop]
    have := foldl_sren (ρ := ρ) lambdaStep_ren rules (syms, false)
    simp only at this
    rw [this]
    simp only
    split
    · exact ih _
    · rfl

theorem growFirst_ren (acc : List Symbol × Bool) (s : SymbolId) (add : List Nat) :
    growFirst (acc.1.map (Symbol.ren ρ), acc.2) s add = ((growFirst acc s add).1.map (Symbol.ren ρ), (growFirst acc s add).2) := by
  unfold growFirst
  simp only [getD_ren, sren_first]
  rw [modify_map (Symbol.ren ρ) (f := fun b => { b with firstSet := setUnion (acc.1.getD s default).firstSet add }) (fun b => rfl)]

theorem firstRhs_ren (s1 : SymbolId) (xs : List RhsSym) : ∀ acc : List Symbol × Bool,
    firstRhs s1 (acc.1.map (Symbol.ren ρ), acc.2) xs = ((firstRhs s1 acc xs).1.map (Symbol.ren ρ), (firstRhs s1 acc xs).2) := by
  induction xs with
  | nil => intro acc; rfl
  | cons x xs ih =>
    intro acc
    rw [firstRhs, firstRhs]
    simp only [getD_ren, sren_isLambda, sren_kind, sren_index, sren_subs, sren_first, sren_lambda]
    by_cases h1 : s1 = x.sym
    · simp only [if_pos h1]
      by_cases h2 : (acc.1.getD s1 default).isLambda = true
      · simp only [h2, if_true]; exact ih acc
      · simp only [if_neg h2]
    · simp only [if_neg h1]
      cases (acc.1.getD x.sym default).kind with
      | terminal => exact growFirst_ren ..
      | multiTerminal => exact growFirst_ren ..
      | nonTerminal =>
        simp only [growFirst_ren]
        by_cases h2 : (acc.1.getD x.sym default).lambda = true
        · simp only [h2, if_true]; exact ih _
        · simp only [if_neg h2]

theorem firstLoop_ren (rules : List Rule) (n : Nat) : ∀ syms : List Symbol, firstLoop (rules.map (Rule.ren ρ)) n (syms.map (Symbol.ren ρ)) =
    (firstLoop rules n syms).map (List.map (Symbol.ren ρ)) := by
  induction n with
  | zero => intro syms; rfl
  | succ n ih =>
    intro syms
    rw [firstLoop, firstLoop]
    have := foldl_sren (ρ := ρ) (F := fun acc r => firstRhs r.lhs acc r.rhs) (fun acc r => firstRhs_ren r.lhs r.rhs acc) rules (syms, false)
    simp only at this
    rw [this]
    simp only
    split
    · exact ih _
    · rfl

theorem findFirstSets_ren (g : Grammar) : (g.ren ρ).findFirstSets = g.findFirstSets.map (Grammar.ren ρ) := by
  unfold Grammar.findFirstSets
  rw [gren_rules, gren_syms, List.length_map, lambdaLoop_ren]
  cases lambdaLoop g.rules (g.syms.length + 1) g.syms with
  | error e => rfl
  | ok syms =>
    simp only [Except.map]
    rw [firstLoop_ren]
    cases firstLoop g.rules (g.syms.length * g.syms.length + 1) syms <;> rfl

/-! ## States -/

theorem rhsSyms_ren (g : Grammar) (r : RuleId) : (g.ren ρ).rhsSyms r = g.rhsSyms r := by
  unfold Grammar.rhsSyms
  simp

theorem followOf_ren (g : Grammar) (xs : List SymbolId) : (g.ren ρ).followOf xs = g.followOf xs := by
  induction xs with
  | nil => rfl
  | cons x xs ih =>
    rw [Grammar.followOf, Grammar.followOf]
    simp only [gren_sym, sren_kind, sren_index, sren_subs, sren_lambda, sren_first, ih]

theorem closeItem_ren (g : Grammar) (sid : StateId) (cur : List Cfg) (c : Item) : (g.ren ρ).closeItem sid cur c = g.closeItem sid cur c := by
  unfold Grammar.closeItem
  simp only [rhsSyms_ren, gren_sym, sren_kind, sren_rules, followOf_ren, gren_errorSymbol]
  rfl

theorem closureLoop_ren (g : Grammar) (sid : StateId) (n : Nat) : ∀ i cur, (g.ren ρ).closureLoop sid n i cur = g.closureLoop sid n i cur := by
  induction n with
  | zero => intro i cur; rfl
  | succ n ih =>
    intro i cur
    rw [Grammar.closureLoop, Grammar.closureLoop]
    simp only [closeItem_ren, ih]

theorem closure_ren (g : Grammar) (sid : StateId) (cur : List Cfg) : (g.ren ρ).closure sid cur = g.closure sid cur := by
  unfold Grammar.closure
  simp only [closureLoop_ren, gren_rules, List.length_map]

theorem next_ren (g : Grammar) (i : Item) : (g.ren ρ).next i = g.next i := by
  unfold Grammar.next
  rw [rhsSyms_ren]

theorem shiftActions_ren (g : Grammar) (sp : SymbolId) (t : StateId) : (g.ren ρ).shiftActions sp t = g.shiftActions sp t := by
  unfold Grammar.shiftActions
  simp only [gren_sym, sren_kind, sren_subs]

theorem shiftBasis_ren (g : Grammar) (sid : StateId) (sp : SymbolId) (l : List Cfg) : (g.ren ρ).shiftBasis sid sp l = g.shiftBasis sid sp l := by
  unfold Grammar.shiftBasis
  simp only [next_ren]

theorem shiftsLoop_ren (g : Grammar) (get) (sid : StateId) (n : Nat) : ∀ sts pending aps,
    (g.ren ρ).shiftsLoop get sid n sts pending aps = g.shiftsLoop get sid n sts pending aps := by
  induction n with
  | zero => intro _ _ _; rfl
  | succ n ih =>
    intro sts pending aps
    unfold Grammar.shiftsLoop
    simp only [next_ren, shiftBasis_ren, shiftActions_ren, ih]

theorem getState_ren (g : Grammar) (n : Nat) : ∀ sts cur, (g.ren ρ).getState n sts cur = g.getState n sts cur := by
  induction n with
  | zero => intro _ _; rfl
  | succ n ih =>
    intro sts cur
    rw [Grammar.getState, Grammar.getState]
    have : (g.ren ρ).getState n = g.getState n := funext fun a => funext fun b => ih a b
    simp only [closure_ren, shiftsLoop_ren, this]

theorem startBasis_ren (g : Grammar) (sp : SymbolId) : (g.ren ρ).startBasis sp = g.startBasis sp := by
  unfold Grammar.startBasis
  simp only [gren_sym, sren_kind, sren_rules]

theorem markStart_ren (g : Grammar) (sp : SymbolId) : (g.ren ρ).markStart sp = (g.markStart sp).ren ρ := by
  have h : ∀ (l : List RuleId) (rs : List Rule), l.foldl (fun rs rp => rs.modify rp (fun r => { r with lhsStart := true })) (rs.map (Rule.ren ρ)) =
      (l.foldl (fun rs rp => rs.modify rp (fun r => { r with lhsStart := true })) rs).map (Rule.ren ρ) := by
    intro l
    induction l with
    | nil => intro rs; rfl
    | cons a l ih =>
      intro rs
      rw [List.foldl_cons, List.foldl_cons, modify_map (Rule.ren ρ) (f := fun r => { r with lhsStart := true }) (fun r => rfl), ih]
  unfold Grammar.markStart
  simp only [gren_sym, sren_kind, sren_rules, gren_rules, h]
  cases (g.sym sp).kind <;> rfl

theorem numItems_ren (g : Grammar) : (g.ren ρ).numItems = g.numItems := by
  unfold Grammar.numItems
  rw [gren_rules, List.map_map]
  rfl

theorem findStates_ren (g : Grammar) : (g.ren ρ).findStates = g.findStates.map (fun x => (x.1.ren ρ, x.2)) := by
  unfold Grammar.findStates
  simp only [gren_start, gren_rules, List.any_map, startBasis_ren, markStart_ren, getState_ren, numItems_ren]
  show (if (g.rules.any fun r => r.rhs.any fun s => decide (s.sym = g.start.getD 0)) = true then _ else _) = _
  by_cases h : (g.rules.any fun r => r.rhs.any fun s => decide (s.sym = g.start.getD 0)) = true
  · simp only [if_pos h]; rfl
  · simp only [if_neg h]
    cases (g.markStart (g.start.getD 0)).getState (2 ^ (g.markStart (g.start.getD 0)).numItems + 1) [] (g.startBasis (g.start.getD 0)) <;> rfl

theorem automaton_ren (g : Grammar) (ord) : (g.ren ρ).automaton ord = (g.automaton ord).map (fun x => (x.1.ren ρ, x.2)) := by
  unfold Grammar.automaton
  simp only [prepare_ren, findRulePrecedences_ren, normalizeRules_ren]
  cases (g.prepare ord).findRulePrecedences.normalizeRules with
  | error e => rfl
  | ok g =>
    simp only [Except.map, bind, Except.bind]
    rw [findFirstSets_ren]
    cases g.findFirstSets with
    | error e => rfl
    | ok g =>
      simp only [Except.map]
      rw [findStates_ren]
      cases g.findStates with
      | error e => rfl
      | ok x =>
        simp only [Except.map, gren_syms, List.length_map]
        cases findFollowSets x.1.syms.length (findLinks x.2) <;> rfl

/-! ## Actions -/

theorem actionLt_ren (g : Grammar) (a b : Action) : (g.ren ρ).actionLt a b = g.actionLt a b := by
  unfold Grammar.actionLt
  simp only [gren_sym, sren_index]

theorem reduceActions_ren (g : Grammar) (st : LState) : (g.ren ρ).reduceActions st = g.reduceActions st := by
  unfold Grammar.reduceActions
  simp only [rhsSyms_ren, gren_num, gren_symbols]

theorem rawActions_ren (g : Grammar) (q : StateId) (st : LState) : (g.ren ρ).rawActions q st = g.rawActions q st := by
  unfold Grammar.rawActions
  simp only [reduceActions_ren, gren_start]

theorem resolveConflict_ren (g : Grammar) (x y : Action) : (g.ren ρ).resolveConflict x y = g.resolveConflict x y := by
  unfold Grammar.resolveConflict
  simp only [gren_sym, gren_rule, sren_prec, rren_prec]

theorem resolveFrom_ren (g : Grammar) (ys : List Action) : ∀ x, (g.ren ρ).resolveFrom x ys = g.resolveFrom x ys := by
  induction ys with
  | nil => intro x; rfl
  | cons y ys ih =>
    intro x
    rw [Grammar.resolveFrom, Grammar.resolveFrom]
    simp only [resolveConflict_ren, ih]

theorem resolveAll_ren (g : Grammar) (n : Nat) : ∀ l, (g.ren ρ).resolveAll n l = g.resolveAll n l := by
  induction n with
  | zero => intro l; rfl
  | succ n ih =>
    intro l
    cases l with
    | nil => rfl
    | cons x xs =>
      rw [Grammar.resolveAll, Grammar.resolveAll]
      simp only [resolveFrom_ren, ih]

theorem resolveState_ren (g : Grammar) (acts : List Action) : (g.ren ρ).resolveState acts = g.resolveState acts := by
  unfold Grammar.resolveState
  have : (g.ren ρ).actionLt = g.actionLt := funext fun a => funext fun b => actionLt_ren g a b
  simp only [resolveAll_ren, this]

theorem findActions_ren (g : Grammar) (sts : List LState) : (g.ren ρ).findActions sts = g.findActions sts := by
  unfold Grammar.findActions
  simp only [rawActions_ren, resolveState_ren, gren_rules, List.length_map]

theorem fallbackDiffers_ren (g : Grammar) (acts : List Action) (d : Detail) (n : Nat) : ∀ s, (g.ren ρ).fallbackDiffers acts d n s = g.fallbackDiffers acts d n s := by
  induction n with
  | zero => intro s; rfl
  | succ n ih =>
    intro s
    rw [Grammar.fallbackDiffers, Grammar.fallbackDiffers]
    simp only [gren_sym, sren_fallback, ih]

theorem ignoredActions_ren (g : Grammar) (acts : List Action) : (g.ren ρ).ignoredActions acts = g.ignoredActions acts := by
  unfold Grammar.ignoredActions
  simp only [gren_hasFallback, fallbackDiffers_ren, gren_syms, List.length_map]

theorem findBest_ren (g : Grammar) (ig : List SymbolId) (l : List Action) : ∀ b, (g.ren ρ).findBest ig b l = g.findBest ig b l := by
  induction l with
  | nil => intro b; rfl
  | cons a l ih =>
    intro b
    rw [Grammar.findBest, Grammar.findBest]
    simp only [ih, gren_wildcard, gren_rule, rren_start]
    rfl

theorem compressState_ren (g : Grammar) (d : SymbolId) (acts : List Action) : (g.ren ρ).compressState d acts = g.compressState d acts := by
  unfold Grammar.compressState
  have : (g.ren ρ).actionLt = g.actionLt := funext fun a => funext fun b => actionLt_ren g a b
  simp only [ignoredActions_ren, findBest_ren, this]

theorem compressTables_ren (hρ : ρ.Distinct) (g : Grammar) (acts : List (List Action)) : (g.ren ρ).compressTables acts = g.compressTables acts := by
  unfold Grammar.compressTables
  have h := symbolFind_ren hρ g .dflt
  rw [show ρ.name .dflt = .dflt from rfl] at h
  have h' : ∀ d, (g.ren ρ).compressState d = g.compressState d := fun d => funext fun a => compressState_ren g d a
  simp only [h, h']

theorem rstate_ren (g : Grammar) (n : Nat) (id : StateId) (acts : List Action) : (g.ren ρ).rstate n id acts = g.rstate n id acts := by
  unfold Grammar.rstate
  simp only [gren_sym, sren_index, gren_num, gren_dflt, gren_rules, List.length_map]

theorem resortStates_ren (g : Grammar) (acts : List (List Action)) : (g.ren ρ).resortStates acts = g.resortStates acts := by
  unfold Grammar.resortStates
  simp only [rstate_ren]

/-! ## `generate_source` -/

theorem row_ren (g : Grammar) (sts : List RState) (b : Bool) (acts : List Action) : (g.ren ρ).row sts b acts = g.row sts b acts := by
  unfold Grammar.row
  simp only [gren_sym, sren_index, gren_num, gren_dflt, gren_rules, List.length_map]

theorem pack_ren (g : Grammar) (sts : List RState) : (g.ren ρ).pack sts = g.pack sts := by
  unfold Grammar.pack
  have : (g.ren ρ).packOne sts = g.packOne sts := by
    funext p a
    unfold Grammar.packOne
    simp only [row_ren]
  rw [this]

theorem finalType_ren (g : Grammar) (s : SymbolId) : (g.ren ρ).finalType s = (g.finalType s).map (Option.map ρ.type) := by
  unfold Grammar.finalType
  simp only [gren_sym, sren_kind, sren_subs, sren_type, gren_defaultType]
  have hor : ∀ a b : Option Ty, (a.map ρ.type).or (b.map ρ.type) = (a.or b).map ρ.type := by intro a b; cases a <;> cases b <;> rfl
  cases (g.sym s).kind with
  | terminal => simp only [Except.map, hor]
  | nonTerminal => simp only [Except.map, hor]
  | multiTerminal =>
    cases (g.sym s).subs with
    | nil => rfl
    | cons f fs =>
      simp only
      by_cases h : f = s
      · simp only [if_pos h]; rfl
      · simp only [if_neg h, Except.map, hor]

section
variable (hρ : ρ.Distinct)
include hρ

theorem contains_ren (l : List Ty) (t : Ty) : (l.map ρ.type).contains (ρ.type t) = l.contains t := by
  induction l with
  | nil => rfl
  | cons a l ih =>
    simp only [List.map_cons, List.contains_cons, ih]
    congr 1
    rw [Bool.eq_iff_iff]
    simp only [beq_iff_eq]
    exact type_eq hρ

theorem idxOf_ren (l : List Ty) (t : Ty) : (l.map ρ.type).idxOf (ρ.type t) = l.idxOf t := by
  induction l with
  | nil => rfl
  | cons a l ih =>
    simp only [List.map_cons, List.idxOf_cons, ih]
    have : (ρ.type a == ρ.type t) = (a == t) := by
      rw [Bool.eq_iff_iff]
      simp only [beq_iff_eq]
      exact type_eq hρ
    rw [this]

theorem assignTypes_ren (ss : List SymbolId) : ∀ (g : Grammar) (types : List Ty), (g.ren ρ).assignTypes (types.map ρ.type) ss =
    (g.assignTypes types ss).map (fun x => (x.1.ren ρ, x.2.map ρ.type)) := by
  induction ss with
  | nil => intro g types; rfl
  | cons s ss ih =>
    intro g types
    rw [Grammar.assignTypes, Grammar.assignTypes, gren_wildcard, finalType_ren]
    by_cases h : g.wildcard = some s
    · simp only [if_pos h]; exact ih g types
    · simp only [if_neg h]
      cases g.finalType s with
      | error e => rfl
      | ok t =>
        cases t with
        | none =>
          simp only [Except.map, Option.map_none]
          rw [modifySym_ren (f := fun b => { b with dataType := none, dtNum := 0 }) (fun b => rfl)]
          exact ih _ _
        | some t =>
          simp only [Except.map, Option.map_some, contains_ren hρ]
          have hl : (if types.contains t = true then types.map ρ.type else types.map ρ.type ++ [ρ.type t]) =
              (if types.contains t = true then types else types ++ [t]).map ρ.type := by
            by_cases h : types.contains t = true
            · simp only [if_pos h]
            · simp only [if_neg h, List.map_append, List.map_cons, List.map_nil]
          rw [hl, idxOf_ren hρ, modifySym_ren (f := fun b => { b with dataType := some t, dtNum := (if types.contains t = true then types else types ++ [t]).idxOf t + 1 }) (fun b => rfl)]
          exact ih _ _

omit hρ in
theorem fallbackTable_ren (g : Grammar) : (g.ren ρ).fallbackTable = g.fallbackTable := by
  unfold Grammar.fallbackTable
  simp only [gren_symbols, gren_sym, sren_fallback, sren_dt, sren_index]

omit hρ in
theorem translateCode_ren (g : Grammar) (r : Rule) : (g.ren ρ).translateCode (r.ren ρ) =
    (g.translateCode r).map (fun c => { c with code := c.code.map ρ.code }) := by
  unfold Grammar.translateCode
  simp only [rren_rhs, rren_lhs, rren_code, gren_sym, sren_kind, sren_subs, sren_dt, gren_wildcard]
  exact ite_map_aux Iff.rfl rfl (ite_map_aux Iff.rfl rfl rfl)

theorem generate_ren (g : Grammar) (sts : List RState) : (g.ren ρ).generate sts = (g.generate sts).map ρ.tables := by
  unfold Grammar.generate
  refine ite_map_aux ?_ rfl ?_
  · rw [gren_wildcard]
    cases g.wildcard with
    | none => exact Iff.rfl
    | some w => simp only [gren_sym, sren_type, Option.isSome_map]
  · have h := assignTypes_ren hρ g.symbols g []
    rw [List.map_nil] at h
    rw [gren_symbols, h]
    cases g.assignTypes [] g.symbols with
    | error e => rfl
    | ok x =>
      obtain ⟨g, types⟩ := x
      simp only [Except.map]
      have hc : (g.ren ρ).checkItems = g.checkItems := rfl
      rw [hc, pack_ren, fallbackTable_ren, gren_rules, mapM_ren (translateCode_ren g)]
      cases g.checkItems with
      | error e => rfl
      | ok u =>
        simp only
        cases g.pack sts with
        | none => rfl
        | some p =>
          simp only
          cases ofstTable sts.length p.tkn with
          | none => rfl
          | some sh =>
            cases ofstTable sts.length p.nt with
            | none => rfl
            | some rd =>
              simp only
              cases g.fallbackTable with
              | error e => rfl
              | ok fb =>
                simp only
                cases g.rules.mapM g.translateCode with
                | error e => rfl
                | ok rc =>
                  have hroot : (((g.sym (g.start.getD 0)).dataType).map ρ.type).getD .unit = ρ.type (((g.sym (g.start.getD 0)).dataType).getD .unit) := by
                    cases (g.sym (g.start.getD 0)).dataType <;> rfl
                  simp only [Except.map, gren_sym, gren_start, gren_errorSymbol, gren_wildcard, gren_symbols, gren_stackLimit, gren_num, gren_dflt, sren_type, sren_use,
                    sren_index, sren_name, sren_dt, List.length_map, List.map_map, hroot, contains_ren hρ, idxOf_ren hρ, Renaming.tables]
                  rfl

theorem build_ren (g : Grammar) (ord) : (g.ren ρ).build ord = (g.build ord).map ρ.tables := by
  unfold Grammar.build
  rw [automaton_ren]
  cases g.automaton ord with
  | error e => rfl
  | ok x =>
    simp only [Except.map, bind, Except.bind, findActions_ren]
    cases x.1.findActions x.2 with
    | error e => rfl
    | ok y =>
      simp only
      by_cases h : y.2 > 0
      · simp only [if_pos h]; rfl
      · simp only [if_neg h, compressTables_ren hρ]
        simp only [resortStates_ren, generate_ren hρ]
        cases x.1.compressTables y.1 <;> rfl

theorem compile_ren (ds : List Decl) (ord) : compile ord (ds.map ρ.decl) = (compile ord ds).map ρ.tables := by
  unfold compile
  rw [newFromDecls_ren hρ]
  cases newFromDecls ds with
  | error e => rfl
  | ok g => exact build_ren hρ g ord

end

end Pomelo
