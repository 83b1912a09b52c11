import Verif.Proofs.DeclObs
import Verif.Proofs.GInv
/-! # What the declarations leave in the grammar, as a whole -/

namespace Pomelo

/-- The global attributes -/
structure Glob where
  prec : Nat := 0
  wildcard : Option SymName := none
  start : Option SymName := none
  defaultType : Option Ty := none
  extraToken : Option Ty := none
  arg : Option Ty := none
  errType : Option Ty := none
  syntaxError : Bool := false
  parseFail : Bool := false
  stackOverflow : Bool := false
  tokenEnum : Option Skeleton := none
  parserStruct : Option Skeleton := none
  stackType : Option Ty := none
  stackLimit : Nat := 100

/-- The global attributes of a grammar -/
def Grammar.glob (g : Grammar) : Glob :=
  { prec := g.prec, wildcard := g.wildcard.map (fun s => (g.sym s).name), start := g.start.map (fun s => (g.sym s).name)
    defaultType := g.defaultType, extraToken := g.extraToken, arg := g.arg, errType := g.errType
    syntaxError := g.syntaxError, parseFail := g.parseFail, stackOverflow := g.stackOverflow
    tokenEnum := g.tokenEnum, parserStruct := g.parserStruct, stackType := g.stackType, stackLimit := g.stackLimit }

/-- Effect of a directive -/
def Glob.step (a : Glob) : Decl → Glob
  | .syntaxError => { a with syntaxError := true }
  | .parseFail => { a with parseFail := true }
  | .stackOverflow => { a with stackOverflow := true }
  | .assoc _ _ => { a with prec := a.prec + 1 }
  | .defaultType t => { a with defaultType := some t }
  | .extraArgument t => { a with arg := some t }
  | .error t => { a with errType := some t }
  | .startSymbol i => { a with start := some (.ident i) }
  | .wildcard i => { a with wildcard := some (.ident i) }
  | .token it => { a with tokenEnum := some it }
  | .parser it => { a with parserStruct := some it }
  | .extraToken t => { a with extraToken := some t }
  | .stackSize l t => { a with stackLimit := l, stackType := t }
  | _ => a

/-- What must hold before a directive -/
def Glob.pre (a : Glob) : Decl → Prop
  | .syntaxError => a.syntaxError = false
  | .parseFail => a.parseFail = false
  | .stackOverflow => a.stackOverflow = false
  | .defaultType _ => a.defaultType = none
  | .extraArgument _ => a.arg = none
  | .error _ => a.errType = none
  | .startSymbol _ => a.start = none
  | .wildcard _ => a.wildcard = none
  | .token _ => a.tokenEnum = none
  | .parser _ => a.parserStruct = none
  | .extraToken _ => a.extraToken = none
  | .stackSize _ _ => a.stackType = none
  | _ => True

/-- Everything but the symbols, the rules and the optional symbols -/
def Grammar.rest (g : Grammar) : Grammar := { g with syms := [], symbols := [], rules := [], optionals := [] }

theorem glob_rest {g g' : Grammar} (hd : DInv g) (hle : DLe g g') (hr : g'.rest = g.rest) : g'.glob = g.glob := by
  have h : g'.prec = g.prec ∧ g'.wildcard = g.wildcard ∧ g'.start = g.start ∧ g'.defaultType = g.defaultType ∧
      g'.extraToken = g.extraToken ∧ g'.arg = g.arg ∧ g'.errType = g.errType ∧ g'.syntaxError = g.syntaxError ∧
      g'.parseFail = g.parseFail ∧ g'.stackOverflow = g.stackOverflow ∧ g'.tokenEnum = g.tokenEnum ∧
      g'.parserStruct = g.parserStruct ∧ g'.stackType = g.stackType ∧ g'.stackLimit = g.stackLimit := by
    unfold Grammar.rest at hr
    injection hr with a1 a2 a3 a4 a5 a6 a7 a8 a9 a10 a11 a12 a13 a14 a15 a16 a17 a18 a19 a20
    exact ⟨a20, a5, a6, a8, a9, a10, a11, a12, a13, a14, a15, a16, a17, a18⟩
  obtain ⟨h1, h2, h3, h4, h5, h6, h7, h8, h9, h10, h11, h12, h13, h14⟩ := h
  unfold Grammar.glob
  rw [h1, h2, h3, h4, h5, h6, h7, h8, h9, h10, h11, h12, h13, h14]
  congr 1
  · cases hw : g.wildcard with
    | none => rfl
    | some w => simp [hle.name w (hd.wild w hw).1]
  · cases hw : g.start with
    | none => rfl
    | some w => simp [hle.name w (hd.start w hw).1]

theorem rest_onlySyms {g g' : Grammar} (h : OnlySyms g g') : g'.rest = g.rest := by
  unfold OnlySyms at h; rw [h]; rfl

theorem rest_symbolNew {g : Grammar} (n : SymName) (k : SymKind) : (g.symbolNew n k).1.rest = g.rest := by
  unfold Grammar.symbolNew
  simp only
  split <;> rfl

theorem rest_declTokens {e : GErr} : ∀ {ids : List Ident} {g g' : Grammar} {ss : List SymbolId},
    g.declTokens e ids = .ok (g', ss) → g'.rest = g.rest := by
  intro ids
  induction ids with
  | nil => intro g g' ss he; cases he; rfl
  | cons id ids ih =>
    intro g g' ss he
    unfold Grammar.declTokens at he
    split at he
    · cases he
    · have h1 := rest_symbolNew (g := g) (.ident id) .terminal
      rcases hs : g.symbolNew (.ident id) .terminal with ⟨g1, s⟩
      rw [hs] at he h1
      simp only at he h1
      split at he
      · rename_i g2 ss2 h3
        cases he
        rw [ih h3, h1]
      · cases he

theorem rest_declAssoc {p : Precedence} : ∀ {ids : List Ident} {g g' : Grammar},
    g.declAssoc p ids = .ok g' → g'.rest = g.rest := by
  intro ids
  induction ids with
  | nil => intro g g' he; cases he; rfl
  | cons id ids ih =>
    intro g g' he
    unfold Grammar.declAssoc at he
    split at he
    · cases he
    · have h1 := rest_symbolNew (g := g) (.ident id) .terminal
      rcases hs : g.symbolNew (.ident id) .terminal with ⟨g1, s⟩
      rw [hs] at he h1
      simp only at he h1
      split at he
      · cases he
      · rw [ih he]; exact h1

theorem rest_setFallbacks {f : SymbolId} : ∀ {ss : List SymbolId} {g g' : Grammar},
    g.setFallbacks f ss = .ok g' → Grammar.rest { g' with hasFallback := false } = Grammar.rest { g with hasFallback := false } := by
  intro ss
  induction ss with
  | nil => intro g g' he; cases he; rfl
  | cons s ss ih =>
    intro g g' he
    unfold Grammar.setFallbacks at he
    split at he
    · cases he
    · rw [ih he]; rfl

theorem rest_declClass {tk : SymbolId} : ∀ {ids : List Ident} {g g' : Grammar},
    g.declClass tk ids = .ok g' → g'.rest = g.rest := by
  intro ids
  induction ids with
  | nil => intro g g' he; cases he; rfl
  | cons id ids ih =>
    intro g g' he
    unfold Grammar.declClass at he
    split at he
    · cases he
    · have h1 := rest_symbolNew (g := g) (.ident id) .terminal
      rcases hs : g.symbolNew (.ident id) .terminal with ⟨g1, s⟩
      rw [hs] at he h1
      simp only at he h1
      rw [ih he]; exact h1

theorem rest_declElem {g g' : Grammar} {e : RhsElem} {x : RhsSym} (he : g.declElem e = .ok (g', x)) : g'.rest = g.rest := by
  unfold Grammar.declElem at he
  split at he
  · rename_i tok htok
    rcases hk : (if tok.isTerminal then some SymKind.terminal
      else if tok.isNonTerminal then some SymKind.nonTerminal else none) with _ | nst
    · simp only [hk] at he; cases he
    · simp only [hk] at he
      have h1 := rest_symbolNew (g := g) (.ident tok) nst
      rcases hs : g.symbolNew (.ident tok) nst with ⟨g1, s⟩
      rw [hs] at he h1
      simp only at he h1
      split at he
      · split at he
        · cases he; exact h1
        · have h2 := rest_symbolNew (g := g1) (.opt g1.optionals.length) .nonTerminal
          rcases hs2 : g1.symbolNew (.opt g1.optionals.length) .nonTerminal with ⟨g2, s2⟩
          rw [hs2] at he h2
          simp only at he h2
          cases he
          exact h2.trans h1
      · cases he; exact h1
  · have h1 := rest_symbolNew (g := g) .anon .multiTerminal
    rcases hs : g.symbolNew .anon .multiTerminal with ⟨g1, mt⟩
    rw [hs] at he h1
    simp only at he h1
    split at he
    · cases he
    · rename_i g2 ss hdt
      cases he
      exact (rest_declTokens hdt).trans h1

theorem rest_declRhs : ∀ {es : List RhsElem} {g g' : Grammar} {xs : List RhsSym},
    g.declRhs es = .ok (g', xs) → g'.rest = g.rest := by
  intro es
  induction es with
  | nil => intro g g' xs he; cases he; rfl
  | cons e es ih =>
    intro g g' xs he
    unfold Grammar.declRhs at he
    split at he
    · cases he
    · rename_i g1 x h1
      split at he
      · cases he
      · rename_i g2 xs2 h2
        cases he
        rw [ih h2, rest_declElem h1]

theorem glob_parseOneDecl {g g' : Grammar} {d : Decl} (h : DInv g) (he : g.parseOneDecl d = .ok g') :
    g.glob.pre d ∧ g'.glob = g.glob.step d := by
  obtain ⟨hd', hle, hrs⟩ := h.parseOneDecl he
  unfold Grammar.parseOneDecl at he
  split at he
  case h_1 => cases he; exact ⟨trivial, rfl⟩
  case h_2 => cases he; exact ⟨trivial, rfl⟩
  case h_3 => cases he; exact ⟨trivial, rfl⟩
  case h_4 => split at he <;> cases he; rename_i hx; exact ⟨by simpa [Glob.pre, Grammar.glob] using hx, rfl⟩
  case h_5 => split at he <;> cases he; rename_i hx; exact ⟨by simpa [Glob.pre, Grammar.glob] using hx, rfl⟩
  case h_6 => split at he <;> cases he; rename_i hx; exact ⟨by simpa [Glob.pre, Grammar.glob] using hx, rfl⟩
  case h_7 attrs id ty =>
    refine ⟨trivial, ?_⟩
    apply glob_rest h hle
    rcases hk : (if id.isTerminal then Except.ok SymKind.terminal
      else if id.isNonTerminal then
        if attrs then .error .attributesOnNonTerminal else .ok .nonTerminal
      else .error .badSymbol : Except GErr SymKind) with _ | nst
    · simp only [hk] at he; cases he
    · simp only [hk] at he
      have h1 := rest_symbolNew (g := g) (.ident id) nst
      rcases hs : g.symbolNew (.ident id) nst with ⟨g1, s⟩
      rw [hs] at he h1
      simp only at he h1
      split at he
      · cases he
      · cases he; exact h1
  case h_8 a ids =>
    refine ⟨trivial, ?_⟩
    have hd : DInv { g with prec := g.prec + 1 } := h.congr rfl rfl rfl rfl rfl rfl rfl
    have : g'.glob = Grammar.glob { g with prec := g.prec + 1 } := by
      refine glob_rest hd ?_ (rest_declAssoc he)
      exact ⟨hle.len, hle.name, hle.kind, hle.subs, hle.subsPre, hle.rules, hle.opts⟩
    rw [this]; rfl
  case h_9 => split at he <;> cases he; rename_i hx; exact ⟨by simpa [Glob.pre, Grammar.glob] using hx, rfl⟩
  case h_10 => split at he <;> cases he; rename_i hx; exact ⟨by simpa [Glob.pre, Grammar.glob] using hx, rfl⟩
  case h_11 => split at he <;> cases he; rename_i hx; exact ⟨by simpa [Glob.pre, Grammar.glob] using hx, rfl⟩
  case h_12 id =>
    split at he
    · cases he
    · rename_i hst
      split at he
      · cases he
      · rename_i hid
        have h1 := rest_symbolNew (g := g) (.ident id) .nonTerminal
        have h2 := h.symbolNew (askOk_lower hid)
        rcases hs : g.symbolNew (.ident id) .nonTerminal with ⟨g1, s⟩
        rw [hs] at he h1 h2
        simp only at he h1 h2
        cases he
        have hn : g.start = none := by simpa using hst
        refine ⟨by show g.start.map _ = none; rw [hn]; rfl, ?_⟩
        have hg := glob_rest h h2.2.1 h1
        show { g1.glob with start := some (g1.sym s).name } = _
        rw [hg, h2.2.2.2.1]
        rfl
  case h_13 fb ids =>
    refine ⟨trivial, ?_⟩
    refine glob_rest (g := { g with hasFallback := false }) (g' := { g' with hasFallback := false }) (h.congr rfl rfl rfl rfl rfl rfl rfl)
      ⟨hle.len, hle.name, hle.kind, hle.subs, hle.subsPre, hle.rules, hle.opts⟩ ?_
    split at he
    · cases he
    · rename_i g1 ss h1
      split at he
      · cases he
      · have h3 := rest_symbolNew (g := g1) (.ident fb) .terminal
        rcases hs : g1.symbolNew (.ident fb) .terminal with ⟨g2, f⟩
        rw [hs] at he h3
        simp only at he h3
        split at he
        · cases he
        · have h5 : g2.rest = g.rest := by rw [h3, rest_declTokens h1]
          have h6 : Grammar.rest { g2 with hasFallback := false } = Grammar.rest { g with hasFallback := false } := by
            have := congrArg (fun r : Grammar => { r with hasFallback := false }) h5
            exact this
          exact (rest_setFallbacks he).trans h6
  case h_14 id =>
    split at he
    · cases he
    · rename_i hst
      split at he
      · cases he
      · rename_i hid
        have h1 := rest_symbolNew (g := g) (.ident id) .terminal
        have h2 := h.symbolNew (askOk_upper hid)
        rcases hs : g.symbolNew (.ident id) .terminal with ⟨g1, s⟩
        rw [hs] at he h1 h2
        simp only at he h1 h2
        cases he
        have hn : g.wildcard = none := by simpa using hst
        refine ⟨by show g.wildcard.map _ = none; rw [hn]; rfl, ?_⟩
        have hg := glob_rest h h2.2.1 h1
        show { g1.glob with wildcard := some (g1.sym s).name } = _
        rw [hg, h2.2.2.2.1]
        rfl
  case h_15 tk ids =>
    refine ⟨trivial, ?_⟩
    apply glob_rest h hle
    split at he
    · cases he
    · have h1 := rest_symbolNew (g := g) (.ident tk) .multiTerminal
      rcases hs : g.symbolNew (.ident tk) .multiTerminal with ⟨g1, s⟩
      rw [hs] at he h1
      simp only at he h1
      rw [rest_declClass he, h1]
  case h_16 => split at he <;> cases he; rename_i hx; exact ⟨by simpa [Glob.pre, Grammar.glob] using hx, rfl⟩
  case h_17 => split at he <;> cases he; rename_i hx; exact ⟨by simpa [Glob.pre, Grammar.glob] using hx, rfl⟩
  case h_18 => split at he <;> cases he; rename_i hx; exact ⟨by simpa [Glob.pre, Grammar.glob] using hx, rfl⟩
  case h_19 => split at he <;> cases he; rename_i hx; exact ⟨by simpa [Glob.pre, Grammar.glob] using hx, rfl⟩
  case h_20 lhs rhs action prec =>
    refine ⟨trivial, ?_⟩
    apply glob_rest h hle
    split at he
    · cases he
    · have h1 := rest_symbolNew (g := g) (.ident lhs) .nonTerminal
      rcases hs : g.symbolNew (.ident lhs) .nonTerminal with ⟨g1, l⟩
      rw [hs] at he h1
      simp only at he h1
      split at he
      · cases he
      · rename_i g2 rs hrs
        have h3 := rest_declRhs hrs
        split at he
        · cases he; exact h3.trans h1
        · rename_i id
          split at he
          · cases he
          · have h5 := rest_symbolNew (g := g2) (.ident id) .terminal
            rcases hs2 : g2.symbolNew (.ident id) .terminal with ⟨g3, ps⟩
            rw [hs2] at he h5
            simp only at he h5
            cases he
            exact h5.trans (h3.trans h1)

/-! ## All declarations -/

/-- The precedence counter -/
def nextPrec (n : Nat) : Decl → Nat
  | .assoc _ _ => n + 1
  | _ => n

/-- All attributes of names after some declarations, starting with precedence counter `n` -/
def Attrs.steps (i : Ident) : Nat → Attrs → List Decl → Attrs
  | _, a, [] => a
  | n, a, d :: ds => Attrs.steps i (nextPrec n d) (a.step n i d) ds

/-- The condition of every directive is met when its turn comes. -/
def preAll : Glob → (Ident → Attrs) → List Decl → Prop
  | _, _, [] => True
  | a, o, d :: ds => a.pre d ∧ Attrs.pre o d ∧ preAll (a.step d) (fun i => (o i).step a.prec i d) ds

theorem preAll_parseDecls : ∀ {ds : List Decl} {g g' : Grammar}, DInv g → g.parseDecls ds = .ok g' →
    preAll g.glob g.obs ds ∧ g'.glob = ds.foldl Glob.step g.glob ∧
    ∀ i, g'.obs i = Attrs.steps i g.prec (g.obs i) ds := by
  intro ds
  induction ds with
  | nil => intro g g' h he; cases he; exact ⟨trivial, rfl, fun _ => rfl⟩
  | cons d ds ih =>
    intro g g' h he
    unfold Grammar.parseDecls at he
    split at he
    · cases he
    · rename_i g1 h1
      obtain ⟨b1, b2⟩ := glob_parseOneDecl h h1
      obtain ⟨c1, c2⟩ := obs_parseOneDecl h h1
      obtain ⟨d1, d2, d3⟩ := ih (h.parseOneDecl h1).1 he
      have hobs : g1.obs = fun i => (g.obs i).step g.prec i d := funext c2
      refine ⟨⟨b1, c1, ?_⟩, ?_, ?_⟩
      · show preAll (g.glob.step d) (fun i => (g.obs i).step g.prec i d) ds
        rw [← hobs, ← b2]
        exact d1
      · rw [d2, b2]; rfl
      · intro i
        rw [d3, c2]
        have : g1.prec = nextPrec g.prec d := by
          have := congrArg Glob.prec b2
          cases d <;> exact this
        rw [this]
        rfl

theorem steps_dataType (i : Ident) : ∀ (ds : List Decl) (a : Glob) (o : Ident → Attrs), preAll a o ds →
    (Attrs.steps i a.prec (o i) ds).dataType = (o i).dataType.or (Spec.typeOf ds i) := by
  intro ds
  induction ds with
  | nil => intro a o _; simp [Attrs.steps, Spec.typeOf]
  | cons d ds ih =>
    intro a o h
    obtain ⟨h1, h2, h3⟩ := h
    have hp : (a.step d).prec = nextPrec a.prec d := by cases d <;> rfl
    have := ih _ _ h3
    rw [hp] at this
    unfold Attrs.steps
    rw [this]
    unfold Spec.typeOf
    rw [List.findSome?_cons]
    cases d
    case type at_ j ty =>
      cases ty with
      | none => simp only [Attrs.step]; split <;> rfl
      | some t =>
        by_cases hj : j = i
        · subst hj
          have : (o j).dataType = none := h2
          simp [Attrs.step, this]
        · simp [Attrs.step, hj]
    all_goals first | rfl | (simp only [Attrs.step]; split <;> rfl)

theorem steps_precedence (i : Ident) : ∀ (ds : List Decl) (a : Glob) (o : Ident → Attrs), preAll a o ds →
    (Attrs.steps i a.prec (o i) ds).precedence = (o i).precedence.or (Spec.precFrom i a.prec ds) := by
  intro ds
  induction ds with
  | nil => intro a o _; simp [Attrs.steps, Spec.precFrom]
  | cons d ds ih =>
    intro a o h
    obtain ⟨h1, h2, h3⟩ := h
    have hp : (a.step d).prec = nextPrec a.prec d := by cases d <;> rfl
    have := ih _ _ h3
    rw [hp] at this
    unfold Attrs.steps
    rw [this]
    cases d
    case assoc s ids =>
      simp only [nextPrec, Spec.precFrom, Attrs.step]
      by_cases hj : i ∈ ids
      · have : (o i).precedence = none := h2.2 i hj
        simp [hj, this]
      · simp [hj]
    case type at_ j ty => cases ty with
      | none => simp only [nextPrec, Spec.precFrom, Attrs.step]; split <;> rfl
      | some t => simp only [nextPrec, Spec.precFrom, Attrs.step]; split <;> rfl
    all_goals first | rfl | (simp only [nextPrec, Spec.precFrom, Attrs.step]; split <;> rfl)

theorem steps_fallback (i : Ident) : ∀ (ds : List Decl) (a : Glob) (o : Ident → Attrs), preAll a o ds →
    (Attrs.steps i a.prec (o i) ds).fallback = (o i).fallback.or ((Spec.fallbackOf ds i).map SymName.ident) := by
  intro ds
  induction ds with
  | nil => intro a o _; simp [Attrs.steps, Spec.fallbackOf]
  | cons d ds ih =>
    intro a o h
    obtain ⟨h1, h2, h3⟩ := h
    have hp : (a.step d).prec = nextPrec a.prec d := by cases d <;> rfl
    have := ih _ _ h3
    rw [hp] at this
    unfold Attrs.steps
    rw [this]
    unfold Spec.fallbackOf
    rw [List.findSome?_cons]
    cases d
    case fallback fb ids =>
      simp only [Attrs.step]
      by_cases hj : i ∈ ids
      · have : (o i).fallback = none := h2.2 i hj
        simp [hj, this]
      · simp [hj]
    case type at_ j ty => cases ty with
      | none => simp only [Attrs.step]; split <;> rfl
      | some t => simp only [Attrs.step]; split <;> rfl
    all_goals first | rfl | (simp only [Attrs.step]; split <;> rfl)

theorem steps_class (i : Ident) : ∀ (ds : List Decl) (a : Glob) (o : Ident → Attrs), preAll a o ds →
    (Attrs.steps i a.prec (o i) ds).multi = ((o i).multi || Spec.isClass ds i) ∧
    (Attrs.steps i a.prec (o i) ds).subs = (o i).subs ++ (Spec.classMembers ds i).map SymName.ident := by
  intro ds
  induction ds with
  | nil => intro a o _; simp [Attrs.steps, Spec.isClass, Spec.classMembers]
  | cons d ds ih =>
    intro a o h
    obtain ⟨h1, h2, h3⟩ := h
    have hp : (a.step d).prec = nextPrec a.prec d := by cases d <;> rfl
    have := ih _ _ h3
    rw [hp] at this
    unfold Attrs.steps
    rw [this.1, this.2]
    unfold Spec.isClass Spec.classMembers
    rw [List.any_cons, List.flatMap_cons]
    cases d
    case tokenClass tk ids =>
      simp only [Attrs.step]
      by_cases hj : i = tk
      · subst hj; simp
      · have : ¬ tk = i := fun e => hj e.symm
        simp [hj, this]
    case type at_ j ty => cases ty with
      | none => simp only [Attrs.step]; split <;> exact ⟨rfl, rfl⟩
      | some t => simp only [Attrs.step]; split <;> exact ⟨rfl, rfl⟩
    all_goals first | exact ⟨rfl, rfl⟩ | (simp only [Attrs.step]; split <;> exact ⟨rfl, rfl⟩)

theorem steps_attributes (i : Ident) : ∀ (ds : List Decl) (n : Nat) (a : Attrs),
    (Attrs.steps i n a ds).attributes = (Spec.typeAttrs ds i).getLast?.getD a.attributes := by
  intro ds
  induction ds with
  | nil => intro n a; rfl
  | cons d ds ih =>
    intro n a
    unfold Attrs.steps
    rw [ih]
    unfold Spec.typeAttrs
    rw [List.filterMap_cons]
    cases d
    case type at_ j ty =>
      by_cases hj : j = i
      · simp only [hj, if_true, List.getLast?_cons]
        cases ty <;> simp [Attrs.step]
      · simp only [hj, if_false]
        cases ty <;> simp [Attrs.step, hj]
    all_goals first | rfl | (simp only [Attrs.step]; split <;> rfl)

theorem glob_foldl : ∀ (ds : List Decl) (a : Glob) (o : Ident → Attrs), preAll a o ds →
    (ds.foldl Glob.step a).wildcard = a.wildcard.or ((Spec.wildcardOf ds).map SymName.ident) ∧
    (ds.foldl Glob.step a).start = a.start.or ((Spec.startDirective ds).map SymName.ident) ∧
    (ds.foldl Glob.step a).defaultType = a.defaultType.or (Spec.defaultTypeOf ds) ∧
    (ds.foldl Glob.step a).extraToken = a.extraToken.or (Spec.extraTokenOf ds) := by
  intro ds
  induction ds with
  | nil => intro a o _; simp [Spec.wildcardOf, Spec.startDirective, Spec.defaultTypeOf, Spec.extraTokenOf]
  | cons d ds ih =>
    intro a o h
    obtain ⟨h1, h2, h3⟩ := h
    have := ih _ _ h3
    rw [List.foldl_cons, this.1, this.2.1, this.2.2.1, this.2.2.2]
    unfold Spec.wildcardOf Spec.startDirective Spec.defaultTypeOf Spec.extraTokenOf
    simp only [List.findSome?_cons]
    cases d
    case wildcard i =>
      have : a.wildcard = none := h1
      simp [Glob.step, this]
    case startSymbol i =>
      have : a.start = none := h1
      simp [Glob.step, this]
    case defaultType i =>
      have : a.defaultType = none := h1
      simp [Glob.step, this]
    case extraToken i =>
      have : a.extraToken = none := h1
      simp [Glob.step, this]
    all_goals exact ⟨rfl, rfl, rfl, rfl⟩

theorem obs_initial (i : Ident) : Grammar.initial.obs i = {} := by
  by_cases hi : i = .error
  · subst hi; decide
  · apply obs_blank DInv.initial
    intro s hs
    have : s = 0 ∨ s = 1 := by
      have : Grammar.initial.syms.length = 2 := by decide
      omega
    rcases this with rfl | rfl
    · rw [DInv.initial.dollar]; simp
    · rw [DInv.initial.errName]; intro e; injection e with e; exact hi e.symm

/-- What the declarations say is what the grammar records. -/
structure Declared (g : Grammar) (ds : List Decl) : Prop where
  type : ∀ i, (g.obs i).dataType = Spec.typeOf ds i
  prec : ∀ i, (g.obs i).precedence = Spec.precOf ds i
  fallback : ∀ i, (g.obs i).fallback = (Spec.fallbackOf ds i).map SymName.ident
  multi : ∀ i, (g.obs i).multi = Spec.isClass ds i
  subs : ∀ i, (g.obs i).subs = (Spec.classMembers ds i).map SymName.ident
  wildcard : g.wildcard.map (fun s => (g.sym s).name) = (Spec.wildcardOf ds).map SymName.ident
  start : g.start.map (fun s => (g.sym s).name) = (Spec.startDirective ds).map SymName.ident
  defaultType : g.defaultType = Spec.defaultTypeOf ds
  extraToken : g.extraToken = Spec.extraTokenOf ds
  attributes : ∀ i, (g.obs i).attributes = (Spec.typeAttrs ds i).getLast?.getD false

theorem declared {ds : List Decl} {g : Grammar} (h : Grammar.initial.parseDecls ds = .ok g) : Declared g ds := by
  obtain ⟨h1, h2, h3⟩ := preAll_parseDecls DInv.initial h
  have h4 := glob_foldl ds _ _ h1
  rw [← h2] at h4
  have hp : Grammar.initial.prec = Grammar.initial.glob.prec := rfl
  rw [hp] at h3
  refine ⟨?_, ?_, ?_, ?_, ?_, ?_, ?_, ?_, ?_, ?_⟩
  · intro i; rw [h3, steps_dataType i _ _ _ h1, obs_initial]; rfl
  · intro i; rw [h3, steps_precedence i _ _ _ h1, obs_initial]; rfl
  · intro i; rw [h3, steps_fallback i _ _ _ h1, obs_initial]; rfl
  · intro i; rw [h3, (steps_class i _ _ _ h1).1, obs_initial]; rfl
  · intro i; rw [h3, (steps_class i _ _ _ h1).2, obs_initial]; rfl
  · exact h4.1
  · exact h4.2.1
  · exact h4.2.2.1
  · exact h4.2.2.2
  · intro i; rw [h3, steps_attributes, obs_initial]

end Pomelo
